import Verif.Proofs.Sphere
import Verif.Proofs.SphereWidth
import Mathlib.Tactic.Ring
import Mathlib.Tactic.LinearCombination
import Mathlib.Tactic.Positivity
import Mathlib.Tactic.FieldSimp
/-
C30, C31, C32, C42: the regular sphere.
-/
set_option linter.unusedSectionVars false

namespace Bempp

section
variable {T : Type} [Zero T] [One T] [Neg T] [Add T] [Mul T] [Div T] {half : T} {sqrt : T → T}

/-- The triangulation after some rounds. -/
structure SphereInv (n : Nat) (s : SphereState T) : Prop where
  length : s.points.length = s.pointN
  cells : s.cells.length = 8 * 4 ^ n
  good : GoodMesh s.pointN s.cells

def octCells : List Tri :=
  [⟨0, 1, 2⟩, ⟨0, 2, 3⟩, ⟨0, 3, 4⟩, ⟨0, 4, 1⟩, ⟨5, 2, 1⟩, ⟨5, 3, 2⟩, ⟨5, 4, 3⟩, ⟨5, 1, 4⟩]

theorem octCells_good : GoodMesh 6 octCells := by
  refine ⟨by decide, by decide, by decide, ?_, by decide, ?_, ?_, rfl⟩
  · intro u v h
    have : ∀ d ∈ edgesOf octCells, (d.2, d.1) ∈ edgesOf octCells := by
      decide
    exact this _ h
  · decide
  · have h0 : ∀ i, i < 6 → ∃ a b c, (0, a) ∈ edgesOf octCells ∧
        (a, b) ∈ edgesOf octCells ∧ (b, c) ∈ edgesOf octCells ∧ c = i := by
      intro i hi
      have : i = 0 ∨ i = 1 ∨ i = 2 ∨ i = 3 ∨ i = 4 ∨ i = 5 := by omega
      rcases this with rfl | rfl | rfl | rfl | rfl | rfl
      · exact ⟨1, 2, 0, by decide, by decide, by decide, rfl⟩
      · exact ⟨1, 2, 1, by decide, by decide, by decide, rfl⟩
      · exact ⟨2, 1, 2, by decide, by decide, by decide, rfl⟩
      · exact ⟨3, 2, 3, by decide, by decide, by decide, rfl⟩
      · exact ⟨4, 1, 4, by decide, by decide, by decide, rfl⟩
      · exact ⟨1, 2, 5, by decide, by decide, by decide, rfl⟩
    have hs : ∀ u v, (u, v) ∈ edgesOf octCells →
        (v, u) ∈ edgesOf octCells := by
      intro u v h
      have : ∀ d ∈ edgesOf octCells,
          (d.2, d.1) ∈ edgesOf octCells := by decide
      exact this _ h
    intro i j hi hj
    obtain ⟨a, b, c, h1, h2, h3, rfl⟩ := h0 i hi
    obtain ⟨a', b', c', h1', h2', h3', rfl⟩ := h0 j hj
    exact ((((((Relation.ReflTransGen.refl.tail (hs _ _ h3)).tail (hs _ _ h2)).tail (hs _ _ h1)).tail h1').tail
      h2').tail h3')

theorem octahedron_good : GoodMesh 6 (octahedronStart (T := T)).cells := octCells_good

theorem refineLevel_inv {n : Nat} {s : SphereState T} (h : SphereInv n s) :
    ∃ s', refineLevel half sqrt s = some s' ∧ SphereInv (n + 1) s' := by
  obtain ⟨s', e, hn, hl, hc, -, -⟩ := refineLevel_eq (half := half) (sqrt := sqrt) h.length h.good.lt
  refine ⟨s', e, hl, ?_, ?_⟩
  · rw [hc]
    have l : ∀ (cs : List Tri) (e : Nat → Nat → Nat), (cs.flatMap (subdivide e)).length = 4 * cs.length := by
      intro cs e
      induction cs with
      | nil => rfl
      | cons t cs ih => rw [List.flatMap_cons, List.length_append, ih]; simp [subdivide]; omega
    rw [l, h.cells, pow_succ]
    omega
  · rw [hn, hc]
    exact h.good.refine (look_numbers h.good) rfl

/-- The state after `n` rounds exists and is good. -/
theorem sphere_state (half : T) (sqrt : T → T) (n : Nat) :
    ∃ s, (List.range n).foldlM (fun s _ => refineLevel half sqrt s) (octahedronStart (T := T)) = some s ∧
      SphereInv n s := by
  induction n with
  | zero => exact ⟨_, rfl, rfl, rfl, octahedron_good⟩
  | succ n ih =>
    obtain ⟨s, e, h⟩ := ih
    obtain ⟨s', e', h'⟩ := refineLevel_inv (half := half) (sqrt := sqrt) h
    refine ⟨s', ?_, h'⟩
    rw [List.range_succ, List.foldlM_append, e]
    simpa using e'

/-- The calls to the builder. -/
def SphereState.shape (s : SphereState T) : Shape T :=
  { points := s.points.zipIdx.map fun p => (p.2, p.1)
    cells := s.cells.zipIdx.map fun p => (p.2, [p.1.p0, p.1.p1, p.1.p2]) }

theorem regularSphere_eq {n : Nat} {s : SphereState T}
    (e : (List.range n).foldlM (fun s _ => refineLevel half sqrt s) (octahedronStart (T := T)) = some s) :
    regularSphere half sqrt n = some s.shape := by
  unfold regularSphere
  rw [e]
  rfl

theorem SphereState.shape_points (s : SphereState T) : s.shape.points.length = s.points.length := by
  simp [SphereState.shape]

theorem SphereState.shape_cells (s : SphereState T) :
    s.shape.cells.map Prod.snd = s.cells.map fun t => [t.p0, t.p1, t.p2] := by
  apply List.ext_getElem?
  intro i
  simp only [SphereState.shape, List.getElem?_map, List.getElem?_zipIdx, Option.map_map]
  cases s.cells[i]? <;> rfl

theorem SphereState.shape_at (s : SphereState T) (v : Nat) : s.shape.at v = s.points[v]? := by
  simp only [SphereState.shape, Shape.at, List.getElem?_map, List.getElem?_zipIdx, Option.map_map]
  cases s.points[v]? <;> rfl

theorem SphereState.shape_mem {s : SphereState T} {c : Nat × List Nat} (h : c ∈ s.shape.cells) :
    ∃ t ∈ s.cells, c.2 = [t.p0, t.p1, t.p2] := by
  have : c.2 ∈ s.shape.cells.map Prod.snd := List.mem_map.mpr ⟨c, h, rfl⟩
  rw [s.shape_cells] at this
  obtain ⟨t, ht, e⟩ := List.mem_map.mp this
  exact ⟨t, ht, e.symm⟩

theorem SphereState.mem_shape {s : SphereState T} {t : Tri} (h : t ∈ s.cells) :
    ∃ c ∈ s.shape.cells, c.2 = [t.p0, t.p1, t.p2] := by
  have : [t.p0, t.p1, t.p2] ∈ s.shape.cells.map Prod.snd := by
    rw [s.shape_cells]
    exact List.mem_map.mpr ⟨t, h, rfl⟩
  obtain ⟨c, hc, e⟩ := List.mem_map.mp this
  exact ⟨c, hc, e⟩

theorem SphereState.shape_edges (s : SphereState T) : s.shape.edges = edgesOf s.cells := by
  unfold Shape.edges edgesOf
  have : s.shape.cells.flatMap (fun c => cellEdges c.2) = (s.shape.cells.map Prod.snd).flatMap cellEdges := by
    rw [List.flatMap_map]
  rw [this, s.shape_cells, List.flatMap_map]
  rfl

/-- C30: `regular_sphere(n)` does not panic, and builds `4^(n+1) + 2` points and `8 * 4^n` cells, which are
numbered in order; cells refer to existing points and all points are used. -/
theorem C30_sizes (half : T) (sqrt : T → T) (n : Nat) : ∃ s, regularSphere half sqrt n = some s ∧
    s.points.length = 4 ^ (n + 1) + 2 ∧ s.cells.length = 8 * 4 ^ n ∧ s.Numbered ∧ s.Complete := by
  obtain ⟨s, e, h⟩ := sphere_state half sqrt n
  refine ⟨s.shape, regularSphere_eq e, ?_, ?_, ⟨?_, ?_⟩, ?_, ?_⟩
  · have := h.good.euler
    rw [s.shape_points, h.length, pow_succ]
    rw [h.cells] at this
    omega
  · have := congrArg List.length s.shape_cells
    simpa [h.cells] using this
  · simp only [SphereState.shape, List.map_map, List.length_map, List.length_zipIdx]
    rw [List.range_eq_range', ← List.zipIdx_map_snd 0 s.points]
    rfl
  · simp only [SphereState.shape, List.map_map, List.length_map, List.length_zipIdx]
    rw [List.range_eq_range', ← List.zipIdx_map_snd 0 s.cells]
    rfl
  · intro c hc v hv
    obtain ⟨t, ht, ec⟩ := s.shape_mem hc
    have := h.good.lt t ht
    rw [s.shape_points, h.length]
    rw [ec] at hv
    simp only [List.mem_cons, List.not_mem_nil, or_false] at hv
    omega
  · intro v hv
    rw [s.shape_points, h.length] at hv
    obtain ⟨t, ht, hvt⟩ := h.good.used v hv
    obtain ⟨c, hc, ec⟩ := s.mem_shape ht
    refine ⟨c, hc, ?_⟩
    rw [ec]
    simpa [Tri.verts] using hvt

/-- C31: in `regular_sphere(n)`, every cell is a triangle with three different corners, no two cells have the
same corners, and every edge belongs to exactly two cells, which traverse it in opposite directions. The
surface is connected. -/
theorem C31_closed_oriented (half : T) (sqrt : T → T) (n : Nat) : ∃ s, regularSphere half sqrt n = some s ∧
    (∀ c ∈ s.cells, c.2.length = 3 ∧ c.2.Nodup) ∧
    (s.cells.Pairwise fun c c' => ¬ ∀ v, v ∈ c.2 ↔ v ∈ c'.2) ∧
    (∀ u v, (u, v) ∈ s.edges → s.edges.count (u, v) = 1 ∧ s.edges.count (v, u) = 1) ∧
    s.Connected := by
  obtain ⟨s, e, h⟩ := sphere_state half sqrt n
  refine ⟨s.shape, regularSphere_eq e, ?_, ?_, ?_, ?_⟩
  · intro c hc
    obtain ⟨t, ht, ec⟩ := s.shape_mem hc
    have := h.good.ne t ht
    rw [ec]
    refine ⟨rfl, ?_⟩
    simp only [List.nodup_cons, List.mem_cons, List.not_mem_nil, or_false, not_or, List.nodup_nil,
      not_false_eq_true, and_true]
    omega
  · have p : (s.shape.cells.map Prod.snd).Pairwise fun l l' => ¬ ∀ v, v ∈ l ↔ v ∈ l' := by
      rw [s.shape_cells, List.pairwise_map]
      refine h.good.verts.imp ?_
      intro t t' hv hall
      apply hv
      ext v
      have := hall v
      simpa [Tri.verts] using this
    rw [List.pairwise_map] at p
    exact p
  · rw [s.shape_edges]
    intro u v huv
    exact ⟨List.count_eq_one_of_mem h.good.nodup huv, List.count_eq_one_of_mem h.good.nodup (h.good.swap _ _ huv)⟩
  · intro u v hu hv
    rw [s.shape_edges]
    rw [s.shape_points, h.length] at hu hv
    exact h.good.connected u v hu hv

/-- The counts are those of the first levels. -/
example : ((4 : Nat) ^ (0 + 1) + 2, 8 * 4 ^ 0, 4 ^ (1 + 1) + 2, 8 * 4 ^ 1) = (6, 8, 18, 32) := rfl

/-- An edge of the first level, and its reverse. -/
example : ((regularSphere (1 : Int) id 1).map fun s => decide ((0, 8) ∈ s.edges ∧ (8, 0) ∈ s.edges)) =
    some true := by decide +kernel

end

section
variable {s : SphereState ℝ}

/-- The position of a point. -/
noncomputable def SphereState.pos (s : SphereState ℝ) (v : Nat) : Vec := s.points.getD v 0

theorem SphereState.pos_eq {v : Nat} {x : Vec} (h : s.points[v]? = some x) : s.pos v = x := by
  simp [SphereState.pos, List.getD, h]

/-- All that is kept by refinement. -/
structure RealInv (n : Nat) (s : SphereState ℝ) : Prop where
  inv : SphereInv n s
  outward : Outward s.pointN s.cells s.pos
  covers : Covers s.cells s.pos
  unique : UniqueRep s.cells s.pos
  width : Close (cosine n) s.cells s.pos

theorem octahedron_pos (v : Nat) : (octahedronStart (T := ℝ)).pos v =
    if v = 0 then (0, 0, 1) else if v = 1 then (1, 0, 0) else if v = 2 then (0, 1, 0) else
    if v = 3 then (-1, 0, 0) else if v = 4 then (0, -1, 0) else if v = 5 then (0, 0, -1) else 0 := by
  rcases v with _ | _ | _ | _ | _ | _ | v <;> simp [SphereState.pos, octahedronStart, List.getD]

theorem octahedron_outward : Outward 6 octCells (octahedronStart (T := ℝ)).pos := by
  constructor
  · intro i hi
    have : i = 0 ∨ i = 1 ∨ i = 2 ∨ i = 3 ∨ i = 4 ∨ i = 5 := by omega
    rcases this with rfl | rfl | rfl | rfl | rfl | rfl <;> simp [octahedron_pos, Vec.dot]
  · intro t ht
    simp only [octCells, List.mem_cons, List.not_mem_nil, or_false] at ht
    rcases ht with rfl | rfl | rfl | rfl | rfl | rfl | rfl | rfl <;>
      simp [octahedron_pos, det3, Vec.dot, Vec.cross]

theorem octahedron_covers : Covers octCells (octahedronStart (T := ℝ)).pos := by
  have mk : ∀ (t : Tri) (x y z : ℝ) (w : Vec), t ∈ octCells → 0 ≤ x → 0 ≤ y → 0 ≤ z →
      w = x • (octahedronStart (T := ℝ)).pos t.p0 + y • (octahedronStart (T := ℝ)).pos t.p1 +
        z • (octahedronStart (T := ℝ)).pos t.p2 →
      ∃ t ∈ octCells, ∃ f, Rep (octahedronStart (T := ℝ)).pos t f w := by
    intro t x y z w ht hx hy hz e
    obtain ⟨h1, h2, h3⟩ := octCells_good.ne t ht
    refine ⟨t, ht, three t.p0 t.p1 t.p2 x y z, three_nonneg hx hy hz, ?_, ?_⟩
    · intro v hv
      obtain ⟨k1, k2, k3⟩ := Tri.not_mem_verts.mp hv
      exact three_zero _ _ _ k1 k2 k3
    · rw [three_a, three_b _ _ _ _ (Ne.symm h1), three_c _ _ _ (Ne.symm h3) (Ne.symm h2)]
      exact e
  rintro ⟨x, y, z⟩
  rcases le_total 0 z with hz | hz <;> rcases le_total 0 x with hx | hx <;> rcases le_total 0 y with hy | hy
  · exact mk ⟨0, 1, 2⟩ z x y _ (by decide) hz hx hy (by simp [octahedron_pos])
  · exact mk ⟨0, 4, 1⟩ z (-y) x _ (by decide) hz (by linarith) hx (by simp [octahedron_pos])
  · exact mk ⟨0, 2, 3⟩ z y (-x) _ (by decide) hz hy (by linarith) (by simp [octahedron_pos])
  · exact mk ⟨0, 3, 4⟩ z (-x) (-y) _ (by decide) hz (by linarith) (by linarith) (by simp [octahedron_pos])
  · exact mk ⟨5, 2, 1⟩ (-z) y x _ (by decide) (by linarith) hy hx (by simp [octahedron_pos])
  · exact mk ⟨5, 1, 4⟩ (-z) x (-y) _ (by decide) (by linarith) hx (by linarith) (by simp [octahedron_pos])
  · exact mk ⟨5, 3, 2⟩ (-z) (-x) y _ (by decide) (by linarith) (by linarith) hy (by simp [octahedron_pos])
  · exact mk ⟨5, 4, 3⟩ (-z) (-y) (-x) _ (by decide) (by linarith) (by linarith) (by linarith)
      (by simp [octahedron_pos])

/-- The coefficients with respect to the octahedron. -/
noncomputable def octCoef (x : Vec) (v : Nat) : ℝ :=
  if v = 0 then max 0 x.2.2 else if v = 1 then max 0 x.1 else if v = 2 then max 0 x.2.1 else
  if v = 3 then max 0 (-x.1) else if v = 4 then max 0 (-x.2.1) else if v = 5 then max 0 (-x.2.2) else 0

theorem octahedron_unique : UniqueRep octCells (octahedronStart (T := ℝ)).pos := by
  have key : ∀ t ∈ octCells, ∀ f x, Rep (octahedronStart (T := ℝ)).pos t f x → f = octCoef x := by
    intro t ht f x h
    funext v
    have hn := h.nonneg
    have hz := h.zero
    have hx := h.eq
    have h0 := hn 0
    have h1 := hn 1
    have h2 := hn 2
    have h3 := hn 3
    have h4 := hn 4
    have h5 := hn 5
    simp only [octCells, List.mem_cons, List.not_mem_nil, or_false] at ht
    rcases ht with rfl | rfl | rfl | rfl | rfl | rfl | rfl | rfl <;>
      simp [octahedron_pos] at hx <;> subst hx <;>
      rcases v with _ | _ | _ | _ | _ | _ | v <;>
      simp [octCoef, h0, h1, h2, h3, h4, h5] <;> apply hz <;> simp [Tri.verts]
  intro t ht t' ht' f f' x h h'
  rw [key t ht f x h, key t' ht' f' x h']

theorem octahedron_width : Close (cosine 0) octCells (octahedronStart (T := ℝ)).pos := by
  constructor
  · intro t ht
    simp only [octCells, List.mem_cons, List.not_mem_nil, or_false] at ht
    rcases ht with rfl | rfl | rfl | rfl | rfl | rfl | rfl | rfl <;>
      simp [octahedron_pos, Vec.dot, cosine]
  · exact ⟨⟨0, 1, 2⟩, by decide, by simp [octahedron_pos, Vec.dot, cosine]⟩

/-- The points of the next level. -/
theorem refined_points {n : Nat} {s' : SphereState ℝ} (h : SphereInv n s)
    (e : refineLevel (1 / 2) Real.sqrt s = some s') :
    Refined s.pointN s.cells (look s.pointN (edgeKeys s.cells)) s.pos s'.pos := by
  obtain ⟨s'', e', hn, hl, hc, hold, hnew⟩ :=
    refineLevel_eq (half := (1 / 2 : ℝ)) (sqrt := Real.sqrt) h.length h.good.lt
  obtain rfl : s' = s'' := Option.some.inj (e.symm.trans e')
  have good := h.good
  constructor
  · intro i hi
    simp only [SphereState.pos, List.getD, hold i hi]
  · intro d hd
    have hk : sortPair d.1 d.2 ∈ edgeKeys s.cells := by
      obtain ⟨l1, l2, l3⟩ := good.edge_lt hd
      rw [mem_edgeKeys_iff good]
      unfold sortPair
      split
      · exact ⟨good.swap _ _ hd, by dsimp; omega⟩
      · exact ⟨hd, by dsimp; omega⟩
    have hi : (edgeKeys s.cells)[(edgeKeys s.cells).idxOf (sortPair d.1 d.2)]? = some (sortPair d.1 d.2) :=
      List.getElem?_eq_some_iff.mpr ⟨List.idxOf_lt_length_of_mem hk, List.getElem_idxOf _⟩
    obtain ⟨vi, vj, k1, k2, k3⟩ := hnew _ _ hi
    have k3' : s'.pos (look s.pointN (edgeKeys s.cells) d.1 d.2) = newPoint (1 / 2) Real.sqrt vi vj := by
      rcases k3 with k3 | k3
      · exact SphereState.pos_eq k3
      · rw [newPoint_comm]
        exact SphereState.pos_eq k3
    rw [k3', ← SphereState.pos_eq k1, ← SphereState.pos_eq k2]
    unfold sortPair
    split
    · rw [newPoint_comm]
    · rfl

theorem refineLevel_real {n : Nat} (h : RealInv n s) :
    ∃ s', refineLevel (1 / 2) Real.sqrt s = some s' ∧ RealInv (n + 1) s' := by
  obtain ⟨s', e, h'⟩ := refineLevel_inv (half := (1 / 2 : ℝ)) (sqrt := Real.sqrt) h.inv
  obtain ⟨s'', e', hn, hl, hc, hold, hnew⟩ :=
    refineLevel_eq (half := (1 / 2 : ℝ)) (sqrt := Real.sqrt) h.inv.length h.inv.good.lt
  obtain rfl : s' = s'' := Option.some.inj (e.symm.trans e')
  have good := h.inv.good
  have he := look_numbers good
  have hr := refined_points h.inv e
  refine ⟨s', e, h', ?_, ?_, ?_, ?_⟩
  · rw [hn, hc]
    exact h.outward.refine good he hr
  · rw [hc]
    exact h.covers.refine good he hr h.outward
  · rw [hc]
    exact h.unique.refine good he hr h.outward
  · rw [hc]
    exact h.width.refine good hr h.outward (cosine_nonneg n) (cosine_le n) (cosine_succ n)

theorem real_state (n : Nat) :
    ∃ s, (List.range n).foldlM (fun s _ => refineLevel (1 / 2) Real.sqrt s) (octahedronStart (T := ℝ)) = some s ∧
      RealInv n s := by
  induction n with
  | zero =>
    exact ⟨_, rfl, ⟨rfl, rfl, octahedron_good⟩, octahedron_outward, octahedron_covers, octahedron_unique,
      octahedron_width⟩
  | succ n ih =>
    obtain ⟨s, e, h⟩ := ih
    obtain ⟨s', e', h'⟩ := refineLevel_real h
    refine ⟨s', ?_, h'⟩
    rw [List.range_succ, List.foldlM_append, e]
    simpa using e'

theorem SphereState.shape_pos {v : Nat} (h : v < s.points.length) : s.shape.at v = some (s.pos v) := by
  rw [s.shape_at, SphereState.pos, List.getD, List.getElem?_eq_getElem h, Option.getD_some]

/-- C32: all points of `regular_sphere(n)` are on the unit sphere (so no new point is a division by zero: no edge
joins opposite points), and the normal of every cell points away from the origin. -/
theorem C32_on_sphere_outward (n : Nat) : ∃ s, realSphere n = some s ∧
    (∀ p ∈ s.points, Vec.dot p.2 p.2 = 1) ∧
    (∀ d ∈ s.edges, ∃ a b, s.at d.1 = some a ∧ s.at d.2 = some b ∧ a + b ≠ 0) ∧
    ∀ c ∈ s.cells, ∃ i j k x y z, c.2 = [i, j, k] ∧ s.at i = some x ∧ s.at j = some y ∧ s.at k = some z ∧
      0 < Vec.dot (Vec.cross (y - x) (z - x)) x ∧ 0 < Vec.dot (Vec.cross (y - x) (z - x)) y ∧
      0 < Vec.dot (Vec.cross (y - x) (z - x)) z := by
  obtain ⟨s, e, h⟩ := real_state n
  refine ⟨s.shape, regularSphere_eq e, ?_, ?_, ?_⟩
  · intro p hp
    obtain ⟨i, hi⟩ := List.mem_iff_getElem?.mp hp
    have hlt : i < s.points.length := by
      obtain ⟨hlt, -⟩ := List.getElem?_eq_some_iff.mp hi
      rwa [s.shape_points] at hlt
    have : s.shape.at i = some p.2 := by rw [Shape.at, hi]; rfl
    rw [SphereState.shape_pos hlt] at this
    rw [← Option.some.inj this]
    rw [h.inv.length] at hlt
    exact h.outward.unit i hlt
  · intro d hd
    rw [s.shape_edges] at hd
    obtain ⟨l1, l2, -⟩ := h.inv.good.edge_lt hd
    rw [← h.inv.length] at l1 l2
    exact ⟨_, _, SphereState.shape_pos l1, SphereState.shape_pos l2, h.outward.sum_ne hd⟩
  · intro c hc
    obtain ⟨t, ht, ec⟩ := s.shape_mem hc
    obtain ⟨l0, l1, l2⟩ := h.inv.good.lt t ht
    rw [← h.inv.length] at l0 l1 l2
    refine ⟨_, _, _, _, _, _, ec, SphereState.shape_pos l0, SphereState.shape_pos l1, SphereState.shape_pos l2, ?_⟩
    have hd := h.outward.det t ht
    have key : ∀ x y z : Vec, Vec.dot (Vec.cross (y - x) (z - x)) x = det3 x y z ∧
        Vec.dot (Vec.cross (y - x) (z - x)) y = det3 x y z ∧
        Vec.dot (Vec.cross (y - x) (z - x)) z = det3 x y z := by
      intro x y z
      simp only [det3, Vec.dot, Vec.cross, Prod.fst_sub, Prod.snd_sub]
      refine ⟨?_, ?_, ?_⟩ <;> ring
    obtain ⟨k1, k2, k3⟩ := key (s.pos t.p0) (s.pos t.p1) (s.pos t.p2)
    rw [k1, k2, k3]
    exact ⟨hd, hd, hd⟩

theorem SphereState.combination {n : Nat} (h : RealInv n s) {t : Tri} (ht : t ∈ s.cells) (f : Nat → ℝ) (x : Vec) :
    s.shape.Combination [t.p0, t.p1, t.p2] f x ↔ Rep s.pos t f x := by
  obtain ⟨l0, l1, l2⟩ := h.inv.good.lt t ht
  rw [← h.inv.length] at l0 l1 l2
  have e : ([t.p0, t.p1, t.p2].map fun v => f v • (s.shape.at v).getD 0).sum =
      f t.p0 • s.pos t.p0 + f t.p1 • s.pos t.p1 + f t.p2 • s.pos t.p2 := by
    simp only [List.map_cons, List.map_nil, List.sum_cons, List.sum_nil, SphereState.shape_pos l0,
      SphereState.shape_pos l1, SphereState.shape_pos l2, Option.getD_some, add_zero, add_assoc]
  unfold Shape.Combination
  rw [e]
  have z : (∀ v, v ∉ [t.p0, t.p1, t.p2] → f v = 0) ↔ ∀ v, v ∉ t.verts → f v = 0 := by
    simp only [Tri.verts, Finset.mem_insert, Finset.mem_singleton, List.mem_cons, List.not_mem_nil, or_false]
  rw [z]
  exact ⟨fun ⟨a, b, c⟩ => ⟨a, b, c⟩, fun h => ⟨h.nonneg, h.zero, h.eq⟩⟩

/-- C42: seen from the origin, the cells of `regular_sphere(n)` cover all directions without gaps, and two cells
meet only in the points spanned by their common corners: the coefficients of a vector with respect to the corners
of a cell do not depend on the cell. All points are different. -/
theorem C42_no_gaps_no_overlaps (n : Nat) : ∃ s, realSphere n = some s ∧
    (∀ x, ∃ c ∈ s.cells, ∃ f, s.Combination c.2 f x) ∧
    (∀ c ∈ s.cells, ∀ c' ∈ s.cells, ∀ f f' x, s.Combination c.2 f x → s.Combination c'.2 f' x →
      f = f' ∧ ∀ v, f v ≠ 0 → v ∈ c.2 ∧ v ∈ c'.2) ∧
    (s.points.map Prod.snd).Nodup := by
  obtain ⟨s, e, h⟩ := real_state n
  have uniq : ∀ c ∈ s.shape.cells, ∀ c' ∈ s.shape.cells, ∀ f f' x, s.shape.Combination c.2 f x →
      s.shape.Combination c'.2 f' x → f = f' := by
    intro c hc c' hc' f f' x hf hf'
    obtain ⟨t, ht, ec⟩ := s.shape_mem hc
    obtain ⟨t', ht', ec'⟩ := s.shape_mem hc'
    rw [ec, SphereState.combination h ht] at hf
    rw [ec', SphereState.combination h ht'] at hf'
    exact h.unique t ht t' ht' f f' x hf hf'
  refine ⟨s.shape, regularSphere_eq e, ?_, ?_, ?_⟩
  · intro x
    obtain ⟨t, ht, f, hf⟩ := h.covers x
    obtain ⟨c, hc, ec⟩ := s.mem_shape ht
    refine ⟨c, hc, f, ?_⟩
    rw [ec, SphereState.combination h ht]
    exact hf
  · intro c hc c' hc' f f' x hf hf'
    have := uniq c hc c' hc' f f' x hf hf'
    subst this
    refine ⟨rfl, fun v hv => ⟨?_, ?_⟩⟩
    · by_contra hn
      exact hv (hf.2.1 v hn)
    · by_contra hn
      exact hv (hf'.2.1 v hn)
  · have hp : s.shape.points.map Prod.snd = s.points := by
      simp only [SphereState.shape, List.map_map]
      exact List.zipIdx_map_fst 0 s.points
    rw [hp, List.nodup_iff_injective_getElem]
    rintro ⟨u, hu⟩ ⟨v, hv⟩ huv
    dsimp only at huv
    have pu : s.pos u = s.points[u] := SphereState.pos_eq (List.getElem?_eq_getElem hu)
    have pv : s.pos v = s.points[v] := SphereState.pos_eq (List.getElem?_eq_getElem hv)
    obtain ⟨t, ht, htu⟩ := h.inv.good.used u (by rw [← h.inv.length]; exact hu)
    obtain ⟨t', ht', htv⟩ := h.inv.good.used v (by rw [← h.inv.length]; exact hv)
    have rep : ∀ t ∈ s.cells, ∀ u ∈ t.verts, Rep s.pos t (fun w => if w = u then 1 else 0) (s.pos u) := by
      intro t ht u hu
      obtain ⟨n0, n1, n2⟩ := h.inv.good.ne t ht
      refine ⟨fun w => by split <;> norm_num, fun w hw => ?_, ?_⟩
      · rw [if_neg]
        rintro rfl
        exact hw hu
      · simp only [Tri.verts, Finset.mem_insert, Finset.mem_singleton] at hu
        rcases hu with rfl | rfl | rfl
        · simp [Ne.symm n0, Ne.symm n2]
        · simp [n0, Ne.symm n1]
        · simp [n1, n2]
    have r1 := rep t ht u htu
    have r2 := rep t' ht' v htv
    rw [pu, huv, ← pv] at r1
    have := congrFun (h.unique t ht t' ht' _ _ _ r1 r2) u
    rw [if_pos rfl] at this
    by_contra hne
    rw [if_neg] at this
    · norm_num at this
    · intro h
      exact hne (by simp [h])

/-- The cone over a cell of the octahedron contains its corners. -/
example : ∃ s, realSphere 0 = some s ∧ s.Combination [0, 1, 2] (fun v => if v = 1 then 2 else 0) (2, 0, 0) := by
  refine ⟨_, rfl, ?_, ?_, ?_⟩
  · intro v
    dsimp only
    split <;> norm_num
  · intro v hv
    dsimp only
    rw [if_neg]
    rintro rfl
    exact hv (by decide)
  · simp [Shape.at, octahedronStart]

end
end Bempp
