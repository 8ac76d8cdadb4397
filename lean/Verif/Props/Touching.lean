import Verif.Proofs.TouchingScreens
import Verif.Props.Builder
import Verif.Props.Colouring
import Verif.Props.Memory
import Verif.Props.Congruent
/-
C113: how many cells touch on the shapes, and what follows for the memory of the sparse singular part and for the number of colours.
-/
namespace Bempp
open Examples

section
variable {T : Type} [Zero T] [One T] [Neg T] [Add T] [Mul T] [Div T] {s : Shape T} {n : Nat}

theorem sphere_degrees (half : T) (sqrt : T → T) (n : Nat) :
    ∃ s, (List.range n).foldlM (fun s _ => refineLevel half sqrt s) (octahedronStart (T := T)) = some s ∧
      SphereInv n s ∧ 6 ≤ s.pointN ∧ SphereDegrees s.pointN s.cells := by
  induction n with
  | zero =>
    refine ⟨_, rfl, ⟨rfl, rfl, octahedron_good⟩, Nat.le_refl _, ?_⟩
    have : ∀ v, v < 6 → degreeAt octCells v = if v < 6 then 4 else 6 := by decide
    exact this
  | succ n ih =>
    obtain ⟨s, e, h, h6, hd⟩ := ih
    obtain ⟨s', e', hn, hl, hc, -, -⟩ := refineLevel_eq (half := half) (sqrt := sqrt) h.length h.good.lt
    obtain ⟨s'', e'', h'⟩ := refineLevel_inv (half := half) (sqrt := sqrt) h
    rw [e'] at e''
    cases e''
    refine ⟨s', ?_, h', by rw [hn]; omega, ?_⟩
    · rw [List.range_succ, List.foldlM_append, e]
      simpa using e'
    · rw [hn, hc]
      exact hd.refine h.good (look_numbers h.good) h6

theorem SphereState.cellsAt (s : SphereState T) (v : Nat) : s.shape.cellsAt v = degreeAt s.cells v := by
  unfold Shape.cellsAt degreeAt
  have : (s.shape.cells.countP fun c => decide (v ∈ c.2)) = (s.shape.cells.map Prod.snd).countP fun c => decide (v ∈ c) := by
    rw [List.countP_map]; rfl
  rw [this, s.shape_cells, List.countP_map]
  apply List.countP_congr
  intro t _
  simp [Tri.verts]

theorem SphereState.touching (s : SphereState T) (t : Tri) : s.shape.touching [t.p0, t.p1, t.p2] = touchAt s.cells t := by
  unfold Shape.touching touchAt
  have : (s.shape.cells.countP fun c => decide (CellsTouch [t.p0, t.p1, t.p2] c.2)) =
      (s.shape.cells.map Prod.snd).countP fun c => decide (CellsTouch [t.p0, t.p1, t.p2] c) := by
    rw [List.countP_map]; rfl
  rw [this, s.shape_cells, List.countP_map]
  apply List.countP_congr
  intro t' _
  simp [Tri.verts, CellsTouch]

theorem SphereState.touchingPairs (s : SphereState T) : s.shape.touchingPairs = (s.cells.map fun t => touchAt s.cells t).sum := by
  unfold Shape.touchingPairs
  have : (s.shape.cells.map fun c => s.shape.touching c.2) = (s.shape.cells.map Prod.snd).map fun c => s.shape.touching c := by
    rw [List.map_map]; rfl
  rw [this, s.shape_cells, List.map_map]
  congr 1
  apply List.map_congr_left
  intro t _
  exact s.touching t

/-- **C113**, spheres: exactly four triangles of `regular_sphere(n)` meet at each of the six points of the octahedron, and six at
each other point, at every level. -/
theorem C113_sphere_points (half : T) (sqrt : T → T) (hs : regularSphere half sqrt n = some s) (v : Nat) (hv : v < s.points.length) :
    s.cellsAt v = if v < 6 then 4 else 6 := by
  obtain ⟨st, e, h, h6, hd⟩ := sphere_degrees half sqrt n
  rw [regularSphere_eq e] at hs
  cases hs
  rw [st.shape_points, h.length] at hv
  rw [st.cellsAt, hd v hv]

/-- **C113**, spheres: the number of triangles that touch a triangle, itself included, is the sum of the numbers of triangles at its
points minus 5, and at most 13; altogether `104 * 4^n - 48` ordered pairs of triangles touch, of the `64 * 16^n` that there are. -/
theorem C113_sphere_pairs (half : T) (sqrt : T → T) (hs : regularSphere half sqrt n = some s) :
    (∀ c ∈ s.cells, s.touching c.2 + 5 = (c.2.map s.cellsAt).sum ∧ s.touching c.2 ≤ 13) ∧
    s.touchingPairs + 48 = 104 * 4 ^ n ∧ s.cells.length * s.cells.length = 64 * 16 ^ n := by
  obtain ⟨st, e, h, h6, hd⟩ := sphere_degrees half sqrt n
  rw [regularSphere_eq e] at hs
  cases hs
  refine ⟨?_, ?_, ?_⟩
  · intro c hc
    obtain ⟨t, ht, ec⟩ := SphereState.shape_mem hc
    have h1 := h.good.touch ht
    rw [ec, st.touching]
    simp only [List.map_cons, List.map_nil, List.sum_cons, List.sum_nil, st.cellsAt]
    have hlt := h.good.lt t ht
    have d0 := hd _ hlt.1
    have d1 := hd _ hlt.2.1
    have d2 := hd _ hlt.2.2
    refine ⟨by omega, ?_⟩
    split at d0 <;> split at d1 <;> split at d2 <;> omega
  · rw [st.touchingPairs]
    have h1 := hd.total h.good h6
    have h2 := h.good.euler
    rw [h.cells] at h1 h2
    omega
  · have : st.shape.cells.length = st.cells.length := by simp [SphereState.shape]
    rw [this, h.cells, show (16 : Nat) = 4 * 4 by rfl, Nat.mul_pow]
    ring

end

section
variable {T : Type} [Zero T] [Div T] {s : Shape T} {n : Nat}

theorem squareQuad_eq (n x y : Nat) : squareQuad n x y = cellOf n quadCorners x y := by
  simp [squareQuad, cellOf, quadCorners, gridPoint]

theorem lowerTri_eq (n x y : Nat) : lowerTri n x y = cellOf n lowerCorners x y := by
  simp [lowerTri, cellOf, lowerCorners, gridPoint]

theorem upperTri_eq (n x y : Nat) : upperTri n x y = cellOf n upperCorners x y := by
  simp [upperTri, cellOf, upperCorners, gridPoint]

theorem corners_le : (∀ p ∈ quadCorners, p.1 ≤ 1) ∧ (∀ p ∈ lowerCorners, p.1 ≤ 1) ∧ ∀ p ∈ upperCorners, p.1 ≤ 1 := by decide

theorem squares_sum (n : Nat) (f : Nat × Nat → Nat) :
    ((squares n).map f).sum = ∑ y ∈ Finset.range n, ∑ x ∈ Finset.range n, f (x, y) := by
  unfold squares
  rw [List.map_flatMap, ← list_sum_range]
  have : ∀ l : List Nat, (l.flatMap fun y => ((List.range n).map fun x => (x, y)).map f).sum =
      (l.map fun y => ∑ x ∈ Finset.range n, f (x, y)).sum := by
    intro l
    induction l with
    | nil => rfl
    | cons y l ih =>
      rw [List.flatMap_cons, List.sum_append, ih, List.map_cons, List.sum_cons, ← list_sum_range, List.map_map]
      rfl
  exact this _

theorem quads_touching (fromNat : Nat → T) (hs : screenQuadrilaterals fromNat n = some s) {x y : Nat} (hx : x < n) :
    s.touching (squareQuad n x y) = ∑ d ∈ diffs quadCorners quadCorners, inRange n x d.1 * inRange n y d.2 := by
  rw [← count_cells corners_le.1 corners_le.1 hx]
  unfold Shape.touching
  rw [screenQuadrilaterals_cells fromNat hs, List.countP_map, ← squares_sum n fun p =>
    if CellsTouch (cellOf n quadCorners x y) (cellOf n quadCorners p.1 p.2) then 1 else 0, sum_ite_countP]
  apply List.countP_congr
  intro p _
  simp only [Function.comp, squareQuad_eq]

/-- **C113**, screens of quadrilaterals: at most nine cells touch a cell, itself included, and `(3n - 2)²` ordered pairs of cells
touch, of the `n⁴` that there are. -/
theorem C113_quadrilaterals (fromNat : Nat → T) (hs : screenQuadrilaterals fromNat n = some s) :
    (∀ c ∈ s.cells, s.touching c.2 ≤ 9) ∧ s.touchingPairs = (3 * n - 2) ^ 2 ∧ s.cells.length * s.cells.length = n ^ 4 := by
  have hn : 0 < n := by
    by_contra h0
    obtain rfl : n = 0 := by omega
    simp [screenQuadrilaterals] at hs
  have hcells := screenQuadrilaterals_cells fromNat hs
  refine ⟨?_, ?_, ?_⟩
  · intro c hc
    rw [hcells, List.mem_map] at hc
    obtain ⟨p, hp, rfl⟩ := hc
    show s.touching (squareQuad n p.1 p.2) ≤ 9
    rw [quads_touching fromNat hs (mem_squares.mp hp).1]
    refine count_cells_le.trans ?_
    decide
  · unfold Shape.touchingPairs
    have : (s.cells.map fun c => s.touching c.2) =
        (squares n).map fun p => ∑ d ∈ diffs quadCorners quadCorners, inRange n p.1 d.1 * inRange n p.2 d.2 := by
      rw [hcells, List.map_map]
      apply List.map_congr_left
      intro p hp
      exact quads_touching fromNat hs (mem_squares.mp hp).1
    rw [this, squares_sum, total_cells, quad_diffs]
    obtain ⟨m, rfl⟩ : ∃ m, n = m + 1 := ⟨n - 1, by omega⟩
    have e : 3 * (m + 1) - 2 = 3 * m + 1 := by omega
    rw [e]
    simp
    ring
  · have : s.cells.length = n * n := by
      rw [hcells, List.length_map, squares, List.length_flatMap]
      simp
    rw [this]
    ring

theorem tris_touching (fromNat : Nat → T) (hs : screenTriangles fromNat n = some s) {P : List (Nat × Nat)} (hP : ∀ p ∈ P, p.1 ≤ 1)
    {x y : Nat} (hx : x < n) : s.touching (cellOf n P x y) = (∑ d ∈ diffs P lowerCorners, inRange n x d.1 * inRange n y d.2) +
      ∑ d ∈ diffs P upperCorners, inRange n x d.1 * inRange n y d.2 := by
  rw [← count_cells hP corners_le.2.1 hx, ← count_cells hP corners_le.2.2 hx]
  unfold Shape.touching
  rw [screenTriangles_cells fromNat hs, List.countP_flatMap,
    ← squares_sum n fun p => if CellsTouch (cellOf n P x y) (cellOf n lowerCorners p.1 p.2) then 1 else 0,
    ← squares_sum n fun p => if CellsTouch (cellOf n P x y) (cellOf n upperCorners p.1 p.2) then 1 else 0, ← List.sum_map_add]
  congr 1
  apply List.map_congr_left
  intro p _
  simp only [Function.comp, List.countP_cons, List.countP_nil, lowerTri_eq, upperTri_eq, decide_eq_true_eq]
  omega

/-- **C113**, screens of triangles: at most 13 triangles touch a triangle, itself included, and `26n² - 32n + 10` ordered pairs of
triangles touch, of the `4n⁴` that there are. -/
theorem C113_triangles (fromNat : Nat → T) (hs : screenTriangles fromNat n = some s) :
    (∀ c ∈ s.cells, s.touching c.2 ≤ 13) ∧ s.touchingPairs + 32 * n = 26 * n ^ 2 + 10 ∧ s.cells.length * s.cells.length = 4 * n ^ 4 := by
  have hn : 0 < n := by
    by_contra h0
    obtain rfl : n = 0 := by omega
    simp [screenTriangles] at hs
  have hcells := screenTriangles_cells fromNat hs
  refine ⟨?_, ?_, ?_⟩
  · intro c hc
    rw [hcells, List.mem_flatMap] at hc
    obtain ⟨p, hp, hc⟩ := hc
    have hx := (mem_squares.mp hp).1
    simp only [List.mem_cons, List.not_mem_nil, or_false] at hc
    have k1 : (diffs lowerCorners lowerCorners).card + (diffs lowerCorners upperCorners).card ≤ 13 := by decide
    have k2 : (diffs upperCorners lowerCorners).card + (diffs upperCorners upperCorners).card ≤ 13 := by decide
    rcases hc with rfl | rfl
    · show s.touching (lowerTri n p.1 p.2) ≤ 13
      rw [lowerTri_eq, tris_touching fromNat hs corners_le.2.1 hx]
      exact (Nat.add_le_add count_cells_le count_cells_le).trans k1
    · show s.touching (upperTri n p.1 p.2) ≤ 13
      rw [upperTri_eq, tris_touching fromNat hs corners_le.2.2 hx]
      exact (Nat.add_le_add count_cells_le count_cells_le).trans k2
  · unfold Shape.touchingPairs
    have h1 : (s.cells.map fun c => s.touching c.2).sum = ((squares n).map fun p =>
        s.touching (cellOf n lowerCorners p.1 p.2) + s.touching (cellOf n upperCorners p.1 p.2)).sum := by
      conv_lhs => rw [hcells]
      generalize squares n = l
      induction l with
      | nil => rfl
      | cons p l ih =>
        rw [List.flatMap_cons, List.map_append, List.sum_append, ih, List.map_cons, List.sum_cons]
        simp [lowerTri_eq, upperTri_eq]
    have h2 : ((squares n).map fun p =>
        s.touching (cellOf n lowerCorners p.1 p.2) + s.touching (cellOf n upperCorners p.1 p.2)) = (squares n).map fun p =>
        ((∑ d ∈ diffs lowerCorners lowerCorners, inRange n p.1 d.1 * inRange n p.2 d.2) +
          ∑ d ∈ diffs lowerCorners upperCorners, inRange n p.1 d.1 * inRange n p.2 d.2) +
        ((∑ d ∈ diffs upperCorners lowerCorners, inRange n p.1 d.1 * inRange n p.2 d.2) +
          ∑ d ∈ diffs upperCorners upperCorners, inRange n p.1 d.1 * inRange n p.2 d.2) := by
      apply List.map_congr_left
      intro p hp
      have hx := (mem_squares.mp hp).1
      rw [tris_touching fromNat hs corners_le.2.1 hx, tris_touching fromNat hs corners_le.2.2 hx]
    rw [h1, h2]
    simp only [List.sum_map_add, squares_sum]
    rw [total_cells, total_cells, total_cells, total_cells, lower_diffs, upper_diffs, lower_upper_diffs, upper_lower_diffs]
    obtain ⟨m, rfl⟩ : ∃ m, n = m + 1 := ⟨n - 1, by omega⟩
    simp
    ring
  · have : s.cells.length = 2 * (n * n) := by
      rw [hcells, List.length_flatMap]
      simp [squares, List.length_flatMap]
      ring
    rw [this]
    ring

end

/-! ### On the grid that the builder makes -/

section
variable {U : Type} {s : Shape U} {t : CellType} {g : Grid} {pt cl : Nat → Nat}

theorem Built.cell_perm (h : Built s t g pt cl) :
    ((g.entityIter 2).map fun c => (c.sub 0).map pt).Perm (s.cells.map Prod.snd) := by
  have e1 : ((g.entityIter 2).map fun c => (c.sub 0).map pt) =
      (((g.entityIter 2).map Entity.localIndex).map cl).map fun i => ((s.cells[i]?).map Prod.snd).getD [] := by
    rw [List.map_map, List.map_map]
    apply List.map_congr_left
    intro c hc
    obtain ⟨x, hx, e⟩ := h.corners c hc
    simp [hx, e]
  have e2 : (s.cells.map Prod.snd) = (List.range s.cells.length).map fun i => ((s.cells[i]?).map Prod.snd).getD [] := by
    apply List.ext_getElem
    · simp
    · intro i h1 h2
      simp at h1
      simp [h1]
  rw [e1, e2]
  exact ((((h.wf.index 2 (le_refl 2)).map cl).trans h.cells).map _)

theorem Built.touches (h : Built s t g pt cl) {c c' : Entity} (hc : c ∈ g.entityIter 2) (hc' : c' ∈ g.entityIter 2) :
    c.Touches c' ↔ CellsTouch ((c.sub 0).map pt) ((c'.sub 0).map pt) := by
  constructor
  · rintro ⟨v, hv, hv'⟩
    exact ⟨pt v, List.mem_map_of_mem hv, List.mem_map_of_mem hv'⟩
  · rintro ⟨w, hw, hw'⟩
    obtain ⟨v, hv, rfl⟩ := List.mem_map.mp hw
    obtain ⟨v', hv', e⟩ := List.mem_map.mp hw'
    rw [perm_inj h.points (h.wf.sub_lt c' hc' 0 (by omega) v' hv') (h.wf.sub_lt c hc 0 (by omega) v hv) e] at hv'
    exact ⟨v, hv, hv'⟩

theorem Built.touching (h : Built s t g pt cl) {c : Entity} (hc : c ∈ g.entityIter 2) :
    (g.entityIter 2).countP (fun c' => decide (c.Touches c')) = s.touching ((c.sub 0).map pt) := by
  unfold Shape.touching
  have e1 : (s.cells.countP fun x => decide (CellsTouch ((c.sub 0).map pt) x.2)) =
      (s.cells.map Prod.snd).countP fun x => decide (CellsTouch ((c.sub 0).map pt) x) := by
    rw [List.countP_map]; rfl
  rw [e1, ← h.cell_perm.countP_eq, List.countP_map]
  apply List.countP_congr
  intro c' hc'
  simp only [Function.comp, decide_eq_true_eq]
  exact h.touches hc hc'

theorem Built.cell_mem (h : Built s t g pt cl) {c : Entity} (hc : c ∈ g.entityIter 2) : ∃ x ∈ s.cells, x.2 = (c.sub 0).map pt := by
  obtain ⟨x, hx, e⟩ := h.corners c hc
  exact ⟨x, List.mem_of_getElem? hx, e⟩

theorem Built.pairs (h : Built s t g pt cl) : (adjacentPairs g).length = s.touchingPairs := by
  unfold adjacentPairs Shape.touchingPairs
  have e0 : ((g.entityIter 2).filter fun c => decide (c.ownership = .owned)) = g.entityIter 2 := by
    rw [List.filter_eq_self]
    intro c hc
    simpa using h.owned 2 (le_refl 2) c hc
  have e1 : (s.cells.map fun x => s.touching x.2) = (s.cells.map Prod.snd).map s.touching := by rw [List.map_map]; rfl
  rw [e0, List.length_flatMap, e1, ← (h.cell_perm.map s.touching).sum_eq, List.map_map]
  congr 1
  apply List.map_congr_left
  intro c hc
  rw [List.length_map, ← List.countP_eq_length_filter, Function.comp, ← h.touching hc]
  apply List.countP_congr
  intro c' _
  rw [decide_eq_true_iff]
  simp [Entity.Touches]

end

section
variable {R T U : Type} [Zero R] [Mul R] [Zero T] [Add T] [Mul T] {env : Env R T} {asm : Assembler R T} {trial test : Space R T}
  {famT famR : CellType → ElementDofs} {F : MathIntegrand T} {K : MathKernel R T} {G : Geometry R} {BT BR : Basis R T}
  {Q : Quadrature R} {s : Shape U} {t : CellType} {pt cl : Nat → Nat}

/-- **C113**, the memory of the singular part: however the work is divided and scheduled, the sparse matrix of the singular part of an
operator on a grid built from a shape stores exactly one triplet for every pair of touching cells and every pair of a test and a trial
function of the element, none more and none less. -/
theorem C113_stored (h : SingularSetting env asm trial test famT famR F K G BT BR Q) (hb : 0 < asm.options.batchSize)
    (hg : Built s t test.fs.grid pt cl) (sm : Sparse T)
    (hsm : AssembleSingularPart env asm (test.fs.globalSize, trial.fs.globalSize) trial test (some sm)) :
    sm.data.length = (famT t).dim * (famR t).dim * s.touchingPairs ∧ sm.rows.length = sm.data.length ∧
    sm.cols.length = sm.data.length := by
  rw [h.part hb] at hsm
  cases hsm
  simp only [Sparse.ofTriplets, List.length_map, and_self, and_true]
  rw [h.triplets_perm.length_eq, List.length_flatMap, ← hg.pairs]
  have key : ∀ p ∈ adjacentPairs test.fs.grid,
      (cellTriplets env.cast F K G BT BR Q famT famR trial.fs test.fs p).length = (famT t).dim * (famR t).dim := by
    intro p hp
    obtain ⟨p1, p2, -, -⟩ := mem_adjacentPairs.mp hp
    obtain ⟨cd, -, e1, l1, -, -⟩ := h.testSpace.cell p1
    obtain ⟨cd', -, e2, l2, -, -⟩ := h.trialSpace.cell (by rw [h.sameGrid]; exact p2)
    unfold cellTriplets localTriplets
    rw [e1, e2, hg.cell_type p1, hg.cell_type p2, List.length_flatMap]
    rw [hg.cell_type p1] at l1
    rw [hg.cell_type p2] at l2
    have : ∀ x ∈ cd'.zip ((List.range (famR t).dim).map fun b => (List.range (famT t).dim).map fun a =>
        singularValue env.cast F K G G BT BR Q t t (connectivity p.1 p.2) p.1.localIndex p.2.localIndex a b),
        ((cd.zip x.2).map fun e => ((test.fs.gdof e.1, trial.fs.gdof x.1), e.2)).length = (famT t).dim := by
      intro x hx
      obtain ⟨b, -, e⟩ := List.mem_map.mp (List.of_mem_zip hx).2
      rw [List.length_map, List.length_zip, ← e, List.length_map, List.length_range, l1, Nat.min_self]
    rw [List.map_congr_left this, List.map_const', List.sum_replicate, List.length_zip, l2, List.length_map, List.length_range,
      Nat.min_self, smul_eq_mul, Nat.mul_comm]
  rw [List.map_congr_left key, List.map_const', List.sum_replicate, smul_eq_mul, Nat.mul_comm]

end

section
variable {T : Type} [Zero T] [One T] [Neg T] [Add T] [Mul T] [Div T] {s : Shape T} {n k : Nat} {t : CellType}

/-- **C113**, all three functions of `shapes`: at most 13 cells touch a cell of a shape of triangles, and at most 9 on quadrilaterals,
whatever the level. -/
theorem C113_bounded (half : T) (sqrt : T → T) (fromNat : Nat → T)
    (hs : regularSphere half sqrt n = some s ∧ t = .triangle ∨ screenTriangles fromNat n = some s ∧ t = .triangle ∨
      screenQuadrilaterals fromNat n = some s ∧ t = .quadrilateral) :
    ∀ c ∈ s.cells, s.touching c.2 ≤ if t = .triangle then 13 else 9 := by
  rcases hs with ⟨h, rfl⟩ | ⟨h, rfl⟩ | ⟨h, rfl⟩
  · exact fun c hc => ((C113_sphere_pairs half sqrt h).1 c hc).2
  · exact fun c hc => (C113_triangles fromNat h).1 c hc
  · exact fun c hc => (C113_quadrilaterals fromNat h).1 c hc

end

section
variable {U : Type} {s : Shape U} {t : CellType} {g : Grid} {pt cl k : Nat → Nat} {fam : CellType → ElementDofs}

theorem Built.shares (h : Built s t g pt cl) (hf : (fam t).Uniform t k) {fs : FunctionSpace}
    (hm : FunctionSpace.new 0 1 g fam = .done fs) {c c' : Entity} (hc : c ∈ g.entityIter 2) (hc' : c' ∈ g.entityIter 2)
    (hsh : SharesDof fs c c') : c.Touches c' := by
  have hy : (FunctionSpace.new 0 1 g fam).Yields fs := by rw [hm]; exact .done fs
  obtain ⟨d, e, hd, he, he', -⟩ := (C04_shared_dofs h.wf (h.family hf) hy c c' hc hc').mp hsh
  obtain rfl | rfl | rfl : d = 0 ∨ d = 1 ∨ d = 2 := by omega
  · exact ⟨e, he, he'⟩
  · obtain ⟨ev, ed⟩ := h.edges
    obtain ⟨i, hi⟩ := List.mem_iff_getElem?.mp he
    obtain ⟨i', hi'⟩ := List.mem_iff_getElem?.mp he'
    obtain ⟨a, b, va, vb, -, ha, hb, hp⟩ := ed.ref c hc i e hi
    obtain ⟨a', b', va', vb', -, ha', hb', hp'⟩ := ed.ref c' hc' i' e hi'
    have m := List.mem_of_getElem? ha
    have m1 := List.mem_of_getElem? ha'
    have m2 := List.mem_of_getElem? hb'
    refine ⟨va, m, ?_⟩
    rcases hp with hp | hp <;> rcases hp' with hp' | hp' <;> rw [hp] at hp' <;>
      simp only [Prod.mk.injEq] at hp' <;> obtain ⟨rfl, rfl⟩ := hp' <;> assumption
  · rw [h.wf.sub_self c hc, List.mem_singleton] at he
    rw [h.wf.sub_self c' hc', List.mem_singleton] at he'
    have : c' = c := cell_ext h.wf hc' hc (he'.symm.trans he)
    subst this
    have hl : 0 < (c'.sub 0).length := by
      rw [h.wf.sub_length c' hc' 0 (by omega), h.cell_type hc']
      rcases h.type_cases with rfl | rfl <;> decide
    exact ⟨(c'.sub 0)[0], List.getElem_mem hl, List.getElem_mem hl⟩

/-- **C113**, any shape: the number of colours of a space on a grid built from a shape is at most the largest number of cells that touch a cell. -/
theorem C113_touching_colours (h : Built s t g pt cl) (hf : (fam t).Uniform t k) {fs : FunctionSpace}
    (hm : FunctionSpace.new 0 1 g fam = .done fs) (col : Colouring) (hcol : fs.cellColouring = some col) (D : Nat)
    (hD : ∀ c ∈ s.cells, s.touching c.2 ≤ D + 1) : ∃ cols, col t = some cols ∧ cols.length ≤ D + 1 := by
  classical
  have hy : (FunctionSpace.new 0 1 g fam).Yields fs := by rw [hm]; exact .done fs
  obtain ⟨N, h1, h2, -⟩ := C50_number_of_colours h.wf (h.family hf) (h.colourable hf) (by
      intro d hd hne e _
      have hpos : 0 < refCount t d := by
        rcases h.type_cases with rfl | rfl <;> obtain rfl | rfl | rfl : d = 0 ∨ d = 1 ∨ d = 2 := by omega
        all_goals decide
      obtain ⟨l, hl⟩ := Option.isSome_iff_exists.mp (hf.wf.defined d hd 0 hpos)
      rw [← hf.count d hd 0 hpos l hl]
      apply List.length_pos_of_ne_nil
      rintro rfl
      exact hne hl) hy col hcol D (by
      intro c hc
      obtain ⟨x, hx, e⟩ := h.cell_mem hc
      have b := hD x hx
      rw [e, ← h.touching hc, List.countP_eq_length_filter] at b
      have hself : c.Touches c := by
        have hl : 0 < (c.sub 0).length := by
          rw [h.wf.sub_length c hc 0 (by omega), h.cell_type hc]
          rcases h.type_cases with rfl | rfl <;> decide
        exact ⟨(c.sub 0)[0], List.getElem_mem hl, List.getElem_mem hl⟩
      have hsub : ((g.entityIter 2).filter fun c' => decide (c'.localIndex ≠ c.localIndex ∧ SharesDof fs c c')).Sublist
          ((g.entityIter 2).filter fun c' => decide (c.Touches c')) := by
        have : ((g.entityIter 2).filter fun c' => decide (c'.localIndex ≠ c.localIndex ∧ SharesDof fs c c')) =
            ((g.entityIter 2).filter fun c' => decide (c.Touches c')).filter
              fun c' => decide (c'.localIndex ≠ c.localIndex ∧ SharesDof fs c c') := by
          rw [List.filter_filter]
          apply List.filter_congr
          intro c' hc'
          by_cases hh : c'.localIndex ≠ c.localIndex ∧ SharesDof fs c c'
          · simp [hh, h.shares hf hm hc hc' hh.2]
          · simp [hh]
        rw [this]
        exact List.filter_sublist
      rcases Nat.lt_or_ge D ((g.entityIter 2).filter fun c' =>
        decide (c'.localIndex ≠ c.localIndex ∧ SharesDof fs c c')).length with hlt | hle
      · exfalso
        have heq := hsub.eq_of_length (by have := hsub.length_le; omega)
        have hm1 : c ∈ (g.entityIter 2).filter fun c' => decide (c.Touches c') := by
          simp [hc, hself]
        rw [← heq] at hm1
        simp at hm1
      · exact hle)
  obtain ⟨cols, e1, e2⟩ := h2 t (by rw [h.types]; simp)
  exact ⟨cols, e1, by omega⟩

end

section
variable {T : Type} [Zero T] [One T] [Neg T] [Add T] [Mul T] [Div T] {s : Shape T} {n : Nat} {t : CellType} {g : Grid}
  {pt cl k : Nat → Nat} {fam : CellType → ElementDofs}

/-- **C113**, the number of colours: on the grids of all three functions of `shapes`, at every level and for every element, the
colouring exists and has at most 13 colours on triangles and 9 on quadrilaterals. -/
theorem C113_colours (half : T) (sqrt : T → T) (fromNat : Nat → T)
    (hs : regularSphere half sqrt n = some s ∧ t = .triangle ∨ screenTriangles fromNat n = some s ∧ t = .triangle ∨
      screenQuadrilaterals fromNat n = some s ∧ t = .quadrilateral) (hg : Built s t g pt cl) (hf : (fam t).Uniform t k)
    {fs : FunctionSpace} (hm : FunctionSpace.new 0 1 g fam = .done fs) :
    ∃ col cols, fs.cellColouring = some col ∧ col t = some cols ∧ cols.length ≤ if t = .triangle then 13 else 9 := by
  have hy : (FunctionSpace.new 0 1 g fam).Yields fs := by rw [hm]; exact .done fs
  obtain ⟨col, _, _, _, _, hcol, -⟩ := colouring_exists hg.wf (hg.family hf) (hg.colourable hf) hy
  have hb := C113_bounded half sqrt fromNat hs
  have hD : (if t = .triangle then 13 else 9) = (if t = .triangle then 12 else 8) + 1 := by split <;> rfl
  rw [hD] at hb ⊢
  obtain ⟨cols, h1, h2⟩ := C113_touching_colours hg hf hm col hcol _ hb
  exact ⟨col, cols, hcol, h1, h2⟩

end

section
variable {R T U : Type} [Zero R] [Mul R] [Zero T] [Add T] [Mul T] [Zero U] [One U] [Neg U] [Add U] [Mul U] [Div U]
  {env : Env R T} {asm : Assembler R T} {trial test : Space R T}
  {famT famR : CellType → ElementDofs} {F : MathIntegrand T} {K : MathKernel R T} {G : Geometry R} {BT BR : Basis R T}
  {Q : Quadrature R} {s : Shape U} {pt cl : Nat → Nat} {n : Nat}

/-- **C113** on spheres, as in the library's benchmark: the singular part of an operator on `regular_sphere(n)` stores exactly
`104 * 4^n - 48` triplets for each pair of a test and a trial function of the element. -/
theorem C113_sphere_stored (half : U) (sqrt : U → U) (hs : regularSphere half sqrt n = some s)
    (h : SingularSetting env asm trial test famT famR F K G BT BR Q) (hb : 0 < asm.options.batchSize)
    (hg : Built s .triangle test.fs.grid pt cl) (sm : Sparse T)
    (hsm : AssembleSingularPart env asm (test.fs.globalSize, trial.fs.globalSize) trial test (some sm)) :
    sm.data.length = (famT .triangle).dim * (famR .triangle).dim * (104 * 4 ^ n - 48) := by
  obtain ⟨e, -, -⟩ := C113_stored h hb hg sm hsm
  obtain ⟨-, e2, -⟩ := C113_sphere_pairs half sqrt hs
  rw [e, show 104 * 4 ^ n - 48 = s.touchingPairs by omega]

end

/-! ### Piecewise constant functions, as in the library's benchmark -/

theorem constant_dim {el : ElementDofs} {t : CellType} (ht : t = .triangle ∨ t = .quadrilateral)
    (hf : el.Uniform t fun d => if d = 2 then 1 else 0) : el.dim = 1 := by
  have h1 := hf.wf.partition.length_eq
  rw [List.length_range] at h1
  rw [← h1]
  unfold ElementDofs.allDofs
  have key : ∀ d, d ≤ 2 → ((List.range (refCount t d)).flatMap fun i => (el.entityDofs d i).getD []).length =
      refCount t d * if d = 2 then 1 else 0 := by
    intro d hd
    rw [List.length_flatMap]
    have : ∀ i ∈ List.range (refCount t d), ((el.entityDofs d i).getD []).length = if d = 2 then 1 else 0 := by
      intro i hi
      obtain ⟨l, hl⟩ := Option.isSome_iff_exists.mp (hf.wf.defined d hd i (List.mem_range.mp hi))
      rw [hl, Option.getD_some]
      exact hf.count d hd i (List.mem_range.mp hi) l hl
    rw [List.map_congr_left this, List.map_const', List.sum_replicate, List.length_range, smul_eq_mul]
  rw [List.length_flatMap, show List.range 3 = [0, 1, 2] from rfl]
  simp only [List.map_cons, List.map_nil, List.sum_cons, List.sum_nil]
  rw [key 0 (by omega), key 1 (by omega), key 2 (by omega)]
  rcases ht with rfl | rfl <;> rfl

section
variable {R T U : Type} [Zero R] [Mul R] [Zero T] [Add T] [Mul T] {env : Env R T} {asm : Assembler R T} {sp : Space R T}
  {fam : CellType → ElementDofs} {F : MathIntegrand T} {K : MathKernel R T} {G : Geometry R} {B : Basis R T}
  {Q : Quadrature R} {s : Shape U} {t : CellType} {pt cl : Nat → Nat}

/-- **C113**, piecewise constant functions on any shape: the singular part has one result; it stores one triplet for each pair of touching
cells, no position twice, and in the row of the DOF of a cell as many as there are cells that touch this cell. -/
theorem C113_piecewise_constant (h : SingularSetting env asm sp sp fam fam F K G B B Q) (hb : 0 < asm.options.batchSize)
    (hg : Built s t sp.fs.grid pt cl) (hf : (fam t).Uniform t fun d => if d = 2 then 1 else 0)
    (hm : FunctionSpace.new 0 1 sp.fs.grid fam = .done sp.fs) :
    sp.fs.globalSize = s.cells.length ∧
    ∃ sm, (∀ out, AssembleSingularPart env asm (sp.fs.globalSize, sp.fs.globalSize) sp sp out ↔ out = some sm) ∧
      sm.data.length = s.touchingPairs ∧ (sm.rows.zip sm.cols).Nodup ∧
      ∀ c ∈ sp.fs.grid.entityIter 2, ∃ i, sp.fs.cellDofs c.localIndex = some [i] ∧
        sm.rows.count i = s.touching ((c.sub 0).map pt) := by
  have hy : (FunctionSpace.new 0 1 sp.fs.grid fam).Yields sp.fs := by rw [hm]; exact .done _
  have hd1 := constant_dim hg.type_cases hf
  obtain ⟨fs, hn, -, -, hl, hgl⟩ := hg.space hf
  rw [hm] at hn
  cases hn
  obtain ⟨fs, hn, -, -, hser, -⟩ := C18_serial_space hg.wf (hg.family hf) (fun d hd e he => hg.owned d hd e he)
  rw [hm] at hn
  cases hn
  refine ⟨by rw [hgl, hl]; simp, ?_⟩
  have hcell : ∀ c ∈ sp.fs.grid.entityIter 2, ∃ i, sp.fs.dofs c.localIndex = [i] ∧ sp.fs.cellDofs c.localIndex = some [i] ∧
      sp.fs.gdof i = i := by
    intro c hc
    obtain ⟨cd, e1, e2, l, -, -⟩ := h.testSpace.cell hc
    rw [hg.cell_type hc, hd1] at l
    obtain ⟨i, rfl⟩ := List.length_eq_one_iff.mp l
    obtain ⟨cd', f1, -, -, f4⟩ := (C03_cell_dofs hg.wf (hg.family hf) hy).2 c hc
    have f0 := f1
    rw [cellDofs_eq] at f1
    have e3 : sp.fs.cellDofsUnchecked c.localIndex = some cd' := f1
    rw [e1] at e3
    cases e3
    refine ⟨i, e2, f0, ?_⟩
    simp [FunctionSpace.gdof, (hser i (f4 i (by simp))).1]
  choose! D hD1 hD2 hD3 using hcell
  have hinj : ∀ c ∈ sp.fs.grid.entityIter 2, ∀ c' ∈ sp.fs.grid.entityIter 2, D c = D c' → c = c' := by
    intro c hc c' hc' e
    obtain ⟨d, e', hd, m, m', hpos⟩ := (C04_shared_dofs hg.wf (hg.family hf) hy c c' hc hc').mp
      ⟨[D c], [D c'], D c, hD2 c hc, hD2 c' hc', by simp, by simp [e]⟩
    have : d = 2 := by by_contra h2; simp [h2] at hpos
    subst this
    rw [hg.wf.sub_self c hc, List.mem_singleton] at m
    rw [hg.wf.sub_self c' hc', List.mem_singleton] at m'
    exact cell_ext hg.wf hc hc' (m.symm.trans m')
  have hpos : ((singularTriplets env.cast F K G B B Q fam fam sp.fs sp.fs).map fun x => x.1).Perm
      ((adjacentPairs sp.fs.grid).map fun p => (D p.1, D p.2)) := by
    refine (h.triplets_perm.map _).trans (List.Perm.of_eq ?_)
    rw [List.map_flatMap]
    have : ∀ l : List (Entity × Entity), (∀ p ∈ l, p.1 ∈ sp.fs.grid.entityIter 2 ∧ p.2 ∈ sp.fs.grid.entityIter 2) →
        (l.flatMap fun p => (cellTriplets env.cast F K G B B Q fam fam sp.fs sp.fs p).map fun x => x.1) =
          l.map fun p => (D p.1, D p.2) := by
      intro l hl
      induction l with
      | nil => rfl
      | cons p l ih =>
        obtain ⟨m1, m2⟩ := hl p (by simp)
        rw [List.flatMap_cons, List.map_cons, ih fun q hq => hl q (by simp [hq])]
        unfold cellTriplets localTriplets
        rw [hD1 _ m1, hD1 _ m2, hg.cell_type m1, hg.cell_type m2, hd1]
        simp [hD3 _ m1, hD3 _ m2, List.range_succ]
    exact this _ fun p hp => ⟨(mem_adjacentPairs.mp hp).1, (mem_adjacentPairs.mp hp).2.1⟩
  classical
  have hnd : (adjacentPairs sp.fs.grid).Nodup := List.Nodup.of_map _ (adjacentPairs_nodup hg.wf)
  refine ⟨_, h.part hb, ?_, ?_, ?_⟩
  · simpa [Sparse.ofTriplets, hg.pairs] using hpos.length_eq
  · have : ((Sparse.ofTriplets (sp.fs.globalSize, sp.fs.globalSize)
        (singularTriplets env.cast F K G B B Q fam fam sp.fs sp.fs)).rows.zip (Sparse.ofTriplets (sp.fs.globalSize, sp.fs.globalSize)
        (singularTriplets env.cast F K G B B Q fam fam sp.fs sp.fs)).cols) =
        (singularTriplets env.cast F K G B B Q fam fam sp.fs sp.fs).map fun x => x.1 := by
      simp [Sparse.ofTriplets, List.zip_map']
    rw [this, hpos.nodup_iff]
    refine List.Nodup.map_on ?_ hnd
    intro p hp q hq e
    obtain ⟨p1, p2, -⟩ := mem_adjacentPairs.mp hp
    obtain ⟨q1, q2, -⟩ := mem_adjacentPairs.mp hq
    obtain ⟨e1, e2⟩ := Prod.mk.inj e
    exact Prod.ext (hinj _ p1 _ q1 e1) (hinj _ p2 _ q2 e2)
  · intro c hc
    refine ⟨D c, hD2 c hc, ?_⟩
    have hr := hpos.map Prod.fst
    rw [List.map_map, List.map_map] at hr
    have e1 : (Sparse.ofTriplets (sp.fs.globalSize, sp.fs.globalSize)
        (singularTriplets env.cast F K G B B Q fam fam sp.fs sp.fs)).rows =
        (singularTriplets env.cast F K G B B Q fam fam sp.fs sp.fs).map (Prod.fst ∘ fun x => x.1) := rfl
    rw [e1, hr.count_eq, List.count, List.countP_map, ← hg.touching hc]
    have e2 : ((adjacentPairs sp.fs.grid).filter fun p => decide (p.1 = c)).Perm
        (((sp.fs.grid.entityIter 2).filter fun c' => decide (c.Touches c')).map fun c' => (c, c')) := by
      have hn : (sp.fs.grid.entityIter 2).Nodup :=
        List.Nodup.of_map Entity.localIndex ((hg.wf.index 2 (le_refl 2)).nodup_iff.mpr List.nodup_range)
      rw [List.perm_ext_iff_of_nodup (hnd.filter _) ((hn.filter _).map fun a b h => (Prod.mk.inj h).2)]
      intro p
      rw [List.mem_filter, decide_eq_true_iff, mem_adjacentPairs, List.mem_map]
      constructor
      · rintro ⟨⟨-, p2, -, ht⟩, rfl⟩
        exact ⟨p.2, by simp only [List.mem_filter, decide_eq_true_iff]; exact ⟨p2, ht⟩, rfl⟩
      · rintro ⟨c', hc', rfl⟩
        obtain ⟨m, ht⟩ := List.mem_filter.mp hc'
        exact ⟨⟨hc, m, hg.owned 2 (le_refl 2) c hc, of_decide_eq_true ht⟩, rfl⟩
    have e3 := e2.length_eq
    rw [List.length_map, ← List.countP_eq_length_filter, ← List.countP_eq_length_filter] at e3
    rw [← e3]
    apply List.countP_congr
    intro p hp
    simp only [Function.comp, beq_iff_eq, decide_eq_true_iff]
    exact ⟨fun e => hinj _ (mem_adjacentPairs.mp hp).1 _ hc e, fun e => by rw [e]⟩

/-- **C113**, the benchmark `assembly_parts_benchmark` with any level, degrees and batch size: the matrix has `8 * 4^n` rows, the singular
part can be assembled with one result, it stores `104 * 4^n - 48` triplets, no position twice, and at most 13 in each row of a cell. -/
theorem C113_benchmark [Zero U] [One U] [Neg U] [Add U] [Mul U] [Div U] {n : Nat} (half : U) (sqrt : U → U)
    (hs : regularSphere half sqrt n = some s) (h : SingularSetting env asm sp sp fam fam F K G B B Q)
    (hb : 0 < asm.options.batchSize) (hg : Built s .triangle sp.fs.grid pt cl)
    (hf : (fam .triangle).Uniform .triangle fun d => if d = 2 then 1 else 0)
    (hm : FunctionSpace.new 0 1 sp.fs.grid fam = .done sp.fs) :
    sp.fs.globalSize = 8 * 4 ^ n ∧
    ∃ sm, (∀ out, AssembleSingularPart env asm (sp.fs.globalSize, sp.fs.globalSize) sp sp out ↔ out = some sm) ∧
      sm.data.length = 104 * 4 ^ n - 48 ∧ (sm.rows.zip sm.cols).Nodup ∧
      ∀ c ∈ sp.fs.grid.entityIter 2, ∃ i, sp.fs.cellDofs c.localIndex = some [i] ∧ sm.rows.count i ≤ 13 := by
  obtain ⟨e0, sm, h1, h2, h3, h4⟩ := C113_piecewise_constant h hb hg hf hm
  obtain ⟨p1, p2, -⟩ := C113_sphere_pairs half sqrt hs
  refine ⟨?_, sm, h1, by omega, h3, ?_⟩
  · rw [e0]
    obtain ⟨s', e, -, h5, -⟩ := C30_sizes half sqrt n
    rw [hs] at e
    cases e
    exact h5
  · intro c hc
    obtain ⟨i, e1, e2⟩ := h4 c hc
    obtain ⟨x, hx, e⟩ := hg.cell_mem hc
    exact ⟨i, e1, by rw [e2, ← e]; exact (p1 x hx).2⟩

end

/-! ### The hypotheses can be met -/

theorem exampleSphere (n : Nat) : ∃ (s : Shape Rat) (g : Grid) (pt cl : Nat → Nat), regularSphere (1 / 2) (fun _ => 1) n = some s ∧
    Built s .triangle g pt cl ∧ ∀ (fam : CellType → ElementDofs) (k : Nat → Nat) (B : Basis Rat Rat), (fam .triangle).Uniform .triangle k →
    ∃ fs, fs.grid = g ∧ FunctionSpace.new 0 1 g fam = .done fs ∧
      SingularSetting sizedEnv (Laplace.singleLayer (sizedKernel squareKernel) smallOptions)
        (sizedSpace fs fam octGeometry B) (sizedSpace fs fam octGeometry B) fam fam slF squareKernel octGeometry B B smallRules := by
  obtain ⟨st, e, -⟩ := sphere_degrees (1 / 2 : Rat) (fun _ => 1) n
  have hs := regularSphere_eq e
  obtain ⟨-, -, -, ⟨g, pt, cl, hb⟩, hall⟩ := C47_conforming (1 / 2 : Rat) (fun _ => 1) (fun n => (n : Rat)) (Or.inl ⟨hs, rfl⟩)
  obtain ⟨-, hsurf, hv, hco⟩ := hall g pt cl hb
  refine ⟨_, g, pt, cl, hs, hb, fun fam k B hf => ?_⟩
  obtain ⟨fs, hm, h, hg, -, -⟩ := hb.space hf
  refine ⟨fs, hg, hm,
    { testSpace := h.spaceOn
      trialSpace := h.spaceOn
      sameGrid := rfl
      surface := by show Surface fs.grid; rw [hg]; exact hsurf
      vertices := by show fs.grid.Vertices; rw [hg]; exact hv
      conforming := by
        show ∃ ev, fs.grid.Edges ev ∧ fs.grid.Conforming ev
        rw [hg]; exact hco
      geometry := sizedSpace_geometry _ _ _ _
      testBasis := sizedSpace_tabulate _ _ _ _
      trialBasis := sizedSpace_tabulate _ _ _ _
      operator := ⟨singleLayer_computes, sizedKernel_computes _ _, rfl⟩
      rules := ?_ }⟩
  show ∀ tt ∈ fs.grid.entityTypes 2, ∀ rt ∈ fs.grid.entityTypes 2, _
  rw [hg, hb.types]
  intro tt htt rt hrt
  obtain rfl := List.mem_singleton.mp htt
  obtain rfl := List.mem_singleton.mp hrt
  exact ⟨exEnv_singular.degree, exEnv_singular.points⟩

/-- On a sphere of any level: there is a grid and a space of continuous piecewise linear functions on it with at most 13 colours, the
singular part of the single layer operator can be assembled, and it stores `9 * (104 * 4^n - 48)` triplets. -/
example (n : Nat) : ∃ s : Shape Rat, regularSphere (1 / 2) (fun _ => 1) n = some s ∧ ∃ g pt cl fs, Built s .triangle g pt cl ∧
    FunctionSpace.new 0 1 g p1 = .done fs ∧
    (∃ col cols, fs.cellColouring = some col ∧ col .triangle = some cols ∧ cols.length ≤ 13) ∧
    ∃ sm, AssembleSingularPart sizedEnv (Laplace.singleLayer (sizedKernel squareKernel) smallOptions) (fs.globalSize, fs.globalSize)
      (sizedSpace fs p1 octGeometry p1Basis) (sizedSpace fs p1 octGeometry p1Basis) (some sm) ∧
    sm.data.length = 9 * (104 * 4 ^ n - 48) := by
  obtain ⟨s, g, pt, cl, hs, hb, hex⟩ := exampleSphere n
  obtain ⟨fs, hg, hm, hset⟩ := hex p1 _ p1Basis (p1_uniform _ (by simp))
  refine ⟨_, hs, g, pt, cl, fs, hb, hm,
    C113_colours (1 / 2 : Rat) (fun _ => 1) (fun n => (n : Rat)) (Or.inl ⟨hs, rfl⟩) hb (p1_uniform _ (by simp)) hm, ?_⟩
  have hsm := (hset.part (by decide) _).mpr rfl
  refine ⟨_, hsm, ?_⟩
  subst hg
  exact C113_sphere_stored _ _ hs hset (by decide) hb _ hsm

/-- The benchmark with a sphere of any level and piecewise constant functions. -/
example (n : Nat) : ∃ (fs : FunctionSpace) (B : Basis Rat Rat) (sm : Sparse Rat), fs.globalSize = 8 * 4 ^ n ∧
    AssembleSingularPart sizedEnv (Laplace.singleLayer (sizedKernel squareKernel) smallOptions) (fs.globalSize, fs.globalSize)
      (sizedSpace fs dp0 octGeometry B) (sizedSpace fs dp0 octGeometry B) (some sm) ∧ sm.data.length = 104 * 4 ^ n - 48 := by
  obtain ⟨s, g, pt, cl, hs, hb, hex⟩ := exampleSphere n
  obtain ⟨fs, hg, hm, hset⟩ := hex dp0 _ (fun _ _ i _ => if i = 0 then 1 else 0) (dp0_uniform _ (by simp))
  subst hg
  obtain ⟨h1, sm, h2, h3, -⟩ := C113_benchmark _ _ hs hset (by decide) hb (dp0_uniform _ (by simp)) hm
  exact ⟨fs, _, sm, h1, (h2 _).mpr rfl, h3⟩

/-- On the octahedron 56 of the 64 pairs of triangles touch: all except the pairs of opposite ones. -/
example : ∃ s : Shape Rat, regularSphere (1 / 2) (fun _ => 1) 0 = some s ∧ s.touchingPairs = 56 ∧ s.cells.length = 8 ∧
    s.cellsAt 0 = 4 :=
  ⟨_, rfl, by decide +kernel, by decide +kernel, by decide +kernel⟩

/-- On a screen of 3 × 3 quadrilaterals the cell in the middle touches all nine, and 49 pairs touch. -/
example : ∃ s : Shape Rat, screenQuadrilaterals (fun n => (n : Rat)) 3 = some s ∧ s.touchingPairs = 49 ∧
    s.touching [5, 6, 9, 10] = 9 :=
  ⟨_, rfl, by decide +kernel, by decide +kernel⟩

/-- On a screen of 2 × 2 squares divided into triangles 50 of the 64 pairs touch. -/
example : ∃ s : Shape Rat, screenTriangles (fun n => (n : Rat)) 2 = some s ∧ s.touchingPairs = 50 :=
  ⟨_, rfl, by decide +kernel⟩

end Bempp
