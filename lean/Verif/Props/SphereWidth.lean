import Verif.Props.Sphere
/-
C48, C49: how well a regular sphere approximates the sphere, and how its levels are nested.
-/
set_option linter.unusedSectionVars false

namespace Bempp

section
variable {s : SphereState ℝ}

theorem one_sub_cosine (n : Nat) : 2 * (1 - cosine n) = 6 / (4 ^ n + 2) := by
  unfold cosine
  have : (0 : ℝ) < 4 ^ n := by positivity
  field_simp
  ring

theorem third_cosine (n : Nat) : (1 + 2 * cosine n) / 3 = 4 ^ n / (4 ^ n + 2) := by
  unfold cosine
  have : (0 : ℝ) < 4 ^ n := by positivity
  field_simp
  ring

theorem dist_sq {a b : Vec} (ha : Vec.dot a a = 1) (hb : Vec.dot b b = 1) :
    Vec.dot (a - b) (a - b) = 2 * (1 - Vec.dot a b) := by
  have : Vec.dot (a - b) (a - b) = Vec.dot a a + Vec.dot b b - 2 * Vec.dot a b := by
    simp only [Vec.dot, Prod.fst_sub, Prod.snd_sub]
    ring
  rw [this, ha, hb]
  ring

theorem dot_le_one {a b : Vec} (ha : Vec.dot a a = 1) (hb : Vec.dot b b = 1) : Vec.dot a b ≤ 1 := by
  have h := dist_sq ha hb
  have : 0 ≤ Vec.dot (a - b) (a - b) := by
    unfold Vec.dot
    nlinarith [mul_self_nonneg (a - b).1, mul_self_nonneg (a - b).2.1, mul_self_nonneg (a - b).2.2]
  linarith

theorem dot_combination {a b d : Vec} (ha : Vec.dot a a = 1) (hb : Vec.dot b b = 1) (hd : Vec.dot d d = 1)
    (x y z : ℝ) : Vec.dot (x • a + y • b + z • d) (x • a + y • b + z • d) =
      x ^ 2 + y ^ 2 + z ^ 2 + 2 * x * y * Vec.dot a b + 2 * y * z * Vec.dot b d + 2 * x * z * Vec.dot a d := by
  have : Vec.dot (x • a + y • b + z • d) (x • a + y • b + z • d) =
      x ^ 2 * Vec.dot a a + y ^ 2 * Vec.dot b b + z ^ 2 * Vec.dot d d + 2 * x * y * Vec.dot a b +
        2 * y * z * Vec.dot b d + 2 * x * z * Vec.dot a d := by
    simp [Vec.dot]
    ring
  rw [this, ha, hb, hd]
  ring

theorem Close.edge {c : ℝ} {cs : List Tri} {pos : Nat → Vec} (h : Close c cs pos) {d : Nat × Nat}
    (hd : d ∈ edgesOf cs) : c ≤ Vec.dot (pos d.1) (pos d.2) := by
  obtain ⟨t, ht, hd⟩ := mem_edgesOf.mp hd
  obtain ⟨h1, h2, h3⟩ := h.le t ht
  simp only [Tri.edges, List.mem_cons, List.not_mem_nil, or_false] at hd
  rcases hd with rfl | rfl | rfl
  · exact h1
  · exact h2
  · rw [dot_comm]; exact h3

/-- C48: in `regular_sphere(n)` no edge is longer than `sqrt (6 / (4^n + 2))`, and every point of every flat cell
has a distance from the origin between `sqrt (4^n / (4^n + 2))` and 1. These bounds are attained. -/
theorem C48_approximates_sphere (n : Nat) : ∃ s, realSphere n = some s ∧
    (∀ d ∈ s.edges, ∃ a b, s.at d.1 = some a ∧ s.at d.2 = some b ∧ Vec.dot (a - b) (a - b) ≤ 6 / (4 ^ n + 2)) ∧
    (∃ d ∈ s.edges, ∃ a b, s.at d.1 = some a ∧ s.at d.2 = some b ∧ Vec.dot (a - b) (a - b) = 6 / (4 ^ n + 2)) ∧
    (∀ c ∈ s.cells, ∀ f x, s.InTriangle c.2 f x → 4 ^ n / (4 ^ n + 2) ≤ Vec.dot x x ∧ Vec.dot x x ≤ 1) ∧
    ∃ c ∈ s.cells, ∃ f x, s.InTriangle c.2 f x ∧ Vec.dot x x = 4 ^ n / (4 ^ n + 2) := by
  obtain ⟨s, e, h⟩ := real_state n
  refine ⟨s.shape, regularSphere_eq e, ?_, ?_, ?_, ?_⟩
  · intro d hd
    rw [s.shape_edges] at hd
    obtain ⟨l1, l2, -⟩ := h.inv.good.edge_lt hd
    have := dist_sq (h.outward.unit _ l1) (h.outward.unit _ l2)
    rw [← h.inv.length] at l1 l2
    refine ⟨_, _, SphereState.shape_pos l1, SphereState.shape_pos l2, ?_⟩
    rw [this, ← one_sub_cosine]
    have := h.width.edge hd
    linarith
  · obtain ⟨t, ht, h1, -⟩ := h.width.eq
    have hd : (t.p0, t.p1) ∈ edgesOf s.cells := (h.inv.good.tri_edges ht).1
    obtain ⟨l1, l2, -⟩ := h.inv.good.edge_lt hd
    have := dist_sq (h.outward.unit _ l1) (h.outward.unit _ l2)
    rw [← h.inv.length] at l1 l2
    refine ⟨_, by rw [s.shape_edges]; exact hd, _, _, SphereState.shape_pos l1, SphereState.shape_pos l2, ?_⟩
    rw [this, ← one_sub_cosine]
    dsimp only
    rw [h1]
  · intro c hc f x hf
    obtain ⟨t, ht, ec⟩ := s.shape_mem hc
    obtain ⟨l0, l1, l2⟩ := h.inv.good.lt t ht
    obtain ⟨hf, hsum⟩ := hf
    rw [ec] at hsum hf
    rw [SphereState.combination h ht] at hf
    obtain ⟨c1, c2, c3⟩ := h.width.le t ht
    have u0 := h.outward.unit _ l0
    have u1 := h.outward.unit _ l1
    have u2 := h.outward.unit _ l2
    have d1 := dot_le_one u0 u1
    have d2 := dot_le_one u1 u2
    have d3 := dot_le_one u0 u2
    rw [hf.eq, dot_combination u0 u1 u2, ← third_cosine]
    have p0 := hf.nonneg t.p0
    have p1 := hf.nonneg t.p1
    have p2 := hf.nonneg t.p2
    have k0 := cosine_nonneg n
    have k1 := cosine_le n
    simp only [List.map_cons, List.map_nil, List.sum_cons, List.sum_nil, add_zero] at hsum
    generalize f t.p0 = x at *
    generalize f t.p1 = y at *
    generalize f t.p2 = z at *
    generalize cosine n = k at *
    have hz : z = 1 - x - y := by linarith
    have m1 := mul_le_mul_of_nonneg_left c1 (mul_nonneg p0 p1)
    have m2 := mul_le_mul_of_nonneg_left c2 (mul_nonneg p1 p2)
    have m3 := mul_le_mul_of_nonneg_left c3 (mul_nonneg p0 p2)
    have w1 := mul_le_mul_of_nonneg_left d1 (mul_nonneg p0 p1)
    have w2 := mul_le_mul_of_nonneg_left d2 (mul_nonneg p1 p2)
    have w3 := mul_le_mul_of_nonneg_left d3 (mul_nonneg p0 p2)
    have sq : x ^ 2 + y ^ 2 + z ^ 2 + 2 * x * y + 2 * y * z + 2 * x * z = 1 := by rw [hz]; ring
    have s3 : 1 / 3 ≤ x ^ 2 + y ^ 2 + z ^ 2 := by
      nlinarith [sq_nonneg (x - y), sq_nonneg (y - z), sq_nonneg (x - z)]
    constructor
    · have : (1 - k) * (1 / 3) ≤ (1 - k) * (x ^ 2 + y ^ 2 + z ^ 2) :=
        mul_le_mul_of_nonneg_left s3 (by linarith)
      nlinarith
    · nlinarith
  · obtain ⟨t, ht, h1, h2, h3⟩ := h.width.eq
    obtain ⟨l0, l1, l2⟩ := h.inv.good.lt t ht
    obtain ⟨n0, n1, n2⟩ := h.inv.good.ne t ht
    obtain ⟨c, hc, ec⟩ := s.mem_shape ht
    refine ⟨c, hc, three t.p0 t.p1 t.p2 (1 / 3) (1 / 3) (1 / 3), (1 / 3 : ℝ) • s.pos t.p0 + (1 / 3 : ℝ) • s.pos t.p1 +
      (1 / 3 : ℝ) • s.pos t.p2, ⟨?_, ?_⟩, ?_⟩
    · rw [ec, SphereState.combination h ht]
      refine ⟨three_nonneg (by norm_num) (by norm_num) (by norm_num), ?_, ?_⟩
      · intro v hv
        obtain ⟨k1, k2, k3⟩ := Tri.not_mem_verts.mp hv
        exact three_zero _ _ _ k1 k2 k3
      · rw [three_a, three_b _ _ _ _ (Ne.symm n0), three_c _ _ _ (Ne.symm n2) (Ne.symm n1)]
    · rw [ec]
      simp only [List.map_cons, List.map_nil, List.sum_cons, List.sum_nil]
      rw [three_a, three_b _ _ _ _ (Ne.symm n0), three_c _ _ _ (Ne.symm n2) (Ne.symm n1)]
      norm_num
    · rw [dot_combination (h.outward.unit _ l0) (h.outward.unit _ l1) (h.outward.unit _ l2), h1, h2, h3,
        ← third_cosine]
      ring

/-- The bounds of the octahedron: edges of length `sqrt 2`, faces at distance `sqrt (1/3)`. -/
example : (6 / (4 ^ 0 + 2) : ℝ) = 2 ∧ (4 ^ 0 / (4 ^ 0 + 2) : ℝ) = 1 / 3 := by norm_num

end

section
variable {T : Type} [Zero T] [One T] [Neg T] [Add T] [Mul T] [Div T] {half : T} {sqrt : T → T}

theorem flatMap_four {α β : Type} (f : α → List β) (h : ∀ a, (f a).length = 4) :
    ∀ (l : List α) (k j : Nat), j < 4 → (l.flatMap f)[4 * k + j]? = (l[k]?).bind fun a => (f a)[j]? := by
  intro l
  induction l with
  | nil => intro k j _; simp
  | cons a l ih =>
    intro k j hj
    rw [List.flatMap_cons]
    cases k with
    | zero =>
      rw [List.getElem?_append_left (by rw [h]; omega)]
      simp
    | succ k =>
      rw [List.getElem?_append_right (by rw [h]; omega), h, show 4 * (k + 1) + j - 4 = 4 * k + j by omega, ih k j hj]
      simp

theorem SphereState.shape_cell (s : SphereState T) (k : Nat) :
    s.shape.cells[k]? = (s.cells[k]?).map fun t => (k, [t.p0, t.p1, t.p2]) := by
  simp only [SphereState.shape, List.getElem?_map, List.getElem?_zipIdx, Option.map_map]
  cases s.cells[k]? <;> simp

/-- Two consecutive levels. -/
theorem next_level (half : T) (sqrt : T → T) (n : Nat) : ∃ s s' : SphereState T,
    (List.range n).foldlM (fun s _ => refineLevel half sqrt s) (octahedronStart (T := T)) = some s ∧
    SphereInv n s ∧ refineLevel half sqrt s = some s' ∧ SphereInv (n + 1) s' ∧
    (List.range (n + 1)).foldlM (fun s _ => refineLevel half sqrt s) (octahedronStart (T := T)) = some s' := by
  obtain ⟨s, e, h⟩ := sphere_state half sqrt n
  obtain ⟨s', e', h'⟩ := refineLevel_inv (half := half) (sqrt := sqrt) h
  refine ⟨s, s', e, h, e', h', ?_⟩
  rw [List.range_succ, List.foldlM_append, e]
  simpa using e'

/-- C49: `regular_sphere(n + 1)` keeps the points of `regular_sphere(n)` with their numbers and coordinates, adds one
point for every edge, and cuts cell `k` into the cells `4 * k` to `4 * k + 3`, with the new points of its three
edges. -/
theorem C49_nested (half : T) (sqrt : T → T) (n : Nat) : ∃ s s', regularSphere half sqrt n = some s ∧
    regularSphere half sqrt (n + 1) = some s' ∧ s.points <+: s'.points ∧
    ∃ e : Nat → Nat → Nat, (∀ u v, e u v = e v u) ∧
      (∀ d ∈ s.edges, s.points.length ≤ e d.1 d.2 ∧ e d.1 d.2 < s'.points.length) ∧
      (∀ d ∈ s.edges, ∀ d' ∈ s.edges, e d.1 d.2 = e d'.1 d'.2 → d' = d ∨ d' = (d.2, d.1)) ∧
      (∀ v, s.points.length ≤ v → v < s'.points.length → ∃ d ∈ s.edges, v = e d.1 d.2) ∧
      ∀ k c, s.cells[k]? = some c → ∃ i j l, c.2 = [i, j, l] ∧
        s'.cells[4 * k]? = some (4 * k, [i, e i j, e i l]) ∧
        s'.cells[4 * k + 1]? = some (4 * k + 1, [j, e j l, e i j]) ∧
        s'.cells[4 * k + 2]? = some (4 * k + 2, [l, e i l, e j l]) ∧
        s'.cells[4 * k + 3]? = some (4 * k + 3, [e j l, e i l, e i j]) := by
  obtain ⟨s, s', e, h, e', h', e''⟩ := next_level half sqrt n
  obtain ⟨s'', e3, hn, hl, hc, hold, -⟩ := refineLevel_eq (half := half) (sqrt := sqrt) h.length h.good.lt
  obtain rfl : s' = s'' := Option.some.inj (e'.symm.trans e3)
  have he := look_numbers h.good
  refine ⟨s.shape, s'.shape, regularSphere_eq e, regularSphere_eq e'', ?_, look s.pointN (edgeKeys s.cells), he.comm,
    ?_, ?_, ?_, ?_⟩
  · rw [List.prefix_iff_eq_take]
    apply List.ext_getElem?
    intro i
    rw [List.getElem?_take, s.shape_points]
    split
    · rename_i hi
      have := hold i (by rw [← h.length]; exact hi)
      simp only [SphereState.shape, List.getElem?_map, List.getElem?_zipIdx, this]
    · rename_i hi
      rw [List.getElem?_eq_none (by rw [s.shape_points]; omega)]
  · intro d hd
    rw [s.shape_edges] at hd
    rw [s.shape_points, s'.shape_points, h.length, h'.length, hn]
    exact ⟨he.ge _ _, he.lt d hd⟩
  · intro d hd d' hd' hq
    rw [s.shape_edges] at hd hd'
    rcases he.inj d hd d' hd' hq with ⟨a, b⟩ | ⟨a, b⟩
    · left; exact Prod.ext a.symm b.symm
    · right; exact Prod.ext b.symm a.symm
  · intro v hv hv'
    rw [s.shape_points, h.length] at hv
    rw [s'.shape_points, h'.length, hn] at hv'
    rw [s.shape_edges]
    exact he.surj v hv hv'
  · intro k c hk
    rw [s.shape_cell] at hk
    obtain ⟨t, ht, rfl⟩ := Option.map_eq_some_iff.mp hk
    refine ⟨t.p0, t.p1, t.p2, rfl, ?_⟩
    have key : ∀ j, j < 4 → s'.cells[4 * k + j]? = (subdivide (look s.pointN (edgeKeys s.cells)) t)[j]? := by
      intro j hj
      rw [hc, flatMap_four _ (fun _ => rfl) _ _ _ hj, ht]
      rfl
    refine ⟨?_, ?_, ?_, ?_⟩
    · rw [s'.shape_cell, show s'.cells[4 * k]? = _ from key 0 (by omega)]
      rfl
    · rw [s'.shape_cell, key 1 (by omega)]
      rfl
    · rw [s'.shape_cell, key 2 (by omega)]
      rfl
    · rw [s'.shape_cell, key 3 (by omega)]
      rfl

/-- C49: in exact arithmetic, the new point of an edge is the projection of its middle to the unit sphere. -/
theorem C49_midpoints (n : Nat) : ∃ s s', realSphere n = some s ∧ realSphere (n + 1) = some s' ∧
    ∀ k i j l, s.cells[k]? = some (k, [i, j, l]) → ∃ a b c x y z, s'.cells[4 * k + 3]? = some (4 * k + 3, [a, b, c]) ∧
      s.at i = some x ∧ s.at j = some y ∧ s.at l = some z ∧
      (∃ r : ℝ, 0 < r ∧ s'.at a = some (r • (y + z)) ∧ Vec.dot (r • (y + z)) (r • (y + z)) = 1) ∧
      (∃ r : ℝ, 0 < r ∧ s'.at b = some (r • (x + z)) ∧ Vec.dot (r • (x + z)) (r • (x + z)) = 1) ∧
      ∃ r : ℝ, 0 < r ∧ s'.at c = some (r • (x + y)) ∧ Vec.dot (r • (x + y)) (r • (x + y)) = 1 := by
  obtain ⟨s, e, h⟩ := real_state n
  obtain ⟨s', e', h'⟩ := refineLevel_real h
  obtain ⟨s'', e3, hn, hl, hc, -, -⟩ :=
    refineLevel_eq (half := (1 / 2 : ℝ)) (sqrt := Real.sqrt) h.inv.length h.inv.good.lt
  obtain rfl : s' = s'' := Option.some.inj (e'.symm.trans e3)
  have e'' : (List.range (n + 1)).foldlM (fun s _ => refineLevel (1 / 2) Real.sqrt s)
      (octahedronStart (T := ℝ)) = some s' := by
    rw [List.range_succ, List.foldlM_append, e]
    simpa using e'
  have he := look_numbers h.inv.good
  have hr := refined_points h.inv e'
  refine ⟨s.shape, s'.shape, regularSphere_eq e, regularSphere_eq e'', ?_⟩
  intro k i j l hk
  rw [s.shape_cell] at hk
  obtain ⟨t, ht, ec⟩ := Option.map_eq_some_iff.mp hk
  simp only [Prod.mk.injEq, List.cons.injEq, and_true, true_and] at ec
  obtain ⟨rfl, rfl, rfl⟩ := ec
  have htm := List.mem_of_getElem? ht
  obtain ⟨l0, l1, l2⟩ := h.inv.good.lt t htm
  rw [← h.inv.length] at l0 l1 l2
  obtain ⟨d1, d2, d3, -⟩ := h.inv.good.tri_edges htm
  have key : ∀ d ∈ edgesOf s.cells, ∃ r : ℝ, 0 < r ∧
      s'.shape.at (look s.pointN (edgeKeys s.cells) d.1 d.2) = some (r • (s.pos d.1 + s.pos d.2)) ∧
      Vec.dot (r • (s.pos d.1 + s.pos d.2)) (r • (s.pos d.1 + s.pos d.2)) = 1 := by
    intro d hd
    have hne := h.outward.sum_ne hd
    refine ⟨_, scale_pos hne, ?_, ?_⟩
    · rw [SphereState.shape_pos (by rw [hl, hn]; exact he.lt d hd), hr.scaled hd]
    · rw [← newPoint_eq]
      exact newPoint_unit hne
  refine ⟨_, _, _, _, _, _, ?_, SphereState.shape_pos l0, SphereState.shape_pos l1, SphereState.shape_pos l2,
    key _ d2, key _ d3, key _ d1⟩
  rw [s'.shape_cell, hc, flatMap_four _ (fun _ => rfl) _ _ _ (by omega), ht]
  rfl

/-- A cell of the octahedron and its parts. -/
example : (do
    let s ← regularSphere (1 : Int) id 0
    let s' ← regularSphere (1 : Int) id 1
    return (s.cells[1]?, s'.cells[4]?, s'.cells[7]?)) =
    some (some (1, [0, 2, 3]), some (4, [0, 7, 10]), some (7, [9, 10, 7])) := by decide +kernel

end
end Bempp
