import Verif.Spec.ShapeSurface
import Verif.Spec.Convergence
import Verif.Props.Builder
import Verif.Props.Sphere
import Verif.Props.Screen
/-
The cells of the surfaces made from the shapes are not degenerate, and cells that do not touch are disjoint.
-/
namespace Bempp

section
variable {s : Shape ℝ} {t : CellType} {g : Grid} {pt cl : Nat → Nat} {V : Nat → Nat → Nat → ℝ} {n : Nat}

/-- The coordinates of a corner. -/
theorem HasCorners.corner (hV : HasCorners s g pt V) (hb : Built s t g pt cl) {c : Entity} (hc : c ∈ g.entityIter 2)
    {k v : Nat} (hk : (c.sub 0)[k]? = some v) :
    ((V c.localIndex k 0, V c.localIndex k 1, V c.localIndex k 2) : Vec) = (s.at (pt v)).getD 0 := by
  have hv : v < g.count 0 := hb.wf.sub_lt c hc 0 (by decide) v (List.mem_of_getElem? hk)
  have hp : pt v < s.points.length :=
    List.mem_range.mp (hb.points.mem_iff.mp (List.mem_map.mpr ⟨v, List.mem_range.mpr hv, rfl⟩))
  have hat : s.at (pt v) = some (s.points[pt v]'hp).2 := by
    unfold Shape.at
    rw [List.getElem?_eq_getElem hp]
    rfl
  obtain ⟨h0, h1, h2⟩ := hV c hc k v _ hk hat
  rw [hat, h0, h1, h2]
  rfl

theorem Built.pt_inj (hb : Built s t g pt cl) {c c' : Entity} (hc : c ∈ g.entityIter 2) (hc' : c' ∈ g.entityIter 2)
    {u v : Nat} (hu : u ∈ c.sub 0) (hv : v ∈ c'.sub 0) (h : pt u = pt v) : u = v :=
  perm_inj hb.points (hb.wf.sub_lt c hc 0 (by decide) u hu) (hb.wf.sub_lt c' hc' 0 (by decide) v hv) h

/-- A common point of two cells is a combination of their corners. -/
theorem touches_of_common (hb : Built s t g pt cl) {c c' : Entity} (hc : c ∈ g.entityIter 2)
    (hc' : c' ∈ g.entityIter 2) {v : Nat} (h : v ∈ (c.sub 0).map pt) (h' : v ∈ (c'.sub 0).map pt) : c.Touches c' := by
  obtain ⟨u, hu, rfl⟩ := List.mem_map.mp h
  obtain ⟨w, hw, e⟩ := List.mem_map.mp h'
  have := hb.pt_inj hc hc' hu hw e.symm
  exact ⟨u, hu, this ▸ hw⟩

theorem Built.corner_list (hb : Built s t g pt cl) {c : Entity} (hc : c ∈ g.entityIter 2) :
    ∃ i, (i, (c.sub 0).map pt) ∈ s.cells ∧ ((c.sub 0).map pt).Nodup ∧ (c.sub 0).length = refCount t 0 := by
  obtain ⟨x, hx, e⟩ := hb.corners c hc
  refine ⟨x.1, ?_, ?_, ?_⟩
  · rw [← e]
    exact List.mem_of_getElem? hx
  · refine List.Nodup.map_on ?_ (hb.wf.sub_nodup c hc 0 (by decide))
    intro a ha b hb' e
    exact hb.pt_inj hc hc ha hb' e
  · rw [hb.wf.sub_length c hc 0 (by decide), hb.cell_type hc]

/-- The point of a triangle with reference coordinates `z` as a combination of its corners. -/
theorem triangle_combination (hb : Built s .triangle g pt cl) (hV : HasCorners s g pt V) {c : Entity}
    (hc : c ∈ g.entityIter 2) {z : ℝ × ℝ} (hz : z ∈ refCell .triangle) :
    ∃ f, ((c.sub 0).map pt).map f = [1 - z.1 - z.2, z.1, z.2] ∧ s.InTriangle ((c.sub 0).map pt) f
      ((vertexGeometry triangleFunctions V).point c.localIndex (pointList z) 0,
        (vertexGeometry triangleFunctions V).point c.localIndex (pointList z) 1,
        (vertexGeometry triangleFunctions V).point c.localIndex (pointList z) 2) := by
  obtain ⟨i, -, hn, hl⟩ := hb.corner_list hc
  obtain ⟨a, b, d, e⟩ : ∃ a b d, c.sub 0 = [a, b, d] := List.length_eq_three.mp (by simpa [refCount] using hl)
  have ha := hV.corner hb hc (k := 0) (v := a) (by rw [e]; rfl)
  have hb1 := hV.corner hb hc (k := 1) (v := b) (by rw [e]; rfl)
  have hd := hV.corner hb hc (k := 2) (v := d) (by rw [e]; rfl)
  rw [e] at hn ⊢
  simp only [List.map_cons, List.map_nil, List.nodup_cons, List.mem_cons, List.not_mem_nil, or_false, not_or,
    List.nodup_nil, and_true, not_false_eq_true] at hn
  obtain ⟨⟨h1, h2⟩, h3⟩ := hn
  obtain ⟨z1, z2, z3⟩ := hz
  refine ⟨fun v => if v = pt a then 1 - z.1 - z.2 else if v = pt b then z.1 else if v = pt d then z.2 else 0,
    ?_, ⟨⟨?_, ?_, ?_⟩, ?_⟩⟩
  · simp only [List.map_cons, List.map_nil, if_pos, if_neg (Ne.symm h1), if_neg (Ne.symm h2), if_neg (Ne.symm h3)]
  · intro v
    dsimp only
    split
    · linarith
    · split
      · exact z1
      · split
        · exact z2
        · exact le_refl _
  · intro v hv
    simp only [List.map_cons, List.map_nil, List.mem_cons, List.not_mem_nil, or_false, not_or] at hv
    dsimp only
    rw [if_neg hv.1, if_neg hv.2.1, if_neg hv.2.2]
  · simp only [List.map_cons, List.map_nil, List.sum_cons, List.sum_nil, if_pos, if_neg (Ne.symm h1), if_neg (Ne.symm h2),
      if_neg (Ne.symm h3), ← ha, ← hb1, ← hd]
    simp [vertexGeometry, triangleFunctions, List.range_succ, pointList]
  · simp only [List.map_cons, List.map_nil, List.sum_cons, List.sum_nil, if_pos, if_neg (Ne.symm h1), if_neg (Ne.symm h2),
      if_neg (Ne.symm h3)]
    ring

/-- The same for a quadrilateral. -/
theorem quadrilateral_combination (hb : Built s .quadrilateral g pt cl) (hV : HasCorners s g pt V) {c : Entity}
    (hc : c ∈ g.entityIter 2) {z : ℝ × ℝ} (hz : z ∈ refCell .quadrilateral) :
    ∃ f, ((c.sub 0).map pt).map f = [(1 - z.1) * (1 - z.2), z.1 * (1 - z.2), (1 - z.1) * z.2, z.1 * z.2] ∧
      s.InQuadrilateral ((c.sub 0).map pt) f
      ((vertexGeometry quadrilateralFunctions V).point c.localIndex (pointList z) 0,
        (vertexGeometry quadrilateralFunctions V).point c.localIndex (pointList z) 1,
        (vertexGeometry quadrilateralFunctions V).point c.localIndex (pointList z) 2) := by
  obtain ⟨i, -, hn, hl⟩ := hb.corner_list hc
  obtain ⟨a, b, d, e, he⟩ : ∃ a b d e, c.sub 0 = [a, b, d, e] := by
    have : (c.sub 0).length = 4 := by simpa [refCount] using hl
    match c.sub 0, this with
    | [a, b, d, e], _ => exact ⟨a, b, d, e, rfl⟩
  have ha := hV.corner hb hc (k := 0) (v := a) (by rw [he]; rfl)
  have hb1 := hV.corner hb hc (k := 1) (v := b) (by rw [he]; rfl)
  have hd := hV.corner hb hc (k := 2) (v := d) (by rw [he]; rfl)
  have he' := hV.corner hb hc (k := 3) (v := e) (by rw [he]; rfl)
  rw [he] at hn ⊢
  simp only [List.map_cons, List.map_nil, List.nodup_cons, List.mem_cons, List.not_mem_nil, or_false, not_or,
    List.nodup_nil, and_true, not_false_eq_true] at hn
  obtain ⟨⟨h1, h2, h3⟩, ⟨h4, h5⟩, h6⟩ := hn
  obtain ⟨z1, z2, z3, z4⟩ := hz
  refine ⟨fun v => if v = pt a then (1 - z.1) * (1 - z.2) else if v = pt b then z.1 * (1 - z.2) else
    if v = pt d then (1 - z.1) * z.2 else if v = pt e then z.1 * z.2 else 0,
    ?_, ⟨⟨?_, ?_, ?_⟩, z.1, z.2, z1, z2, z3, z4, ?_⟩⟩
  · simp only [List.map_cons, List.map_nil, if_pos, if_neg (Ne.symm h1), if_neg (Ne.symm h2),
      if_neg (Ne.symm h3), if_neg (Ne.symm h4), if_neg (Ne.symm h5), if_neg (Ne.symm h6)]
  · intro v
    have k1 : 0 ≤ 1 - z.1 := by linarith
    have k2 : 0 ≤ 1 - z.2 := by linarith
    dsimp only
    split
    · positivity
    · split
      · positivity
      · split
        · positivity
        · split
          · positivity
          · exact le_refl _
  · intro v hv
    simp only [List.map_cons, List.map_nil, List.mem_cons, List.not_mem_nil, or_false, not_or] at hv
    dsimp only
    rw [if_neg hv.1, if_neg hv.2.1, if_neg hv.2.2.1, if_neg hv.2.2.2]
  · simp only [List.map_cons, List.map_nil, List.sum_cons, List.sum_nil, if_pos, if_neg (Ne.symm h1), if_neg (Ne.symm h2),
      if_neg (Ne.symm h3), if_neg (Ne.symm h4), if_neg (Ne.symm h5), if_neg (Ne.symm h6), ← ha, ← hb1, ← hd, ← he']
    simp [vertexGeometry, quadrilateralFunctions, List.range_succ, pointList]
  · simp only [List.map_cons, List.map_nil, if_pos, if_neg (Ne.symm h1), if_neg (Ne.symm h2),
      if_neg (Ne.symm h3), if_neg (Ne.symm h4), if_neg (Ne.symm h5), if_neg (Ne.symm h6)]

/-- If coefficients determine the common corners, then cells with a common point touch. -/
theorem touches_of_coefficients (hb : Built s t g pt cl) {c c' : Entity} (hc : c ∈ g.entityIter 2)
    (hc' : c' ∈ g.entityIter 2) {f : Nat → ℝ} (hf : ∃ v, f v ≠ 0)
    (h : ∀ v, f v ≠ 0 → v ∈ (c.sub 0).map pt ∧ v ∈ (c'.sub 0).map pt) : c.Touches c' := by
  obtain ⟨v, hv⟩ := hf
  exact touches_of_common hb hc hc' (h v hv).1 (h v hv).2

theorem ne_zero_of_sum {l : List Nat} {f : Nat → ℝ} (h : (l.map f).sum = 1) : ∃ v, f v ≠ 0 := by
  by_contra hn
  simp only [not_exists, not_not] at hn
  have : (l.map f).sum = 0 := by
    apply List.sum_eq_zero
    intro x hx
    obtain ⟨v, -, rfl⟩ := List.mem_map.mp hx
    exact hn v
  linarith

/-- The weights of the corners of a cell at a point of the reference cell. -/
noncomputable def cornerWeights (t : CellType) (z : ℝ × ℝ) : List ℝ :=
  match t with
  | .quadrilateral => [(1 - z.1) * (1 - z.2), z.1 * (1 - z.2), (1 - z.1) * z.2, z.1 * z.2]
  | _ => [1 - z.1 - z.2, z.1, z.2]

/-- A common point of two cells is spanned by their common corners. -/
theorem shape_common (hs : LibraryShape n t s) (hb : Built s t g pt cl) (hV : HasCorners s g pt V) {c c' : Entity}
    (hc : c ∈ g.entityIter 2) (hc' : c' ∈ g.entityIter 2) {x y : ℝ × ℝ} (hx : x ∈ refCell t) (hy : y ∈ refCell t)
    (e : (vertexGeometry (cellFunctions t) V).coords c.localIndex (pointList x) =
      (vertexGeometry (cellFunctions t) V).coords c'.localIndex (pointList y)) :
    ∃ f : Nat → ℝ, ((c.sub 0).map pt).map f = cornerWeights t x ∧
      ∀ v, f v ≠ 0 → v ∈ (c.sub 0).map pt ∧ v ∈ (c'.sub 0).map pt := by
  obtain ⟨i, hi, -, -⟩ := hb.corner_list hc
  obtain ⟨i', hi', -, -⟩ := hb.corner_list hc'
  have e3 : ∀ k, k < 3 → (vertexGeometry (cellFunctions t) V).point c.localIndex (pointList x) k =
      (vertexGeometry (cellFunctions t) V).point c'.localIndex (pointList y) k := by
    intro k hk
    have := congrArg (fun l => l.getD k 0) e
    simp only [Geometry.coords] at this
    match k, hk with
    | 0, _ => simpa using this
    | 1, _ => simpa using this
    | 2, _ => simpa using this
  rcases hs with ⟨hs, rfl⟩ | ⟨hs, rfl⟩ | ⟨hs, rfl⟩
  · obtain ⟨f, hw, hf⟩ := triangle_combination hb hV hc hx
    obtain ⟨f', -, hf'⟩ := triangle_combination hb hV hc' hy
    obtain ⟨s', hs', -, h, -⟩ := C42_no_gaps_no_overlaps n
    rw [hs] at hs'
    cases hs'
    have e0 := e3 0 (by decide)
    have e1 := e3 1 (by decide)
    have e2 := e3 2 (by decide)
    simp only [cellFunctions] at e0 e1 e2
    rw [← e0, ← e1, ← e2] at hf'
    exact ⟨f, hw, (h _ hi _ hi' f f' _ hf.1 hf'.1).2⟩
  · obtain ⟨f, hw, hf⟩ := triangle_combination hb hV hc hx
    obtain ⟨f', -, hf'⟩ := triangle_combination hb hV hc' hy
    have e0 := e3 0 (by decide)
    have e1 := e3 1 (by decide)
    have e2 := e3 2 (by decide)
    simp only [cellFunctions] at e0 e1 e2
    rw [← e0, ← e1, ← e2] at hf'
    exact ⟨f, hw, ((C35_triangles hs).2.2.1 _ hi _ hi' f f' _ hf hf').2⟩
  · obtain ⟨f, hw, hf⟩ := quadrilateral_combination hb hV hc hx
    obtain ⟨f', -, hf'⟩ := quadrilateral_combination hb hV hc' hy
    have e0 := e3 0 (by decide)
    have e1 := e3 1 (by decide)
    have e2 := e3 2 (by decide)
    simp only [cellFunctions] at e0 e1 e2
    rw [← e0, ← e1, ← e2] at hf'
    exact ⟨f, hw, ((C35_quadrilaterals hs).2.2.1 _ hi _ hi' f f' _ hf hf').2⟩

theorem cornerWeights_sum (t : CellType) (z : ℝ × ℝ) : (cornerWeights t z).sum = 1 := by
  unfold cornerWeights
  split <;> simp only [List.sum_cons, List.sum_nil] <;> ring

/-- Cells of a surface made from one of the shapes that have a common point have a common corner. -/
theorem shape_disjoint (hs : LibraryShape n t s) (hb : Built s t g pt cl) (hV : HasCorners s g pt V) {c c' : Entity}
    (hc : c ∈ g.entityIter 2) (hc' : c' ∈ g.entityIter 2) (hn : ¬ c.Touches c') :
    DisjointCells (vertexGeometry (cellFunctions t) V) (vertexGeometry (cellFunctions t) V) t c.localIndex
      c'.localIndex := by
  intro x hx y hy e
  obtain ⟨f, hw, h⟩ := shape_common hs hb hV hc hc' hx hy e
  exact hn (touches_of_coefficients hb hc hc' (ne_zero_of_sum (l := (c.sub 0).map pt) (by
    rw [hw]; exact cornerWeights_sum t x)) h)

theorem norm3_ne_zero {u : Nat → ℝ} (h : (u 0, u 1, u 2) ≠ ((0, 0, 0) : Vec)) : norm3 u ≠ 0 := by
  unfold norm3
  intro e
  rw [Real.sqrt_eq_zero (by nlinarith [mul_self_nonneg (u 0), mul_self_nonneg (u 1), mul_self_nonneg (u 2)])] at e
  apply h
  have h0 := mul_self_nonneg (u 0)
  have h1 := mul_self_nonneg (u 1)
  have h2 := mul_self_nonneg (u 2)
  rw [mul_self_eq_zero.mp (by linarith : u 0 * u 0 = 0), mul_self_eq_zero.mp (by linarith : u 1 * u 1 = 0),
    mul_self_eq_zero.mp (by linarith : u 2 * u 2 = 0)]

/-- Triangles whose area vector is not 0 are not degenerate. -/
theorem triangle_jdet (hb : Built s .triangle g pt cl) (hV : HasCorners s g pt V) {c : Entity}
    (hc : c ∈ g.entityIter 2) (h : s.areaVector ((c.sub 0).map pt) ≠ 0) (x : List ℝ) :
    (vertexGeometry triangleFunctions V).jdet c.localIndex x ≠ 0 := by
  obtain ⟨i, -, hn, hl⟩ := hb.corner_list hc
  obtain ⟨a, b, d, e⟩ : ∃ a b d, c.sub 0 = [a, b, d] := List.length_eq_three.mp (by simpa [refCount] using hl)
  have ha := hV.corner hb hc (k := 0) (v := a) (by rw [e]; rfl)
  have hb1 := hV.corner hb hc (k := 1) (v := b) (by rw [e]; rfl)
  have hd := hV.corner hb hc (k := 2) (v := d) (by rw [e]; rfl)
  apply norm3_ne_zero
  intro e'
  apply h
  rw [e]
  simp only [List.map_cons, List.map_nil, Shape.areaVector, ← ha, ← hb1, ← hd]
  rw [← Prod.mk_zero_zero, ← Prod.mk_zero_zero, ← e']
  simp only [triangleFunctions, List.range_succ, List.range_zero, List.nil_append, List.map_cons, List.map_nil,
    List.cons_append, List.sum_cons, List.sum_nil, cross3, Vec.cross, Prod.mk_sub_mk]
  refine Prod.ext ?_ (Prod.ext ?_ ?_) <;> simp only <;> ring

/-- The squares of a screen are not degenerate. -/
theorem square_jdet (hs : screenQuadrilaterals (fun k => (k : ℝ)) n = some s) (hb : Built s .quadrilateral g pt cl)
    (hV : HasCorners s g pt V) {c : Entity} (hc : c ∈ g.entityIter 2) (x : List ℝ) :
    (vertexGeometry quadrilateralFunctions V).jdet c.localIndex x ≠ 0 := by
  obtain ⟨i, hi, -, hl⟩ := hb.corner_list hc
  obtain ⟨a, b, d, e, he⟩ : ∃ a b d e, c.sub 0 = [a, b, d, e] := by
    have : (c.sub 0).length = 4 := by simpa [refCount] using hl
    match c.sub 0, this with
    | [a, b, d, e], _ => exact ⟨a, b, d, e, rfl⟩
  have ha := hV.corner hb hc (k := 0) (v := a) (by rw [he]; rfl)
  have hb1 := hV.corner hb hc (k := 1) (v := b) (by rw [he]; rfl)
  have hd := hV.corner hb hc (k := 2) (v := d) (by rw [he]; rfl)
  have he' := hV.corner hb hc (k := 3) (v := e) (by rw [he]; rfl)
  obtain ⟨p, q, hp, hq, hpq⟩ := (mem_screenQuadrilaterals _ hs).mp ⟨i, hi⟩
  have hpts := (screenQuadrilaterals_eq _ hs).2.1
  rw [he] at hpq
  simp only [List.map_cons, List.map_nil, squareQuad, List.cons.injEq, and_true] at hpq
  obtain ⟨p1, p2, p3, p4⟩ := hpq
  rw [p1, screen_pos hpts (by omega) (by omega)] at ha
  rw [p2, screen_pos hpts (by omega) (by omega)] at hb1
  rw [p3, screen_pos hpts (by omega) (by omega)] at hd
  rw [p4, screen_pos hpts (by omega) (by omega)] at he'
  simp only [Option.getD_some, Prod.mk.injEq] at ha hb1 hd he'
  have hn : ((n : ℝ) + 1) ≠ 0 := by positivity
  apply norm3_ne_zero
  intro e'
  have e2 := congrArg (fun v : Vec => v.2.2) e'
  simp only [quadrilateralFunctions, List.range_succ, List.range_zero, List.nil_append, List.map_cons, List.map_nil,
    List.cons_append, List.sum_cons, List.sum_nil, cross3, ha.1, ha.2.1, hb1.1, hb1.2.1, hd.1, hd.2.1, he'.1,
    he'.2.1] at e2
  push_cast at e2
  field_simp at e2
  norm_num at e2
  ring_nf at e2
  norm_num at e2

/-- The squares of a screen are parallelograms. -/
theorem square_parallelogram (hs : screenQuadrilaterals (fun k => (k : ℝ)) n = some s)
    (hb : Built s .quadrilateral g pt cl) (hV : HasCorners s g pt V) {c : Entity} (hc : c ∈ g.entityIter 2) {i : Nat}
    (hi : i < 3) : V c.localIndex 3 i = V c.localIndex 1 i + V c.localIndex 2 i - V c.localIndex 0 i := by
  obtain ⟨j, hj, -, hl⟩ := hb.corner_list hc
  obtain ⟨a, b, d, e, he⟩ : ∃ a b d e, c.sub 0 = [a, b, d, e] := by
    have : (c.sub 0).length = 4 := by simpa [refCount] using hl
    match c.sub 0, this with
    | [a, b, d, e], _ => exact ⟨a, b, d, e, rfl⟩
  have ha := hV.corner hb hc (k := 0) (v := a) (by rw [he]; rfl)
  have hb1 := hV.corner hb hc (k := 1) (v := b) (by rw [he]; rfl)
  have hd := hV.corner hb hc (k := 2) (v := d) (by rw [he]; rfl)
  have he' := hV.corner hb hc (k := 3) (v := e) (by rw [he]; rfl)
  obtain ⟨p, q, hp, hq, hpq⟩ := (mem_screenQuadrilaterals _ hs).mp ⟨j, hj⟩
  have hpts := (screenQuadrilaterals_eq _ hs).2.1
  rw [he] at hpq
  simp only [List.map_cons, List.map_nil, squareQuad, List.cons.injEq, and_true] at hpq
  obtain ⟨p1, p2, p3, p4⟩ := hpq
  rw [p1, screen_pos hpts (by omega) (by omega)] at ha
  rw [p2, screen_pos hpts (by omega) (by omega)] at hb1
  rw [p3, screen_pos hpts (by omega) (by omega)] at hd
  rw [p4, screen_pos hpts (by omega) (by omega)] at he'
  simp only [Option.getD_some, Prod.mk.injEq] at ha hb1 hd he'
  interval_cases i
  · rw [ha.1, hb1.1, hd.1, he'.1]; ring
  · rw [ha.2.1, hb1.2.1, hd.2.1, he'.2.1]; ring
  · rw [ha.2.2, hb1.2.2, hd.2.2, he'.2.2]; ring

/-- No cell of a surface made from one of the shapes is degenerate. -/
theorem shape_jdet (hs : LibraryShape n t s) (hb : Built s t g pt cl) (hV : HasCorners s g pt V) {c : Entity}
    (hc : c ∈ g.entityIter 2) (x : List ℝ) : (vertexGeometry (cellFunctions t) V).jdet c.localIndex x ≠ 0 := by
  obtain ⟨i, hi, -, -⟩ := hb.corner_list hc
  rcases hs with ⟨hs, rfl⟩ | ⟨hs, rfl⟩ | ⟨hs, rfl⟩
  · refine triangle_jdet hb hV hc ?_ x
    obtain ⟨s', hs', -, -, h⟩ := C32_on_sphere_outward n
    rw [hs] at hs'
    cases hs'
    obtain ⟨a, b, d, u, v, w, e, h1, h2, h3, h4, -⟩ := h _ hi
    simp only at e
    rw [e]
    simp only [Shape.areaVector, h1, h2, h3, Option.getD_some]
    intro h0
    rw [h0] at h4
    simp [Vec.dot] at h4
  · refine triangle_jdet hb hV hc ?_ x
    obtain ⟨-, -, h⟩ := (C35_triangles hs).1 _ hi
    intro h0
    simp only at h
    rw [h0] at h
    exact lt_irrefl _ h
  · exact square_jdet hs hb hV hc x

/-- There are coordinates for the corners of the cells. -/
theorem Built.exists_corners (hb : Built s t g pt cl) : ∃ V, HasCorners s g pt V := by
  refine ⟨fun c k i => match g.entity 2 c with
    | none => 0
    | some e => match (e.sub 0)[k]? with
      | none => 0
      | some v => match s.at (pt v) with
        | none => 0
        | some p => match i with
          | 0 => p.1
          | 1 => p.2.1
          | _ => p.2.2, fun c hc k v p hk hp => ?_⟩
  simp only [hb.wf.entity 2 (le_refl 2) c hc, hk, hp, and_self]

end
end Bempp
