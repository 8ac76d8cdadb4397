import Verif.Proofs.SolidAngle
import Verif.Proofs.ShapeSurface
import Verif.Props.Pairs
import Mathlib.Analysis.Convex.Measure
/-
The solid angle of the spheres that the library makes.
-/
namespace Bempp
open MeasureTheory Set

/-- Corner `k` of cell `c`. -/
def cornerVec (V : Nat → Nat → Nat → ℝ) (c k : Nat) : Vec := (V c k 0, V c k 1, V c k 2)

/-- The point of a flat triangle as a vector. -/
theorem point_triPoint (V : Nat → Nat → Nat → ℝ) (c : Nat) (z : ℝ × ℝ) :
    (((vertexGeometry triangleFunctions V).point c (pointList z) 0, (vertexGeometry triangleFunctions V).point c (pointList z) 1,
      (vertexGeometry triangleFunctions V).point c (pointList z) 2) : Vec) =
      triPoint (cornerVec V c 0) (cornerVec V c 1) (cornerVec V c 2) z := by
  simp only [vertexGeometry, triangleFunctions, List.range_succ, List.range_zero, List.nil_append, List.map_cons, List.map_nil,
    List.cons_append, List.sum_cons, List.sum_nil, pointList, triPoint, cornerVec, List.getD_cons_zero, List.getD_cons_succ]
  ext <;> simp <;> ring

section
variable {s : Shape ℝ} {g : Grid} {pt cl : Nat → Nat} {V : Nat → Nat → Nat → ℝ} {n : Nat}

/-- A function of directed edges that changes its sign with the direction has the sum 0 over a closed surface. -/
theorem edges_cancel {l : List (Nat × Nat)} (h : ∀ u v, (u, v) ∈ l → l.count (u, v) = 1 ∧ l.count (v, u) = 1)
    {L : Nat × Nat → ℝ} (hL : ∀ e, L e.swap = -L e) : (l.map L).sum = 0 := by
  have hp : l.Perm (l.map Prod.swap) := by
    rw [List.perm_iff_count]
    rintro ⟨u, v⟩
    have e : (l.map Prod.swap).count (u, v) = l.count (v, u) :=
      List.count_map_of_injective l Prod.swap Prod.swap_injective (v, u)
    rw [e]
    by_cases h1 : (u, v) ∈ l
    · rw [(h u v h1).1, (h u v h1).2]
    · by_cases h2 : (v, u) ∈ l
      · rw [(h v u h2).1, (h v u h2).2]
      · rw [List.count_eq_zero_of_not_mem h1, List.count_eq_zero_of_not_mem h2]
  have h1 := (hp.map L).sum_eq
  rw [List.map_map] at h1
  have h2 : ((l.map (L ∘ Prod.swap)).sum) = -(l.map L).sum := by
    rw [List.map_congr_left (f := L ∘ Prod.swap) (g := fun e => (-1) * L e) fun e _ => by
      rw [Function.comp_apply, hL, neg_one_mul], List.sum_map_mul_left, neg_one_mul]
  rw [h2] at h1
  linarith

/-- The cells of the grid are those of the shape. -/
theorem Built.cells_perm {t : CellType} (hb : Built s t g pt cl) :
    ((g.entityIter 2).map fun c => (c.sub 0).map pt).Perm (s.cells.map Prod.snd) := by
  let f : Nat → List Nat := fun k => ((s.cells[k]?).map Prod.snd).getD []
  have e1 : (g.entityIter 2).map (fun c => (c.sub 0).map pt) =
      ((g.entityIter 2).map Entity.localIndex).map (f ∘ cl) := by
    rw [List.map_map]
    refine List.map_congr_left fun c hc => ?_
    obtain ⟨x, hx, e⟩ := hb.corners c hc
    simp only [Function.comp_apply, f, hx, Option.map_some, Option.getD_some, e]
  have e2 : s.cells.map Prod.snd = (List.range s.cells.length).map f := by
    refine List.ext_getElem (by simp) fun i h1 h2 => ?_
    have hi : i < s.cells.length := by simpa using h1
    simp [f, hi]
  rw [e1, e2, ← List.map_map]
  exact (((hb.wf.index 2 (by decide)).map cl).trans hb.cells).map f

theorem triangle_corners (hb : Built s .triangle g pt cl) (hV : HasCorners s g pt V) {c : Entity} (hc : c ∈ g.entityIter 2) :
    ∃ u v w, (c.sub 0).map pt = [u, v, w] ∧ cornerVec V c.localIndex 0 = (s.at u).getD 0 ∧
      cornerVec V c.localIndex 1 = (s.at v).getD 0 ∧ cornerVec V c.localIndex 2 = (s.at w).getD 0 := by
  obtain ⟨i, -, -, hl⟩ := hb.corner_list hc
  obtain ⟨a, b, d, e⟩ : ∃ a b d, c.sub 0 = [a, b, d] := List.length_eq_three.mp (by simpa [refCount] using hl)
  exact ⟨pt a, pt b, pt d, by rw [e]; rfl, hV.corner hb hc (k := 0) (v := a) (by rw [e]; rfl),
    hV.corner hb hc (k := 1) (v := b) (by rw [e]; rfl), hV.corner hb hc (k := 2) (v := d) (by rw [e]; rfl)⟩

/-- The sides of the triangles of a sphere cancel in pairs. -/
theorem sphere_closed (hs : realSphere n = some s) (hb : Built s .triangle g pt cl) (hV : HasCorners s g pt V)
    (L : Vec → Vec → ℝ) (hL : ∀ p q, L q p = -L p q) :
    ((g.entityIter 2).map fun c => L (cornerVec V c.localIndex 0) (cornerVec V c.localIndex 1) +
      L (cornerVec V c.localIndex 1) (cornerVec V c.localIndex 2) +
      L (cornerVec V c.localIndex 2) (cornerVec V c.localIndex 0)).sum = 0 := by
  obtain ⟨s', hs', -, -, h, -⟩ := C31_closed_oriented (1 / 2 : ℝ) Real.sqrt n
  obtain rfl : s = s' := Option.some_inj.mp (hs.symm.trans hs')
  let L' : Nat × Nat → ℝ := fun e => L ((s.at e.1).getD 0) ((s.at e.2).getD 0)
  have e1 : ((g.entityIter 2).map fun c => L (cornerVec V c.localIndex 0) (cornerVec V c.localIndex 1) +
      L (cornerVec V c.localIndex 1) (cornerVec V c.localIndex 2) +
      L (cornerVec V c.localIndex 2) (cornerVec V c.localIndex 0)) =
      ((g.entityIter 2).map fun c => (c.sub 0).map pt).map fun c => ((cellEdges c).map L').sum := by
    rw [List.map_map]
    refine List.map_congr_left fun c hc => ?_
    obtain ⟨u, v, w, e, h0, h1, h2⟩ := triangle_corners hb hV hc
    simp only [Function.comp_apply, e, cellEdges, List.map_cons, List.map_nil, List.sum_cons, List.sum_nil, h0, h1, h2, L',
      add_zero, add_assoc]
  rw [e1, (hb.cells_perm.map _).sum_eq, List.map_map]
  have e2 := edges_cancel h (L := L') fun e => hL _ _
  rw [Shape.edges, List.map_flatMap, List.flatMap_def, List.sum_flatten, List.map_map] at e2
  exact e2

/-- The normals of a sphere point outwards. -/
theorem sphere_outward (hs : realSphere n = some s) (hb : Built s .triangle g pt cl) (hV : HasCorners s g pt V) {c : Entity}
    (hc : c ∈ g.entityIter 2) (z : ℝ × ℝ) :
    0 < (triPoint (cornerVec V c.localIndex 0) (cornerVec V c.localIndex 1) (cornerVec V c.localIndex 2) z).dot
      ((cornerVec V c.localIndex 1 - cornerVec V c.localIndex 0).cross
        (cornerVec V c.localIndex 2 - cornerVec V c.localIndex 0)) := by
  obtain ⟨s', hs', -, -, h⟩ := C32_on_sphere_outward n
  obtain rfl : s = s' := Option.some_inj.mp (hs.symm.trans hs')
  obtain ⟨u, v, w, e, h0, h1, h2⟩ := triangle_corners hb hV hc
  obtain ⟨i, hi, -, -⟩ := hb.corner_list hc
  obtain ⟨i', j', k', x, y, z', e', a1, a2, a3, p1, -, -⟩ := h _ hi
  simp only at e'
  rw [e] at e'
  simp only [List.cons.injEq, and_true] at e'
  obtain ⟨rfl, rfl, rfl⟩ := e'
  rw [h0, h1, h2, a1, a2, a3]
  simp only [Option.getD_some]
  convert p1 using 1
  simp only [triPoint, Vec.dot, Vec.cross, Prod.fst_sub, Prod.snd_sub, Prod.fst_add, Prod.snd_add, Prod.smul_fst,
    Prod.smul_snd, smul_eq_mul]
  ring

theorem interior_triangle {z : ℝ × ℝ} (hz : z ∈ interior (refCell .triangle)) : 0 < z.1 ∧ 0 < z.2 ∧ z.1 + z.2 < 1 := by
  obtain ⟨ε, hε, hb⟩ := Metric.isOpen_iff.mp isOpen_interior z hz
  have m : ∀ w : ℝ × ℝ, |w.1 - z.1| < ε → |w.2 - z.2| < ε → w ∈ refCell .triangle := fun w h1 h2 =>
    interior_subset (hb (by
      rw [Metric.mem_ball, Prod.dist_eq]
      exact max_lt (by simpa [Real.dist_eq] using h1) (by simpa [Real.dist_eq] using h2)))
  have h2 : |ε / 2| < ε := by rw [abs_of_pos (by linarith)]; linarith
  have h2' : |-(ε / 2)| < ε := by rwa [abs_neg]
  obtain ⟨a, -, -⟩ := m (z.1 - ε / 2, z.2) (by simpa using h2) (by simpa using hε)
  obtain ⟨-, b, -⟩ := m (z.1, z.2 - ε / 2) (by simpa using hε) (by simpa using h2)
  obtain ⟨-, -, d⟩ := m (z.1 + ε / 2, z.2) (by simpa using h2) (by simpa using hε)
  simp only at a b d
  exact ⟨by linarith, by linarith, by linarith⟩

/-- A ray from the origin through an interior point of a triangle meets the sphere nowhere else. -/
theorem sphere_ray (hs : realSphere n = some s) (hb : Built s .triangle g pt cl) (hV : HasCorners s g pt V) {c₀ c : Entity}
    (hc₀ : c₀ ∈ g.entityIter 2) (hc : c ∈ g.entityIter 2) {z₀ z : ℝ × ℝ} (hz₀ : z₀ ∈ interior (refCell .triangle))
    (hz : z ∈ refCell .triangle) {r : ℝ} (hr : 0 < r)
    (e : r • triPoint (cornerVec V c₀.localIndex 0) (cornerVec V c₀.localIndex 1) (cornerVec V c₀.localIndex 2) z₀ =
      triPoint (cornerVec V c.localIndex 0) (cornerVec V c.localIndex 1) (cornerVec V c.localIndex 2) z) :
    r = 1 ∧ c = c₀ := by
  obtain ⟨i, hi, hnd, -⟩ := hb.corner_list hc
  obtain ⟨i₀, hi₀, hnd₀, -⟩ := hb.corner_list hc₀
  obtain ⟨f₀, w₀, ⟨⟨p₀, q₀, x₀⟩, sum₀⟩⟩ := triangle_combination hb hV hc₀ (interior_subset hz₀)
  obtain ⟨f, w, ⟨⟨p, q, x⟩, sum⟩⟩ := triangle_combination hb hV hc hz
  rw [point_triPoint] at x₀ x
  obtain ⟨s', hs', -, huniq, -⟩ := C42_no_gaps_no_overlaps n
  obtain rfl : s = s' := Option.some_inj.mp (hs.symm.trans hs')
  have hcomb : s.Combination ((c₀.sub 0).map pt) (fun v => r * f₀ v)
      (triPoint (cornerVec V c.localIndex 0) (cornerVec V c.localIndex 1) (cornerVec V c.localIndex 2) z) := by
    refine ⟨fun v => mul_nonneg (by linarith) (p₀ v), fun v hv => by simp only [q₀ v hv, mul_zero], ?_⟩
    rw [← e, x₀, List.smul_sum, List.map_map]
    congr 1
    exact List.map_congr_left fun v _ => by simp only [Function.comp_apply, smul_smul]
  obtain ⟨ef, hsupp⟩ := huniq _ hi₀ _ hi _ f _ hcomb ⟨p, q, x⟩
  -- the interior point has positive coefficients, so that the cells have the same corners
  obtain ⟨t1, t2, t3⟩ := interior_triangle hz₀
  have hpos : ∀ v ∈ (c₀.sub 0).map pt, 0 < f₀ v := by
    intro v hv
    have : f₀ v ∈ ((c₀.sub 0).map pt).map f₀ := List.mem_map_of_mem hv
    rw [w₀] at this
    simp only [List.mem_cons, List.not_mem_nil, or_false] at this
    rcases this with h | h | h <;> rw [h] <;> linarith
  have hsub : ∀ v ∈ (c₀.sub 0).map pt, v ∈ (c.sub 0).map pt := fun v hv =>
    (hsupp v (mul_pos (by linarith) (hpos v hv)).ne').2
  have hlen : ∀ c ∈ g.entityIter 2, ((c.sub 0).map pt).length = 3 := by
    intro c hc
    obtain ⟨u, v, w, e, -⟩ := triangle_corners hb hV hc
    rw [e]
    rfl
  have hperm : ((c₀.sub 0).map pt).Perm ((c.sub 0).map pt) :=
    (List.subperm_of_subset hnd₀ hsub).perm_of_length_le (by rw [hlen c hc, hlen c₀ hc₀])
  have hr1 : r = 1 := by
    have h1 : (((c₀.sub 0).map pt).map fun v => r * f₀ v).sum = r := by
      rw [List.sum_map_mul_left, sum₀, mul_one]
    have h2 : (((c₀.sub 0).map pt).map f).sum = 1 := by rw [(hperm.map f).sum_eq, sum]
    rw [ef] at h1
    exact h1.symm.trans h2
  refine ⟨hr1, ?_⟩
  -- different cells do not have the same corners
  obtain ⟨s', hs', -, hpair, -⟩ := C31_closed_oriented (1 / 2 : ℝ) Real.sqrt n
  obtain rfl : s = s' := Option.some_inj.mp (hs.symm.trans hs')
  obtain ⟨y, hy, ey⟩ := hb.corners c hc
  obtain ⟨y₀, hy₀, ey₀⟩ := hb.corners c₀ hc₀
  have hcl : cl c.localIndex = cl c₀.localIndex := by
    by_contra hne
    obtain ⟨b1, d1⟩ := List.getElem?_eq_some_iff.mp hy
    obtain ⟨b2, d2⟩ := List.getElem?_eq_some_iff.mp hy₀
    rw [List.pairwise_iff_getElem] at hpair
    rcases Nat.lt_or_gt_of_ne hne with h | h
    · refine hpair _ _ b1 b2 h fun v => ?_
      rw [d1, d2, ey, ey₀]
      exact hperm.mem_iff.symm
    · refine hpair _ _ b2 b1 h fun v => ?_
      rw [d1, d2, ey, ey₀]
      exact hperm.mem_iff
  have hmem : ∀ c ∈ g.entityIter 2, c.localIndex < g.count 2 := fun c hc =>
    List.mem_range.mp ((hb.wf.index 2 (by decide)).mem_iff.mp (List.mem_map_of_mem hc))
  have hidx := perm_inj hb.cells (hmem c hc) (hmem c₀ hc₀) hcl
  exact List.inj_on_of_nodup_map (cells_nodup hb.wf) hc hc₀ hidx

/-- From an interior point of one of its triangles, a sphere is seen under the solid angle `2 π`. -/
theorem sphere_flux (hs : realSphere n = some s) (hb : Built s .triangle g pt cl) (hV : HasCorners s g pt V) {c : Entity}
    (hc : c ∈ g.entityIter 2) {z : ℝ × ℝ} (hz : z ∈ interior (refCell .triangle)) :
    ((g.entityIter 2).map fun c' => flux (cornerVec V c'.localIndex 0) (cornerVec V c'.localIndex 1)
      (cornerVec V c'.localIndex 2) (triPoint (cornerVec V c.localIndex 0) (cornerVec V c.localIndex 1)
        (cornerVec V c.localIndex 2) z)).sum = -(2 * Real.pi) := by
  classical
  exact solid_angle (List.Nodup.of_map _ (cells_nodup hb.wf)) (P := fun c => cornerVec V c.localIndex 0)
    (Q := fun c => cornerVec V c.localIndex 1) (R := fun c => cornerVec V c.localIndex 2) hc
    (fun L hL => sphere_closed hs hb hV L hL) hz (sphere_outward hs hb hV hc z)
    fun r hr c' hc' z' hz' e => sphere_ray hs hb hV hc hc' hz hz' (by linarith) e

end

/-- From the origin, a sphere is seen under the solid angle `4 π`. -/
theorem sphere_origin (hs : realSphere n = some s) (hb : Built s .triangle g pt cl) (hV : HasCorners s g pt V) :
    ((g.entityIter 2).map fun c' => flux (cornerVec V c'.localIndex 0) (cornerVec V c'.localIndex 1)
      (cornerVec V c'.localIndex 2) 0).sum = -(4 * Real.pi) := by
  classical
  obtain ⟨c, hc⟩ : ∃ c, c ∈ g.entityIter 2 := by
    obtain ⟨s', hs', -, h, -, -⟩ := C30_sizes (1 / 2 : ℝ) Real.sqrt n
    obtain rfl : s = s' := Option.some_inj.mp (hs.symm.trans hs')
    have hlen := hb.cells_perm.length_eq
    rw [List.length_map, List.length_map, h] at hlen
    exact List.exists_mem_of_length_pos (by rw [hlen]; positivity)
  obtain ⟨z, hz⟩ : (interior (refCell .triangle)).Nonempty := by
    refine ⟨(1 / 4, 1 / 4), mem_interior.mpr ⟨{z : ℝ × ℝ | 0 < z.1 ∧ 0 < z.2 ∧ z.1 + z.2 < 1},
      fun z h => ⟨h.1.le, h.2.1.le, h.2.2.le⟩, ?_, by norm_num⟩⟩
    exact (isOpen_lt continuous_const continuous_fst).inter ((isOpen_lt continuous_const continuous_snd).inter
      (isOpen_lt (continuous_fst.add continuous_snd) continuous_const))
  refine solid_angle_origin (List.Nodup.of_map _ (cells_nodup hb.wf)) (P := fun c => cornerVec V c.localIndex 0)
    (Q := fun c => cornerVec V c.localIndex 1) (R := fun c => cornerVec V c.localIndex 2) hc
    (fun L hL => sphere_closed hs hb hV L hL) hz (sphere_outward hs hb hV hc z) ?_
  intro r hr c' hc' z' hz' e
  rcases hr.eq_or_lt with rfl | hr
  · have := sphere_outward hs hb hV hc' z'
    rw [← e, zero_smul] at this
    simp [Vec.dot] at this
  · exact sphere_ray hs hb hV hc hc' hz hz' hr e

theorem interior_ae : ∀ᵐ z ∂(volume.restrict (refCell .triangle)), z ∈ interior (refCell .triangle) := by
  have hconv : Convex ℝ (refCell .triangle) := by
    rintro x ⟨x0, x1, x2⟩ y ⟨y0, y1, y2⟩ a b ha hb hab
    refine ⟨?_, ?_, ?_⟩
    · simp only [Prod.fst_add, Prod.smul_fst, smul_eq_mul]
      positivity
    · simp only [Prod.snd_add, Prod.smul_snd, smul_eq_mul]
      positivity
    · simp only [Prod.fst_add, Prod.smul_fst, Prod.snd_add, Prod.smul_snd, smul_eq_mul]
      nlinarith
  have h0 : volume (frontier (refCell .triangle)) = 0 := hconv.addHaar_frontier _
  rw [ae_restrict_iff' (refCell_measurable _)]
  have : ∀ᵐ z : ℝ × ℝ, z ∉ frontier (refCell .triangle) := compl_mem_ae_iff.mpr h0
  filter_upwards [this] with z hz hm
  by_contra hn
  exact hz ⟨subset_closure hm, hn⟩

end Bempp
