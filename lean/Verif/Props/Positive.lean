import Verif.Proofs.PositiveSurface
import Verif.Proofs.PositiveMatrix
import Verif.Proofs.Locality
import Verif.Props.ShapeSurface
/-
C81: the matrices of the Laplace single layer operator are positive definite, so that linear systems with them can be
solved.
-/
namespace Bempp
open Filter Topology MeasureTheory Set

section
variable {sp : FunctionSpace} {fam : CellType → ElementDofs} {G : Geometry ℝ} {B : Basis ℝ ℝ} {t : CellType}

/-- The function with coefficients `u` in terms of the DOFs of the cell. -/
theorem SerialSpace.functionOn_dofs (hs : SerialSpace sp fam) {c : Entity} (hc : c ∈ sp.grid.entityIter 2)
    (u : Nat → ℝ) (d : Nat) (x : List ℝ) :
    sp.functionOn B u c d x = ((sp.dofsOf c).map fun ia => u ia.1 * B c.entityType ia.2 d x).sum := by
  have hlt : ∀ ia ∈ sp.dofsOf c, ia.1 < sp.globalSize := by
    intro ia hia
    unfold FunctionSpace.dofsOf at hia
    have hm := List.fst_mem_of_mem_zipIdx hia
    cases e : sp.cellDofs c.localIndex with
    | none => rw [e] at hm; simp at hm
    | some cd =>
      rw [e] at hm
      exact hs.dof_lt c hc cd e _ hm
  unfold FunctionSpace.functionOn FunctionSpace.basisOn
  simp only [← List.sum_map_mul_left]
  rw [sum_swap]
  congr 1
  apply List.map_congr_left
  intro ia hia
  rw [← sum_indicator (hlt ia hia) (u ia.1 * B c.entityType ia.2 d x)]
  congr 1
  apply List.map_congr_left
  intro i _
  by_cases h : ia.1 = i
  · subst h; simp
  · simp [h]

/-- The single layer integrand. -/
theorem single_factors {cells : List Entity} {dim : Nat} (hcell : ∀ c ∈ cells, ContinuousCell G t c.localIndex)
    (hB : ContinuousBasis B t dim) :
    InverseFactors slF G B t cells dim 1 fun _ c a x => B t a 0 (pointList x) * G.jdet c (pointList x) where
  product c _ c' _ a _ b _ x _ y _ := by
    simp only [pairIntegrand, slF, laplaceGreen, Finset.range_one, Finset.sum_singleton, RCLike.ofReal_real_eq_id, id]
    rw [one_div, mul_inv]
    ring
  continuous c hc i _ a ha := (hB a ha 0 (by decide)).mul (hcell c hc).jdet

/-- The form of the Galerkin matrix of the single layer operator on a surface of flat cells. -/
theorem single_form (hs : SerialSpace sp fam) (ht : ∀ c ∈ sp.grid.entityIter 2, c.entityType = t)
    (hcell : ∀ c ∈ sp.grid.entityIter 2, ContinuousCell G t c.localIndex)
    (hflat : ∀ c ∈ sp.grid.entityIter 2, FlatCell G c.localIndex) (hno : NoOverlap G t sp.grid)
    (hB : ContinuousBasis B t (fam t).dim) (u : Nat → ℝ) :
    0 ≤ bilinear (doubleSum sp sp (pairIntegral slF laplaceGreen G G B B t)) sp.globalSize u u ∧
    (bilinear (doubleSum sp sp (pairIntegral slF laplaceGreen G G B B t)) sp.globalSize u u = 0 ↔
      ∀ c ∈ sp.grid.entityIter 2, ∀ z ∈ refCell t, sp.functionOn B u c 0 (pointList z) = 0) := by
  obtain ⟨h0, h1⟩ := surface_form_definite .singleLayer hs ht hcell hflat hno hB (single_factors hcell hB) u
  refine ⟨h0, h1.trans ?_⟩
  have e : ∀ c ∈ sp.grid.entityIter 2, ∀ z, sp.combined (fun c a x => B t a 0 (pointList x) * G.jdet c (pointList x)) u c z =
      sp.functionOn B u c 0 (pointList z) * G.jdet c.localIndex (pointList z) := by
    intro c hc z
    rw [hs.functionOn_dofs hc, ht c hc, ← List.sum_map_mul_right]
    unfold FunctionSpace.combined
    congr 1
    apply List.map_congr_left
    intro ia _
    ring
  constructor
  · intro h c hc z hz
    have := h c hc 0 (by decide) z hz
    rw [e c hc] at this
    exact (mul_eq_zero.mp this).resolve_right ((hcell c hc).jdet_ne z hz)
  · intro h c hc i _ z hz
    rw [e c hc, h c hc z hz, zero_mul]

/-- A function with independent basis functions on the cells is 0 only if its coefficients are. -/
theorem coefficients_zero (hs : SerialSpace sp fam) (ht : ∀ c ∈ sp.grid.entityIter 2, c.entityType = t)
    (hi : IndependentBasis B t (fam t).dim) {u : Nat → ℝ}
    (h : ∀ c ∈ sp.grid.entityIter 2, ∀ z ∈ refCell t, sp.functionOn B u c 0 (pointList z) = 0) :
    ∀ i, i < sp.globalSize → u i = 0 := by
  intro i hi'
  obtain ⟨c, hc, cd, a, hcd, ha⟩ := hs.dof_in_cell hi'
  obtain ⟨nd, -, fo, -⟩ := hs.family
  obtain ⟨cd', h1, h2, -, -⟩ := (C03_cell_dofs hs.wf fo hs.yields).2 c hc
  rw [hcd] at h1
  cases h1
  rw [ht c hc] at h2
  have hal : a < cd.length := (List.getElem?_eq_some_iff.mp ha).1
  have := hi (fun a => u (cd.getD a 0)) (by
    intro z hz
    rw [← h c hc z hz, hs.functionOn_dofs hc, ht c hc]
    unfold FunctionSpace.dofsOf
    rw [hcd, Option.getD_some, ← h2]
    congr 1
    apply List.ext_getElem (by simp)
    intro k hk hk'
    simp only [List.length_map, List.length_range] at hk
    simp [List.getD, hk]) a (by omega)
  rwa [List.getD, ha] at this

end

section
variable {s : Shape ℝ} {t : CellType} {g : Grid} {pt cl : Nat → Nat} {V : Nat → Nat → Nat → ℝ} {lev : Nat}
  {fam : CellType → ElementDofs} {k : Nat → Nat} {B : Basis ℝ ℝ}

/-- The points of a reference cell at which a corner has weight 0 are a set of measure 0. -/
theorem boundary_null (t : CellType) : volume {x ∈ refCell t | (0 : ℝ) ∈ cornerWeights t x} = 0 := by
  have hx : ∀ a : ℝ, volume {x : ℝ × ℝ | x.1 = a} = 0 := by
    intro a
    have : {x : ℝ × ℝ | x.1 = a} = {a} ×ˢ univ := by ext x; simp
    rw [this, Measure.volume_eq_prod, Measure.prod_prod]
    simp
  have hy : ∀ a : ℝ, volume {x : ℝ × ℝ | x.2 = a} = 0 := by
    intro a
    have : {x : ℝ × ℝ | x.2 = a} = univ ×ˢ {a} := by ext x; simp
    rw [this, Measure.volume_eq_prod, Measure.prod_prod]
    simp
  have hd : volume {x : ℝ × ℝ | x.2 = 1 - x.1} = 0 := by
    have hm : MeasurableSet {x : ℝ × ℝ | x.2 = 1 - x.1} := measurableSet_eq_fun (by fun_prop) (by fun_prop)
    rw [Measure.volume_eq_prod, Measure.measure_prod_null hm]
    refine Eventually.of_forall fun a => ?_
    have : Prod.mk a ⁻¹' {x : ℝ × ℝ | x.2 = 1 - x.1} = {1 - a} := by ext y; simp
    show volume (Prod.mk a ⁻¹' {x : ℝ × ℝ | x.2 = 1 - x.1}) = 0
    rw [this]
    simp
  have key := measure_union_null (measure_union_null (measure_union_null (hx 0) (hx 1)) (measure_union_null (hy 0) (hy 1))) hd
  refine measure_mono_null ?_ key
  rintro x ⟨-, h⟩
  simp only [mem_union, mem_ofPred_eq]
  unfold cornerWeights at h
  split at h
  · simp only [List.mem_cons, List.not_mem_nil, or_false, zero_eq_mul] at h
    rcases h with (h | h) | (h | h) | (h | h) | (h | h)
    · left; left; right; linarith
    · left; right; right; linarith
    · left; left; left; exact h
    · left; right; right; linarith
    · left; left; right; linarith
    · left; right; left; exact h
    · left; left; left; exact h
    · left; right; left; exact h
  · simp only [List.mem_cons, List.not_mem_nil, or_false] at h
    rcases h with h | h | h
    · right; linarith
    · left; left; left; exact h.symm
    · left; right; left; exact h.symm

/-- The cells of spheres and screens do not overlap. -/
theorem shape_noOverlap (hs : LibraryShape lev t s) (hb : Built s t g pt cl) (hV : HasCorners s g pt V) :
    NoOverlap (vertexGeometry (cellFunctions t) V) t g := by
  intro c hc c' hc' hne
  refine measure_mono_null ?_ (boundary_null t)
  rintro x ⟨hx, y, hy, e⟩
  refine ⟨hx, ?_⟩
  by_contra h0
  obtain ⟨f, hw, hf⟩ := shape_common hs hb hV hc hc' hx hy e
  obtain ⟨ev, -, hco⟩ := ((C47_conforming (T := ℝ) (1 / 2) Real.sqrt (fun k => (k : ℝ)) hs).2.2.2.2 g pt cl hb).2.2.2
  have hl : c.localIndex ≠ c'.localIndex := fun e => hne (hb.wf.index_inj (by decide) hc hc' e)
  obtain ⟨-, -, hnd, hlen⟩ := hb.corner_list hc
  have hin : ∀ v ∈ c.sub 0, v ∈ c'.sub 0 := by
    intro v hv
    have hfv : f (pt v) ≠ 0 := by
      intro h
      apply h0
      rw [← hw, ← h]
      exact List.mem_map.mpr ⟨pt v, List.mem_map.mpr ⟨v, hv, rfl⟩, rfl⟩
    obtain ⟨w, hw', e'⟩ := List.mem_map.mp (hf _ hfv).2
    rwa [hb.pt_inj hc' hc hw' hv e'] at hw'
  have h3 : 3 ≤ (c.sub 0).length := by
    rw [hlen]
    rcases hs with ⟨-, rfl⟩ | ⟨-, rfl⟩ | ⟨-, rfl⟩ <;> decide
  have hnd' := hb.wf.sub_nodup c hc 0 (by decide)
  match hsub : c.sub 0, h3 with
  | u :: v :: w :: l, _ =>
    rw [hsub] at hnd' hin
    have := hco.two c hc c' hc' hl u v w (by rw [hsub]; simp) (by rw [hsub]; simp) (by rw [hsub]; simp)
      (hin u (by simp)) (hin v (by simp)) (hin w (by simp))
    simp only [List.nodup_cons, List.mem_cons, not_or] at hnd'
    obtain ⟨⟨a1, a2, -⟩, ⟨a3, -⟩, -⟩ := hnd'
    rcases this with h | h | h
    · exact a1 h
    · exact a2 h
    · exact a3 h

/-- The space on a surface made from a shape. -/
theorem shape_space (hb : Built s t g pt cl) (hf : (fam t).Uniform t k) {fs : FunctionSpace}
    (hm : FunctionSpace.new 0 1 g fam = .done fs) : SerialSpace fs fam ∧ fs.grid = g := by
  obtain ⟨fs', h1, h2, h3, -⟩ := hb.space hf
  rw [hm] at h1
  cases h1
  exact ⟨h2, h3⟩

/-- Matrices near a positive definite matrix are positive definite. -/
theorem nearby_form {A M : Nat → Nat → ℝ} {N : Nat} {m : ℝ} (hm : 0 < m) {u : Nat → ℝ}
    (h : ∀ i j, i < N → j < N → |M i j - A i j| ≤ m / (2 * (N + 1))) (hdef : m * sumSq N u ≤ bilinear A N u u) :
    m / 2 * sumSq N u ≤ bilinear M N u u := by
  have h2 := bilinear_perturb h u
  have h4 := sumSq_nonneg N u
  have h5 : m / (2 * (N + 1)) * N ≤ m / 2 := by
    rw [div_mul_eq_mul_div, div_le_div_iff₀ (by positivity) (by positivity)]
    nlinarith
  have h6 := mul_le_mul_of_nonneg_right h5 h4
  have h7 := neg_le_of_abs_le h2
  linarith

/-- Entries that converge are near their limits from some point on. -/
theorem eventually_near {A : Nat → Nat → ℝ} {M : Nat → List ℝ} {N : Nat} {ε : ℝ} (hε : 0 < ε)
    (hlim : ∀ i j, i < N → j < N → Tendsto (fun n => (M n).getD (i + N * j) 0) atTop (𝓝 (A i j))) :
    ∃ n₀, ∀ n ≥ n₀, ∀ i j, i < N → j < N → |(M n).getD (i + N * j) 0 - A i j| ≤ ε := by
  have h1 : ∀ᶠ n in atTop, ∀ i : Fin N, ∀ j : Fin N, |(M n).getD (i + N * j) 0 - A i j| < ε := by
    rw [eventually_all]
    intro i
    rw [eventually_all]
    intro j
    have := (Metric.tendsto_nhds.mp (hlim i j i.2 j.2)) _ hε
    simpa [Real.dist_eq] using this
  obtain ⟨n₀, hn₀⟩ := eventually_atTop.mp h1
  exact ⟨n₀, fun n hn i j hi hj => (hn₀ n hn ⟨i, hi⟩ ⟨j, hj⟩).le⟩

/-- **C81.** On every sphere and every screen, and for every element with continuous basis functions: if `A` is the
Galerkin matrix of the Laplace single layer operator, then `uᵀ A u` is never negative, and it is 0 only if the function
with coefficients `u` is 0 everywhere on the surface. -/
theorem C81_form (hs : LibraryShape lev t s) (hb : Built s t g pt cl) (hV : HasCorners s g pt V)
    (hf : (fam t).Uniform t k) {fs : FunctionSpace} (hm : FunctionSpace.new 0 1 g fam = .done fs)
    (hB : ContinuousBasis B t (fam t).dim) (u : Nat → ℝ) :
    0 ≤ bilinear (doubleSum fs fs (pairIntegral slF laplaceGreen (vertexGeometry (cellFunctions t) V)
      (vertexGeometry (cellFunctions t) V) B B t)) fs.globalSize u u ∧
    (bilinear (doubleSum fs fs (pairIntegral slF laplaceGreen (vertexGeometry (cellFunctions t) V)
      (vertexGeometry (cellFunctions t) V) B B t)) fs.globalSize u u = 0 ↔
      ∀ c ∈ g.entityIter 2, ∀ z ∈ refCell t, fs.functionOn B u c 0 (pointList z) = 0) := by
  obtain ⟨hss, hg⟩ := shape_space hb hf hm
  have := single_form (sp := fs) (t := t) hss (by rw [hg]; exact fun c hc => hb.cell_type hc)
    (by rw [hg]; exact fun c hc => shape_continuous hs hb hV hc) (by rw [hg]; exact fun c hc => shape_flat hs hb hV hc)
    (by rw [hg]; exact shape_noOverlap hs hb hV) hB u
  rwa [hg] at this

/-- **C81.** If the basis functions of the element are independent of each other, then the Galerkin matrix of the Laplace
single layer operator is positive definite: `uᵀ A u ≥ m uᵀ u` for some `m > 0`. -/
theorem C81_definite (hs : LibraryShape lev t s) (hb : Built s t g pt cl) (hV : HasCorners s g pt V)
    (hf : (fam t).Uniform t k) {fs : FunctionSpace} (hm : FunctionSpace.new 0 1 g fam = .done fs)
    (hB : ContinuousBasis B t (fam t).dim) (hi : IndependentBasis B t (fam t).dim) :
    ∃ m > 0, ∀ u, m * sumSq fs.globalSize u ≤
      bilinear (doubleSum fs fs (pairIntegral slF laplaceGreen (vertexGeometry (cellFunctions t) V)
        (vertexGeometry (cellFunctions t) V) B B t)) fs.globalSize u u := by
  have hform := C81_form hs hb hV hf hm hB
  obtain ⟨hss, hg⟩ := shape_space hb hf hm
  refine coercive_of_definite (fun u => (hform u).1) fun u hu => ?_
  refine coefficients_zero hss (by rw [hg]; exact fun c hc => hb.cell_type hc) hi ?_
  rw [hg]
  exact (hform u).2.mp hu

/-- **C81.** There is a tolerance such that every matrix whose entries differ from those of the Galerkin matrix by at most
this tolerance, for example one computed with enough quadrature points and digits (C77), is positive definite. -/
theorem C81_nearby (hs : LibraryShape lev t s) (hb : Built s t g pt cl) (hV : HasCorners s g pt V)
    (hf : (fam t).Uniform t k) {fs : FunctionSpace} (hm : FunctionSpace.new 0 1 g fam = .done fs)
    (hB : ContinuousBasis B t (fam t).dim) (hi : IndependentBasis B t (fam t).dim) :
    ∃ ε > 0, ∃ m > 0, ∀ M : Nat → Nat → ℝ,
      (∀ i j, i < fs.globalSize → j < fs.globalSize → |M i j - doubleSum fs fs (pairIntegral slF laplaceGreen
        (vertexGeometry (cellFunctions t) V) (vertexGeometry (cellFunctions t) V) B B t) i j| ≤ ε) →
      ∀ u, m * sumSq fs.globalSize u ≤ bilinear M fs.globalSize u u := by
  obtain ⟨m, hm0, hdef⟩ := C81_definite hs hb hV hf hm hB hi
  exact ⟨m / (2 * (fs.globalSize + 1)), by positivity, m / 2, by positivity, fun M h u => nearby_form hm0 h (hdef u)⟩

/-- **C81.** The matrices that assembly returns: with enough quadrature points the single layer matrices are positive
definite, and every linear system with such a matrix has exactly one solution. -/
theorem C81_solvable {env : Env ℝ ℝ} {asm : Nat → Assembler ℝ ℝ} {space : Space ℝ ℝ} {o : Nat → Options}
    {Q : Nat → Quadrature ℝ} (hcast : env.cast = id)
    (hs : LibraryShape lev t s) (hb : Built s t g pt cl) (hV : HasCorners s g pt V) (hf : (fam t).Uniform t k)
    (hm : FunctionSpace.new 0 1 g fam = .done space.fs)
    (hgeo : GeometryOk space (vertexGeometry (cellFunctions t) V)) (htab : TabulateOk space fam B)
    (hreg : ∀ n, RegularOk env (o n) (Q n) t) (hsing : ∀ n, SingularOk env (o n) (Q n) t t)
    (ho : ∀ n, OperatorWith env.cast (o n) laplaceGreen (asm n) slF) (hbatch : ∀ n, 0 < (o n).batchSize)
    (hB : ContinuousBasis B t (fam t).dim) (hi : IndependentBasis B t (fam t).dim)
    (hrule : RulesConverge (refCell t) fun n => (Q n).regular t)
    (hpair : ∀ c ∈ g.entityIter 2, ∀ c' ∈ g.entityIter 2, c.Touches c' → ∀ a b, a < (fam t).dim → b < (fam t).dim →
      PairRulesConverge (refCell t) (fun n => (Q n).singular t t (connectivity c c'))
        (pairIntegrand slF laplaceGreen (vertexGeometry (cellFunctions t) V) (vertexGeometry (cellFunctions t) V) B B t
          c.localIndex c'.localIndex a b)) :
    ∃ M : Nat → List ℝ, (∀ n out, Assemble env (asm n) space space out ↔ out = some (M n)) ∧
      ∃ m > 0, ∃ n₀, ∀ n ≥ n₀,
        (∀ u, m * sumSq space.fs.globalSize u ≤ formOf (M n) space.fs.globalSize space.fs.globalSize u u) ∧
        ∀ b : Nat → ℝ, (∃ x, Solves (M n) space.fs.globalSize x b) ∧
          ∀ x y, Solves (M n) space.fs.globalSize x b → Solves (M n) space.fs.globalSize y b →
            ∀ i, i < space.fs.globalSize → x i = y i := by
  obtain ⟨M, hM, hlim⟩ := C79_laplace hcast hs hb hV hf hf hm hm hgeo hgeo htab htab hreg hsing ho hbatch hB hB hrule hpair
  obtain ⟨ε, hε, m, hm0, hdef⟩ := C81_nearby hs hb hV hf hm hB hi
  refine ⟨M, hM, m, hm0, ?_⟩
  obtain ⟨n₀, hn₀⟩ := eventually_near hε hlim
  refine ⟨n₀, fun n hn => ?_⟩
  have h1 := hdef (fun i j => (M n).getD (i + space.fs.globalSize * j) 0) (hn₀ n hn)
  refine ⟨h1, fun b => ?_⟩
  refine solvable_of_definite (A := fun i j => (M n).getD (i + space.fs.globalSize * j) 0) (fun u hu => ?_) b
  have h2 := h1 u
  rw [hu] at h2
  have h3 := sumSq_nonneg space.fs.globalSize u
  exact sumSq_eq_zero (by nlinarith)

end

/-- **C81.** The same on any surface of flat triangles that are not degenerate and do not overlap. -/
theorem C81_triangles {fs : FunctionSpace} {fam : CellType → ElementDofs} {V : Nat → Nat → Nat → ℝ} {B : Basis ℝ ℝ}
    (hs : SerialSpace fs fam) (ht : ∀ c ∈ fs.grid.entityIter 2, c.entityType = .triangle)
    (hdet : ∀ c ∈ fs.grid.entityIter 2, ∀ x, (vertexGeometry triangleFunctions V).jdet c.localIndex x ≠ 0)
    (hno : NoOverlap (vertexGeometry triangleFunctions V) .triangle fs.grid)
    (hB : ContinuousBasis B .triangle (fam .triangle).dim) (hi : IndependentBasis B .triangle (fam .triangle).dim) :
    ∃ m > 0, ∀ u, m * sumSq fs.globalSize u ≤
      bilinear (doubleSum fs fs (pairIntegral slF laplaceGreen (vertexGeometry triangleFunctions V)
        (vertexGeometry triangleFunctions V) B B .triangle)) fs.globalSize u u := by
  have hform := single_form (t := .triangle) hs ht
    (fun c hc => continuousCell_vertices triangleFunctions_continuous _ _ _ fun z _ => hdet c hc _)
    (fun c hc => triangle_flat (hdet c hc _)) hno hB
  exact coercive_of_definite (fun u => (hform u).1) fun u hu => coefficients_zero hs ht hi ((hform u).2.mp hu)

/-! ### C81: the hypotheses can be met -/

namespace Examples

theorem realP1_independent : IndependentBasis realP1 .triangle (p1 .triangle).dim := by
  intro w h
  have key : ∀ z ∈ refCell .triangle, w 0 * (1 - z.1 - z.2) + w 1 * z.1 + w 2 * z.2 = 0 := by
    intro z hz
    rw [← h z hz]
    show _ = (w 0 * (1 - z.1 - z.2) + (w 1 * z.1 + (w 2 * z.2 + 0)))
    ring
  have h0 := key (0, 0) ⟨by norm_num, by norm_num, by norm_num⟩
  have h1 := key (1, 0) ⟨by norm_num, by norm_num, by norm_num⟩
  have h2 := key (0, 1) ⟨by norm_num, by norm_num, by norm_num⟩
  simp only [] at h0 h1 h2
  intro a ha
  have ha' : a < 3 := ha
  match a, ha' with
  | 0, _ => linarith
  | 1, _ => linarith
  | 2, _ => linarith

/-- C81: the single layer systems with P1 elements on spheres of all levels. -/
example (lev : Nat) : ∃ (rule : List (List ℝ × List ℝ × ℝ)) (V : Nat → Nat → Nat → ℝ) (fs : FunctionSpace),
    fs.globalSize = 4 ^ (lev + 1) + 2 ∧
    ∃ M : Nat → List ℝ, (∀ n out,
        Assemble (pairEnv rule) (Laplace.singleLayer (kernelOf laplaceGreen) (latticeOptions n))
          (Examples.spaceOf fs p1 (vertexGeometry triangleFunctions V) realP1)
          (Examples.spaceOf fs p1 (vertexGeometry triangleFunctions V) realP1) out ↔ out = some (M n)) ∧
      ∃ n₀, ∀ n ≥ n₀, ∀ b, ∃ x, Solves (M n) fs.globalSize x b := by
  obtain ⟨s, hs, -⟩ := C30_sizes (1 / 2 : ℝ) Real.sqrt lev
  have hl : LibraryShape lev .triangle s := .inl ⟨hs, rfl⟩
  obtain ⟨-, -, -, ⟨g, pt, cl, hb⟩, -⟩ := C47_conforming _ _ _ hl
  obtain ⟨⟨V, hV⟩, -⟩ := C79_surface hl hb
  have hu := p1_uniform .triangle (by decide)
  obtain ⟨fs, h1, h2⟩ := C46_sphere _ _ hs hb hu
  obtain ⟨rule, r1, r2⟩ := exact_rule (S := refCell .triangle)
    ((g.entityIter 2).flatMap fun c => (g.entityIter 2).flatMap fun c' => (List.range 3).flatMap fun a =>
      (List.range 3).map fun b => pairIntegrand slF laplaceGreen (vertexGeometry triangleFunctions V)
        (vertexGeometry triangleFunctions V) realP1 realP1 .triangle c.localIndex c'.localIndex a b) (by
      intro f hf
      simp only [List.mem_flatMap, List.mem_map, List.mem_range] at hf
      obtain ⟨c, hc, c', hc', a, ha, b, hb', rfl⟩ := hf
      exact shape_integrable laplaceGreen_greenLike .singleLayer hl hb hV (realP1_continuous .triangle)
        (realP1_continuous .triangle) hc hc' ha hb')
  obtain ⟨M, hM, m, -, n₀, hn₀⟩ := C81_solvable (env := pairEnv rule) (o := latticeOptions) (Q := pairRules rule)
    (space := Examples.spaceOf fs p1 (vertexGeometry triangleFunctions V) realP1)
    (asm := fun n => Laplace.singleLayer (kernelOf laplaceGreen) (latticeOptions n)) rfl hl hb hV hu h1
    (spaceOf_geometry fs p1 _ realP1) (spaceOf_tabulate fs p1 _ realP1) (pair_regular rule) (pair_singular r1)
    (fun n => .laplaceSingleLayer (kernelOf_computes laplaceGreen _)) (fun _ => by show 0 < 128; decide)
    (realP1_continuous _) realP1_independent triangleRule_converges
    (fun c hc c' hc' _ a b ha hb' => by
      have := r2 _ (List.mem_flatMap.mpr ⟨c, hc, List.mem_flatMap.mpr ⟨c', hc', List.mem_flatMap.mpr
        ⟨a, List.mem_range.mpr ha, List.mem_map.mpr ⟨b, List.mem_range.mpr hb', rfl⟩⟩⟩⟩)
      show Tendsto (fun _ => (rule.map fun p => p.2.2 * _).sum) atTop _
      exact tendsto_const_nhds.congr fun _ => this.symm)
  exact ⟨rule, V, fs, by simpa using h2, M, hM, n₀, fun n hn b => ((hn₀ n hn).2 b).1⟩

end Examples
end Bempp
