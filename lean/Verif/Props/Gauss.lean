import Verif.Spec.Gauss
import Verif.Proofs.Gauss
import Verif.Props.Curl
/-
C84: Gauss' law for the double layer operators on spheres.
-/
namespace Bempp
open MeasureTheory Set Filter Topology

/-- The sum of a row of double sums. -/
theorem doubleSum_row {test trial : FunctionSpace} {fam : CellType → ElementDofs} (hr : SerialSpace trial fam)
    (v : Entity → Entity → Nat → Nat → ℝ) (i : Nat) :
    ((List.range trial.globalSize).map fun j => doubleSum test trial v i j).sum =
      ((test.grid.entityIter 2).map fun c => (((test.cellDofs c.localIndex).getD []).zipIdx.map fun (ia : Nat × Nat) =>
        if ia.1 = i then ((trial.grid.entityIter 2).map fun c' =>
          ((List.range (fam c'.entityType).dim).map fun b => v c c' ia.2 b).sum).sum else 0).sum).sum := by
  unfold doubleSum
  rw [sum_swap]
  congr 1
  apply List.map_congr_left
  intro c _
  rw [sum_swap]
  have inner : ∀ c' ∈ trial.grid.entityIter 2, ((List.range trial.globalSize).map fun j =>
      ((((test.cellDofs c.localIndex).getD []).zipIdx).map fun (ia : Nat × Nat) =>
        ((((trial.cellDofs c'.localIndex).getD []).zipIdx).map fun (jb : Nat × Nat) =>
          if ia.1 = i ∧ jb.1 = j then v c c' ia.2 jb.2 else 0).sum).sum).sum =
      ((((test.cellDofs c.localIndex).getD []).zipIdx).map fun (ia : Nat × Nat) =>
        if ia.1 = i then ((List.range (fam c'.entityType).dim).map fun b => v c c' ia.2 b).sum else 0).sum := by
    intro c' hc'
    rw [sum_swap]
    congr 1
    apply List.map_congr_left
    intro ia _
    rw [sum_swap]
    obtain ⟨rd, r1, -, r3, _, r4⟩ := hr.cell hc'
    have e : trial.cellDofs c'.localIndex = some rd := by
      rw [cellDofs_eq]
      exact r1
    rw [e, Option.getD_some]
    have : ∀ x ∈ rd.zipIdx, ((List.range trial.globalSize).map fun j =>
        if ia.1 = i ∧ x.1 = j then v c c' ia.2 x.2 else 0).sum = if ia.1 = i then v c c' ia.2 x.2 else 0 := by
      intro x hx
      have := r4 _ (List.fst_mem_of_mem_zipIdx hx)
      by_cases h : ia.1 = i
      · simp only [h, true_and, if_true]
        exact sum_range_single _ _ this _
      · simp [h]
    rw [List.map_congr_left this]
    by_cases h : ia.1 = i
    · simp only [h, if_true]
      rw [sum_zipIdx rd (fun b => v c c' ia.2 b) 0, ← List.range_eq_range', r3]
    · simp [h]
  rw [List.map_congr_left inner, sum_swap]
  congr 1
  apply List.map_congr_left
  intro ia _
  by_cases h : ia.1 = i
  · simp [h]
  · simp [h]

section
variable {lev : Nat} {s : Shape ℝ} {g : Grid} {pt cl : Nat → Nat} {V : Nat → Nat → Nat → ℝ}

/-- The integrand of the double layer operator on two flat triangles. -/
theorem doubleLayer_integrand {BT BR : Basis ℝ ℝ} {c c' : Nat} (a b : Nat) (x y : ℝ × ℝ)
    (hj : (vertexGeometry triangleFunctions V).jdet c' (pointList y) ≠ 0) :
    pairIntegrand dlF laplaceGreen (vertexGeometry triangleFunctions V) (vertexGeometry triangleFunctions V) BT BR .triangle
      c c' a b (pointList x) (pointList y) =
    BT .triangle a 0 (pointList x) * (vertexGeometry triangleFunctions V).jdet c (pointList x) * (4 * Real.pi)⁻¹ *
      ((triPoint (cornerVec V c 0) (cornerVec V c 1) (cornerVec V c 2) x -
        triPoint (cornerVec V c' 0) (cornerVec V c' 1) (cornerVec V c' 2) y).field
        ((cornerVec V c' 1 - cornerVec V c' 0).cross (cornerVec V c' 2 - cornerVec V c' 0))) *
      BR .triangle b 0 (pointList y) := by
  rw [← point_triPoint, ← point_triPoint]
  have hd : pointDist ((vertexGeometry triangleFunctions V).coords c (pointList x))
      ((vertexGeometry triangleFunctions V).coords c' (pointList y)) =
      Vec.len (((vertexGeometry triangleFunctions V).point c (pointList x) 0, (vertexGeometry triangleFunctions V).point c (pointList x) 1,
        (vertexGeometry triangleFunctions V).point c (pointList x) 2) -
      ((vertexGeometry triangleFunctions V).point c' (pointList y) 0, (vertexGeometry triangleFunctions V).point c' (pointList y) 1,
        (vertexGeometry triangleFunctions V).point c' (pointList y) 2)) := by
    simp only [pointDist, Vec.len, Vec.dot, pointDiff, Geometry.coords, List.range_succ, List.range_zero, List.nil_append,
      List.map_cons, List.map_nil, List.cons_append, List.getD_cons_zero, List.getD_cons_succ, Prod.fst_sub, Prod.snd_sub]
    congr 1
    ring
  have hn : ∀ i, (vertexGeometry triangleFunctions V).normal c' (pointList y) i *
      (vertexGeometry triangleFunctions V).jdet c' (pointList y) =
      cross3 (fun i => V c' 1 i - V c' 0 i) (fun i => V c' 2 i - V c' 0 i) i := by
    intro i
    have e : (vertexGeometry triangleFunctions V).normal c' (pointList y) i *
        (vertexGeometry triangleFunctions V).jdet c' (pointList y) =
        cross3 (fun i => ((List.range 3).map fun k => triangleFunctions.deriv 0 k (pointList y) * V c' k i).sum)
          (fun i => ((List.range 3).map fun k => triangleFunctions.deriv 1 k (pointList y) * V c' k i).sum) i :=
      div_mul_cancel₀ _ hj
    rw [e]
    have e0 : (fun i => ((List.range 3).map fun k => triangleFunctions.deriv 0 k (pointList y) * V c' k i).sum) =
        fun i => V c' 1 i - V c' 0 i := by
      funext i
      simp [triangleFunctions, List.range_succ]
      ring
    have e1 : (fun i => ((List.range 3).map fun k => triangleFunctions.deriv 1 k (pointList y) * V c' k i).sum) =
        fun i => V c' 2 i - V c' 0 i := by
      funext i
      simp [triangleFunctions, List.range_succ]
      ring
    rw [e0, e1]
  have hN : (cornerVec V c' 1 - cornerVec V c' 0).cross (cornerVec V c' 2 - cornerVec V c' 0) =
      ((vertexGeometry triangleFunctions V).normal c' (pointList y) 0 * (vertexGeometry triangleFunctions V).jdet c' (pointList y),
       (vertexGeometry triangleFunctions V).normal c' (pointList y) 1 * (vertexGeometry triangleFunctions V).jdet c' (pointList y),
       (vertexGeometry triangleFunctions V).normal c' (pointList y) 2 * (vertexGeometry triangleFunctions V).jdet c' (pointList y)) := by
    rw [hn, hn, hn]
    rfl
  rw [hN]
  unfold pairIntegrand dlF Vec.field
  simp only [laplaceGreen, hd]
  simp only [pointDiff, Geometry.coords, Geometry.data, List.range_succ, List.range_zero, List.nil_append,
      List.map_cons, List.map_nil, List.cons_append, List.getD_cons_zero, List.getD_cons_succ, Vec.dot, Prod.fst_sub, Prod.snd_sub,
      RCLike.ofReal_real_eq_id, id, div_eq_mul_inv, mul_inv]
  ring

/-- The integrals of the double layer operator over one cell and the whole surface. -/
theorem doubleLayer_cell (hs : realSphere lev = some s) (hb : Built s .triangle g pt cl) (hV : HasCorners s g pt V)
    {BT BR : Basis ℝ ℝ} {dT dR : Nat} (hBT : ContinuousBasis BT .triangle dT) (hBR : ContinuousBasis BR .triangle dR)
    (hone : ValuesSumOne BR .triangle dR) {c : Entity} (hc : c ∈ g.entityIter 2) {a : Nat} (ha : a < dT) :
    ((g.entityIter 2).map fun c' => ((List.range dR).map fun b => pairIntegral dlF laplaceGreen
      (vertexGeometry triangleFunctions V) (vertexGeometry triangleFunctions V) BT BR .triangle c c' a b).sum).sum =
      -(1 / 2) * ∫ z in refCell .triangle, BT .triangle a 0 (pointList z) *
        (vertexGeometry triangleFunctions V).jdet c.localIndex (pointList z) := by
  have hl : LibraryShape lev .triangle s := .inl ⟨hs, rfl⟩
  set w : ℝ × ℝ → ℝ := fun x => BT .triangle a 0 (pointList x) *
    (vertexGeometry triangleFunctions V).jdet c.localIndex (pointList x) with hw
  set X : ℝ × ℝ → Vec := triPoint (cornerVec V c.localIndex 0) (cornerVec V c.localIndex 1) (cornerVec V c.localIndex 2) with hX
  have step : ∀ c' ∈ g.entityIter 2,
      Integrable (fun x => w x * (4 * Real.pi)⁻¹ * flux (cornerVec V c'.localIndex 0) (cornerVec V c'.localIndex 1)
        (cornerVec V c'.localIndex 2) (X x)) (volume.restrict (refCell .triangle)) ∧
      ((List.range dR).map fun b => pairIntegral dlF laplaceGreen
        (vertexGeometry triangleFunctions V) (vertexGeometry triangleFunctions V) BT BR .triangle c c' a b).sum =
      ∫ x in refCell .triangle, w x * (4 * Real.pi)⁻¹ * flux (cornerVec V c'.localIndex 0) (cornerVec V c'.localIndex 1)
        (cornerVec V c'.localIndex 2) (X x) := by
    intro c' hc'
    have hi : ∀ b ∈ List.range dR, Integrable (fun z : (ℝ × ℝ) × (ℝ × ℝ) => pairIntegrand dlF laplaceGreen
        (vertexGeometry triangleFunctions V) (vertexGeometry triangleFunctions V) BT BR .triangle c.localIndex c'.localIndex
        a b (pointList z.1) (pointList z.2)) (volume.restrict (refCell .triangle ×ˢ refCell .triangle)) :=
      fun b hb' => shape_integrable laplaceGreen_greenLike .doubleLayer hl hb hV hBT hBR hc hc' ha (List.mem_range.mp hb')
    obtain ⟨i1, i2⟩ := integral_list (List.range dR) hi
    set h : (ℝ × ℝ) × (ℝ × ℝ) → ℝ := fun z => w z.1 * (4 * Real.pi)⁻¹ *
      (X z.1 - triPoint (cornerVec V c'.localIndex 0) (cornerVec V c'.localIndex 1) (cornerVec V c'.localIndex 2) z.2).field
        ((cornerVec V c'.localIndex 1 - cornerVec V c'.localIndex 0).cross
          (cornerVec V c'.localIndex 2 - cornerVec V c'.localIndex 0)) with hh
    have hpt : ∀ z ∈ refCell .triangle ×ˢ refCell .triangle, ((List.range dR).map fun b => pairIntegrand dlF laplaceGreen
        (vertexGeometry triangleFunctions V) (vertexGeometry triangleFunctions V) BT BR .triangle c.localIndex c'.localIndex
        a b (pointList z.1) (pointList z.2)).sum = h z := by
      intro z hz
      have e : ∀ b ∈ List.range dR, pairIntegrand dlF laplaceGreen
          (vertexGeometry triangleFunctions V) (vertexGeometry triangleFunctions V) BT BR .triangle c.localIndex c'.localIndex
          a b (pointList z.1) (pointList z.2) = h z * BR .triangle b 0 (pointList z.2) := by
        intro b _
        rw [doubleLayer_integrand a b z.1 z.2 (shape_jdet hl hb hV hc' _)]
      rw [List.map_congr_left e, List.sum_map_mul_left, hone _ hz.2, mul_one]
    have hm : MeasurableSet (refCell .triangle ×ˢ refCell .triangle) := (refCell_measurable _).prod (refCell_measurable _)
    have hint : IntegrableOn h (refCell .triangle ×ˢ refCell .triangle) := (integrableOn_congr_fun hpt hm).mp i1
    have hint' : Integrable h ((volume.restrict (refCell .triangle)).prod (volume.restrict (refCell .triangle))) := by
      rw [Measure.prod_restrict]
      exact hint
    have hin : ∀ x, ∫ y in refCell .triangle, h (x, y) = w x * (4 * Real.pi)⁻¹ * flux (cornerVec V c'.localIndex 0)
        (cornerVec V c'.localIndex 1) (cornerVec V c'.localIndex 2) (X x) := by
      intro x
      simp only [hh]
      rw [integral_const_mul]
      rfl
    refine ⟨?_, ?_⟩
    · have := hint'.integral_prod_left
      simpa only [hin] using this
    · have e1 : ∀ b ∈ List.range dR, pairIntegral dlF laplaceGreen
          (vertexGeometry triangleFunctions V) (vertexGeometry triangleFunctions V) BT BR .triangle c c' a b =
          ∫ z in refCell .triangle ×ˢ refCell .triangle, pairIntegrand dlF laplaceGreen
        (vertexGeometry triangleFunctions V) (vertexGeometry triangleFunctions V) BT BR .triangle c.localIndex c'.localIndex
        a b (pointList z.1) (pointList z.2) := by
        intro b hb'
        exact (setIntegral_prod _ (hi b hb')).symm
      rw [List.map_congr_left e1, ← i2, setIntegral_congr_fun hm hpt]
      have := setIntegral_prod h hint
      simp only [hin] at this
      exact this
  rw [List.map_congr_left fun c' hc' => (step c' hc').2, ← (integral_list _ fun c' hc' => (step c' hc').1).2, ← integral_const_mul]
  refine integral_congr_ae ?_
  filter_upwards [interior_ae] with x hx
  rw [List.sum_map_mul_left, sphere_flux hs hb hV hc hx]
  have : Real.pi ≠ 0 := Real.pi_ne_zero
  field_simp
  ring

/-- Exchange of test and trial functions. -/
theorem adjoint_pairIntegral (hs : LibraryShape lev .triangle s) (hb : Built s .triangle g pt cl) (hV : HasCorners s g pt V)
    {BT BR : Basis ℝ ℝ} {dT dR : Nat} (hBT : ContinuousBasis BT .triangle dT) (hBR : ContinuousBasis BR .triangle dR)
    {c c' : Entity} (hc : c ∈ g.entityIter 2) (hc' : c' ∈ g.entityIter 2) {a b : Nat} (ha : a < dT) (hb' : b < dR) :
    pairIntegral adlF laplaceGreen (vertexGeometry triangleFunctions V) (vertexGeometry triangleFunctions V) BT BR .triangle
      c c' a b =
    pairIntegral dlF laplaceGreen (vertexGeometry triangleFunctions V) (vertexGeometry triangleFunctions V) BR BT .triangle
      c' c b a := by
  unfold pairIntegral
  have hi := shape_integrable laplaceGreen_greenLike .adjoint hs hb hV hBT hBR hc hc' ha hb'
  have hi' : Integrable (Function.uncurry fun x y : ℝ × ℝ => pairIntegrand adlF laplaceGreen
      (vertexGeometry triangleFunctions V) (vertexGeometry triangleFunctions V) BT BR .triangle c.localIndex c'.localIndex a b
      (pointList x) (pointList y)) ((volume.restrict (refCell .triangle)).prod (volume.restrict (refCell .triangle))) := by
    rw [Measure.prod_restrict]
    exact hi
  rw [integral_integral_swap hi']
  refine integral_congr_ae (.of_forall fun y => integral_congr_ae (.of_forall fun x => ?_))
  simp only [pairIntegrand]
  rw [dl_transposes laplaceGreen_odd]
  ring

variable {famT famR : CellType → ElementDofs} {kT kR : Nat → Nat}

/-- **C84.** The rows of the Galerkin matrix of the Laplace double layer operator on a sphere: if the trial functions add
up to 1, then row `i` adds up to minus one half of the integral of test function `i` (Gauss' law: the double layer
potential of the constant function 1 is -1/2 at the points of the surface). -/
theorem C84_rows {test trial : FunctionSpace} {BT BR : Basis ℝ ℝ} (hs : realSphere lev = some s)
    (hb : Built s .triangle g pt cl) (hV : HasCorners s g pt V) (hT : (famT .triangle).Uniform .triangle kT)
    (hR : (famR .triangle).Uniform .triangle kR) (hmT : FunctionSpace.new 0 1 g famT = .done test)
    (hmR : FunctionSpace.new 0 1 g famR = .done trial) (hBT : ContinuousBasis BT .triangle (famT .triangle).dim)
    (hBR : ContinuousBasis BR .triangle (famR .triangle).dim) (hone : ValuesSumOne BR .triangle (famR .triangle).dim) (i : Nat) :
    ((List.range trial.globalSize).map fun j => doubleSum test trial (pairIntegral dlF laplaceGreen
      (vertexGeometry triangleFunctions V) (vertexGeometry triangleFunctions V) BT BR .triangle) i j).sum =
      -(1 / 2) * test.surfaceIntegral BT (vertexGeometry triangleFunctions V) .triangle i := by
  obtain ⟨sT, gT⟩ := shape_space hb hT hmT
  obtain ⟨sR, gR⟩ := shape_space hb hR hmR
  rw [doubleSum_row sR, FunctionSpace.surfaceIntegral, ← List.sum_map_mul_left]
  congr 1
  apply List.map_congr_left
  intro c hc
  rw [← List.sum_map_mul_left]
  congr 1
  apply List.map_congr_left
  intro ia hia
  split
  · obtain ⟨cd, r1, -, r3, -⟩ := sT.cell hc
    have e : test.cellDofs c.localIndex = some cd := by rw [cellDofs_eq]; exact r1
    rw [e, Option.getD_some] at hia
    rw [gT] at hc
    have ha : ia.2 < (famT .triangle).dim := by
      have := List.snd_lt_of_mem_zipIdx hia
      rw [r3, hb.cell_type hc] at this
      omega
    rw [gR, ← doubleLayer_cell hs hb hV hBT hBR hone hc ha]
    congr 1
    apply List.map_congr_left
    intro c' hc'
    rw [hb.cell_type hc']
  · simp

/-- **C84.** The columns of the Galerkin matrix of the adjoint double layer operator: if the test functions add up to 1,
then column `j` adds up to minus one half of the integral of trial function `j`. -/
theorem C84_columns {test trial : FunctionSpace} {BT BR : Basis ℝ ℝ} (hs : realSphere lev = some s)
    (hb : Built s .triangle g pt cl) (hV : HasCorners s g pt V) (hT : (famT .triangle).Uniform .triangle kT)
    (hR : (famR .triangle).Uniform .triangle kR) (hmT : FunctionSpace.new 0 1 g famT = .done test)
    (hmR : FunctionSpace.new 0 1 g famR = .done trial) (hBT : ContinuousBasis BT .triangle (famT .triangle).dim)
    (hBR : ContinuousBasis BR .triangle (famR .triangle).dim) (hone : ValuesSumOne BT .triangle (famT .triangle).dim) (j : Nat) :
    ((List.range test.globalSize).map fun i => doubleSum test trial (pairIntegral adlF laplaceGreen
      (vertexGeometry triangleFunctions V) (vertexGeometry triangleFunctions V) BT BR .triangle) i j).sum =
      -(1 / 2) * trial.surfaceIntegral BR (vertexGeometry triangleFunctions V) .triangle j := by
  obtain ⟨sT, gT⟩ := shape_space hb hT hmT
  obtain ⟨sR, gR⟩ := shape_space hb hR hmR
  rw [← C84_rows hs hb hV hR hT hmR hmT hBR hBT hone j]
  simp only [doubleSum_swap test trial]
  rw [doubleSum_row sT, doubleSum_row sT]
  congr 1
  apply List.map_congr_left
  intro c hc
  congr 1
  apply List.map_congr_left
  intro ia hia
  split
  · obtain ⟨cd, r1, -, r3, -⟩ := sR.cell hc
    have e : trial.cellDofs c.localIndex = some cd := by rw [cellDofs_eq]; exact r1
    rw [e, Option.getD_some] at hia
    rw [gR] at hc
    have ha : ia.2 < (famR .triangle).dim := by
      have := List.snd_lt_of_mem_zipIdx hia
      rw [r3, hb.cell_type hc] at this
      omega
    congr 1
    apply List.map_congr_left
    intro c' hc'
    rw [gT] at hc'
    congr 1
    apply List.map_congr_left
    intro b hb'
    rw [hb.cell_type hc', List.mem_range] at hb'
    exact adjoint_pairIntegral (.inl ⟨hs, rfl⟩) hb hV hBT hBR hc' hc hb' ha
  · rfl

/-- **C84.** Assembly of the double layer operator on spheres with rules that converge: the row sums of the matrices
converge to minus one half of the integrals of the test functions. -/
theorem C84_double_layer {env : Env ℝ ℝ} {kernel : Kernel ℝ ℝ} {trial test : Space ℝ ℝ} {BT BR : Basis ℝ ℝ} {o : Nat → Options}
    {Q : Nat → Quadrature ℝ} (hcast : env.cast = id) (hs : realSphere lev = some s) (hb : Built s .triangle g pt cl)
    (hV : HasCorners s g pt V) (hT : (famT .triangle).Uniform .triangle kT) (hR : (famR .triangle).Uniform .triangle kR)
    (hmT : FunctionSpace.new 0 1 g famT = .done test.fs) (hmR : FunctionSpace.new 0 1 g famR = .done trial.fs)
    (hgT : GeometryOk test (vertexGeometry triangleFunctions V)) (hgR : GeometryOk trial (vertexGeometry triangleFunctions V))
    (hbT : TabulateOk test famT BT) (hbR : TabulateOk trial famR BR) (hreg : ∀ n, RegularOk env (o n) (Q n) .triangle)
    (hsing : ∀ n, SingularOk env (o n) (Q n) .triangle .triangle)
    (hK : kernel.Computes .valueDeriv laplaceGreen) (hbatch : ∀ n, 0 < (o n).batchSize)
    (hBT : ContinuousBasis BT .triangle (famT .triangle).dim) (hBR : ContinuousBasis BR .triangle (famR .triangle).dim)
    (hone : ValuesSumOne BR .triangle (famR .triangle).dim)
    (hrule : RulesConverge (refCell .triangle) fun n => (Q n).regular .triangle)
    (hpair : ∀ c ∈ g.entityIter 2, ∀ c' ∈ g.entityIter 2, c.Touches c' → ∀ a b, a < (famT .triangle).dim →
      b < (famR .triangle).dim → PairRulesConverge (refCell .triangle)
        (fun n => (Q n).singular .triangle .triangle (connectivity c c'))
        (pairIntegrand dlF laplaceGreen (vertexGeometry triangleFunctions V) (vertexGeometry triangleFunctions V) BT BR
          .triangle c.localIndex c'.localIndex a b)) :
    ∃ M : Nat → List ℝ, (∀ n out, Assemble env (Laplace.doubleLayer kernel (o n)) trial test out ↔ out = some (M n)) ∧
      ∀ i, i < test.fs.globalSize →
        Tendsto (fun n => ((List.range trial.fs.globalSize).map fun j => (M n).getD (i + test.fs.globalSize * j) 0).sum) atTop
          (𝓝 (-(1 / 2) * test.fs.surfaceIntegral BT (vertexGeometry triangleFunctions V) .triangle i)) := by
  obtain ⟨M, hM, hlim⟩ := C79_laplace hcast (.inl ⟨hs, rfl⟩) hb hV hT hR hmT hmR hgT hgR hbT hbR hreg hsing
    (fun n => .laplaceDoubleLayer hK) hbatch hBT hBR hrule hpair
  refine ⟨M, hM, fun i hi => ?_⟩
  rw [← C84_rows hs hb hV hT hR hmT hmR hBT hBR hone i]
  refine tendsto_list_map_sum _ (f := fun j n => (M n).getD (i + test.fs.globalSize * j) 0) ?_
  exact fun j hj => hlim i j hi (List.mem_range.mp hj)

/-- **C84.** The same for the columns of the adjoint double layer operator. -/
theorem C84_adjoint {env : Env ℝ ℝ} {kernel : Kernel ℝ ℝ} {trial test : Space ℝ ℝ} {BT BR : Basis ℝ ℝ} {o : Nat → Options}
    {Q : Nat → Quadrature ℝ} (hcast : env.cast = id) (hs : realSphere lev = some s) (hb : Built s .triangle g pt cl)
    (hV : HasCorners s g pt V) (hT : (famT .triangle).Uniform .triangle kT) (hR : (famR .triangle).Uniform .triangle kR)
    (hmT : FunctionSpace.new 0 1 g famT = .done test.fs) (hmR : FunctionSpace.new 0 1 g famR = .done trial.fs)
    (hgT : GeometryOk test (vertexGeometry triangleFunctions V)) (hgR : GeometryOk trial (vertexGeometry triangleFunctions V))
    (hbT : TabulateOk test famT BT) (hbR : TabulateOk trial famR BR) (hreg : ∀ n, RegularOk env (o n) (Q n) .triangle)
    (hsing : ∀ n, SingularOk env (o n) (Q n) .triangle .triangle)
    (hK : kernel.Computes .valueDeriv laplaceGreen) (hbatch : ∀ n, 0 < (o n).batchSize)
    (hBT : ContinuousBasis BT .triangle (famT .triangle).dim) (hBR : ContinuousBasis BR .triangle (famR .triangle).dim)
    (hone : ValuesSumOne BT .triangle (famT .triangle).dim)
    (hrule : RulesConverge (refCell .triangle) fun n => (Q n).regular .triangle)
    (hpair : ∀ c ∈ g.entityIter 2, ∀ c' ∈ g.entityIter 2, c.Touches c' → ∀ a b, a < (famT .triangle).dim →
      b < (famR .triangle).dim → PairRulesConverge (refCell .triangle)
        (fun n => (Q n).singular .triangle .triangle (connectivity c c'))
        (pairIntegrand adlF laplaceGreen (vertexGeometry triangleFunctions V) (vertexGeometry triangleFunctions V) BT BR
          .triangle c.localIndex c'.localIndex a b)) :
    ∃ M : Nat → List ℝ, (∀ n out, Assemble env (Laplace.adjointDoubleLayer kernel (o n)) trial test out ↔ out = some (M n)) ∧
      ∀ j, j < trial.fs.globalSize →
        Tendsto (fun n => ((List.range test.fs.globalSize).map fun i => (M n).getD (i + test.fs.globalSize * j) 0).sum) atTop
          (𝓝 (-(1 / 2) * trial.fs.surfaceIntegral BR (vertexGeometry triangleFunctions V) .triangle j)) := by
  obtain ⟨M, hM, hlim⟩ := C79_laplace hcast (.inl ⟨hs, rfl⟩) hb hV hT hR hmT hmR hgT hgR hbT hbR hreg hsing
    (fun n => .laplaceAdjoint hK) hbatch hBT hBR hrule hpair
  refine ⟨M, hM, fun j hj => ?_⟩
  rw [← C84_columns hs hb hV hT hR hmT hmR hBT hBR hone j]
  refine tendsto_list_map_sum _ (f := fun i n => (M n).getD (i + test.fs.globalSize * j) 0) ?_
  exact fun i hi => hlim i j (List.mem_range.mp hi) hj

end

/-! ### The hypotheses can be met -/

namespace Examples

theorem realP1_one : ValuesSumOne realP1 .triangle 3 := by
  intro z _
  simp [realP1, pointList, List.range_succ]

/-- C84: the double layer matrices of P1 elements on spheres of all levels. -/
example (lev : Nat) : ∃ (rule : List (List ℝ × List ℝ × ℝ)) (V : Nat → Nat → Nat → ℝ) (fs : FunctionSpace),
    fs.globalSize = 4 ^ (lev + 1) + 2 ∧
    ∃ M : Nat → List ℝ, (∀ n out,
        Assemble (pairEnv rule) (Laplace.doubleLayer (kernelOf laplaceGreen) (latticeOptions n))
          (Examples.spaceOf fs p1 (vertexGeometry triangleFunctions V) realP1)
          (Examples.spaceOf fs p1 (vertexGeometry triangleFunctions V) realP1) out ↔ out = some (M n)) ∧
      ∀ i, i < fs.globalSize →
        Tendsto (fun n => ((List.range fs.globalSize).map fun j => (M n).getD (i + fs.globalSize * j) 0).sum) atTop
          (𝓝 (-(1 / 2) * fs.surfaceIntegral realP1 (vertexGeometry triangleFunctions V) .triangle i)) := by
  obtain ⟨s, hs, -⟩ := C30_sizes (1 / 2 : ℝ) Real.sqrt lev
  have hl : LibraryShape lev .triangle s := .inl ⟨hs, rfl⟩
  obtain ⟨-, -, -, ⟨g, pt, cl, hb⟩, -⟩ := C47_conforming _ _ _ hl
  obtain ⟨⟨V, hV⟩, -⟩ := C79_surface hl hb
  have hu := p1_uniform .triangle (by decide)
  obtain ⟨fs, h1, h2⟩ := C46_sphere _ _ hs hb hu
  obtain ⟨rule, r1, r2⟩ := exact_rule (S := refCell .triangle)
    ((g.entityIter 2).flatMap fun c => (g.entityIter 2).flatMap fun c' => (List.range 3).flatMap fun a =>
      (List.range 3).map fun b => pairIntegrand dlF laplaceGreen (vertexGeometry triangleFunctions V)
        (vertexGeometry triangleFunctions V) realP1 realP1 .triangle c.localIndex c'.localIndex a b) (by
      intro f hf
      simp only [List.mem_flatMap, List.mem_map, List.mem_range] at hf
      obtain ⟨c, hc, c', hc', a, ha, b, hb', rfl⟩ := hf
      exact shape_integrable laplaceGreen_greenLike .doubleLayer hl hb hV (realP1_continuous .triangle)
        (realP1_continuous .triangle) hc hc' ha hb')
  obtain ⟨M, hM, hlim⟩ := C84_double_layer (env := pairEnv rule) (o := latticeOptions) (Q := pairRules rule)
    (test := Examples.spaceOf fs p1 (vertexGeometry triangleFunctions V) realP1)
    (trial := Examples.spaceOf fs p1 (vertexGeometry triangleFunctions V) realP1) rfl hs hb hV hu hu h1 h1
    (spaceOf_geometry fs p1 _ realP1) (spaceOf_geometry fs p1 _ realP1) (spaceOf_tabulate fs p1 _ realP1)
    (spaceOf_tabulate fs p1 _ realP1) (pair_regular rule) (pair_singular r1)
    (kernelOf_computes laplaceGreen _) (fun _ => by show 0 < 128; decide)
    (realP1_continuous _) (realP1_continuous _) realP1_one triangleRule_converges
    (fun c hc c' hc' _ a b ha hb' => by
      have := r2 _ (List.mem_flatMap.mpr ⟨c, hc, List.mem_flatMap.mpr ⟨c', hc', List.mem_flatMap.mpr
        ⟨a, List.mem_range.mpr ha, List.mem_map.mpr ⟨b, List.mem_range.mpr hb', rfl⟩⟩⟩⟩)
      show Tendsto (fun _ => (rule.map fun p => p.2.2 * _).sum) atTop _
      exact tendsto_const_nhds.congr fun _ => this.symm)
  exact ⟨rule, V, fs, by simpa using h2, M, hM, hlim⟩

end Examples
end Bempp
