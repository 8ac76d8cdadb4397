import Verif.Proofs.SphereArea
import Verif.Props.Gauss
/-
C86: the area of the spheres, and the totals of the double layer matrices.
-/
namespace Bempp
open MeasureTheory Set Filter Topology

section
variable {lev : Nat} {s : Shape ℝ} {g : Grid} {pt cl : Nat → Nat} {V : Nat → Nat → Nat → ℝ}
  {famT famR : CellType → ElementDofs} {kT kR : Nat → Nat}

/-- The integration element of a flat triangle. -/
theorem jdet_len (V : Nat → Nat → Nat → ℝ) (c : Nat) (x : List ℝ) : (vertexGeometry triangleFunctions V).jdet c x =
    ((cornerVec V c 1 - cornerVec V c 0).cross (cornerVec V c 2 - cornerVec V c 0)).len := by
  have e0 : (fun i => ((List.range 3).map fun k => triangleFunctions.deriv 0 k x * V c k i).sum) =
      fun i => V c 1 i - V c 0 i := by
    funext i
    simp [triangleFunctions, List.range_succ]
    ring
  have e1 : (fun i => ((List.range 3).map fun k => triangleFunctions.deriv 1 k x * V c k i).sum) =
      fun i => V c 2 i - V c 0 i := by
    funext i
    simp [triangleFunctions, List.range_succ]
    ring
  have e : (vertexGeometry triangleFunctions V).jdet c x =
      norm3 (cross3 (fun i => ((List.range 3).map fun k => triangleFunctions.deriv 0 k x * V c k i).sum)
        (fun i => ((List.range 3).map fun k => triangleFunctions.deriv 1 k x * V c k i).sum)) := rfl
  rw [e, e0, e1]
  rfl

/-- The area of a triangle of a sphere, compared with the solid angle under which it is seen from the origin. -/
theorem sphere_cell_area (hs : realSphere lev = some s) (hb : Built s .triangle g pt cl) (hV : HasCorners s g pt V) {c : Entity}
    (hc : c ∈ g.entityIter 2) :
    ∫ z in refCell .triangle, (vertexGeometry triangleFunctions V).jdet c.localIndex (pointList z) ≤
      -flux (cornerVec V c.localIndex 0) (cornerVec V c.localIndex 1) (cornerVec V c.localIndex 2) 0 ∧
    4 ^ lev / (4 ^ lev + 2) *
      -flux (cornerVec V c.localIndex 0) (cornerVec V c.localIndex 1) (cornerVec V c.localIndex 2) 0 ≤
      ∫ z in refCell .triangle, (vertexGeometry triangleFunctions V).jdet c.localIndex (pointList z) := by
  have e : ∫ z in refCell .triangle, (vertexGeometry triangleFunctions V).jdet c.localIndex (pointList z) =
      ((cornerVec V c.localIndex 1 - cornerVec V c.localIndex 0).cross
        (cornerVec V c.localIndex 2 - cornerVec V c.localIndex 0)).len / 2 := by
    simp only [jdet_len]
    have := integral_const_mul (μ := volume.restrict (refCell .triangle))
      ((cornerVec V c.localIndex 1 - cornerVec V c.localIndex 0).cross
        (cornerVec V c.localIndex 2 - cornerVec V c.localIndex 0)).len (fun _ => (1 : ℝ))
    rw [refTriangle_area] at this
    simp only [mul_one] at this
    rw [this]
    ring
  have hd := sphere_outward hs hb hV hc (0, 0)
  rw [triPoint_normal] at hd
  obtain ⟨S, es, h, hq⟩ := nonObtuse_state lev
  obtain rfl : s = S.shape := Option.some_inj.mp (hs.symm.trans (regularSphere_eq es))
  obtain ⟨u, v, w, ec, h0, h1, h2⟩ := triangle_corners hb hV hc
  obtain ⟨i, hi, -, -⟩ := hb.corner_list hc
  obtain ⟨t, ht, et⟩ := S.shape_mem hi
  obtain ⟨l0, l1, l2⟩ := h.inv.good.lt t ht
  rw [← h.inv.length] at l0 l1 l2
  simp only at et
  rw [ec] at et
  simp only [List.cons.injEq, and_true] at et
  obtain ⟨rfl, rfl, rfl⟩ := et
  obtain ⟨c1, c2, c3⟩ := h.width.le t ht
  rw [SphereState.shape_pos l0, Option.getD_some] at h0
  rw [SphereState.shape_pos l1, Option.getD_some] at h1
  rw [SphereState.shape_pos l2, Option.getD_some] at h2
  rw [e]
  rw [h0, h1, h2] at hd ⊢
  exact triangle_area (hq t ht) c1 c3 c2 hd

/-- **C86.** The area of `regular_sphere(n)` is at most the area `4 π` of the sphere, and at least `4^n / (4^n + 2)` times
as large. -/
theorem C86_area (hs : realSphere lev = some s) (hb : Built s .triangle g pt cl) (hV : HasCorners s g pt V) :
    4 * Real.pi * (4 ^ lev / (4 ^ lev + 2)) ≤ surfaceArea g (vertexGeometry triangleFunctions V) .triangle ∧
      surfaceArea g (vertexGeometry triangleFunctions V) .triangle ≤ 4 * Real.pi := by
  have h0 := sphere_origin hs hb hV
  have h1 : ((g.entityIter 2).map fun c => -flux (cornerVec V c.localIndex 0) (cornerVec V c.localIndex 1)
      (cornerVec V c.localIndex 2) 0).sum = 4 * Real.pi := by
    have e := List.sum_map_mul_left (l := g.entityIter 2) (r := (-1 : ℝ)) (f := fun c => flux (cornerVec V c.localIndex 0)
      (cornerVec V c.localIndex 1) (cornerVec V c.localIndex 2) 0)
    simp only [neg_one_mul] at e
    rw [e, h0, neg_neg]
  constructor
  · rw [← h1, mul_comm, ← List.sum_map_mul_left]
    exact List.sum_le_sum fun c hc => (sphere_cell_area hs hb hV hc).2
  · rw [← h1]
    exact List.sum_le_sum fun c hc => (sphere_cell_area hs hb hV hc).1

/-- **C86.** If the basis functions add up to 1, then their integrals add up to the area of the surface. -/
theorem C86_integrals {fs : FunctionSpace} {B : Basis ℝ ℝ}
    (hb : Built s .triangle g pt cl) (hT : (famT .triangle).Uniform .triangle kT) (hm : FunctionSpace.new 0 1 g famT = .done fs)
    (hB : ContinuousBasis B .triangle (famT .triangle).dim) (hone : ValuesSumOne B .triangle (famT .triangle).dim) :
    ((List.range fs.globalSize).map fun i => fs.surfaceIntegral B (vertexGeometry triangleFunctions V) .triangle i).sum =
      surfaceArea g (vertexGeometry triangleFunctions V) .triangle := by
  obtain ⟨sT, gT⟩ := shape_space hb hT hm
  unfold FunctionSpace.surfaceIntegral surfaceArea
  rw [sum_swap, gT]
  congr 1
  apply List.map_congr_left
  intro c hc
  rw [sum_swap]
  obtain ⟨cd, r1, -, r3, _, r4⟩ := sT.cell (gT ▸ hc)
  have e : fs.cellDofs c.localIndex = some cd := by rw [cellDofs_eq]; exact r1
  rw [e, Option.getD_some]
  have h1 : ∀ x ∈ cd.zipIdx, ((List.range fs.globalSize).map fun i =>
      if x.1 = i then ∫ z in refCell .triangle, B .triangle x.2 0 (pointList z) *
        (vertexGeometry triangleFunctions V).jdet c.localIndex (pointList z) else 0).sum =
      ∫ z in refCell .triangle, B .triangle x.2 0 (pointList z) *
        (vertexGeometry triangleFunctions V).jdet c.localIndex (pointList z) := fun x hx =>
    sum_range_single _ _ (r4 _ (List.fst_mem_of_mem_zipIdx hx)) _
  rw [List.map_congr_left h1, sum_zipIdx cd (fun b => ∫ z in refCell .triangle, B .triangle b 0 (pointList z) *
    (vertexGeometry triangleFunctions V).jdet c.localIndex (pointList z)) 0, ← List.range_eq_range', r3, hb.cell_type hc]
  have hi : ∀ b ∈ List.range (famT .triangle).dim, Integrable (fun z : ℝ × ℝ => B .triangle b 0 (pointList z) *
      (vertexGeometry triangleFunctions V).jdet c.localIndex (pointList z)) (volume.restrict (refCell .triangle)) := by
    intro b hb'
    simp only [jdet_len]
    exact ((hB b (List.mem_range.mp hb') 0 (by decide)).mul continuousOn_const).integrableOn_compact (refCell_isCompact _)
  rw [← (integral_list _ hi).2]
  refine setIntegral_congr_fun (refCell_measurable _) fun z hz => ?_
  rw [List.sum_map_mul_right, hone z hz, one_mul]

/-- **C86.** The sum of all entries of the Galerkin matrix of the double layer operator on a sphere is minus one half of the
area, if the test functions as well as the trial functions add up to 1. -/
theorem C86_total {test trial : FunctionSpace} {BT BR : Basis ℝ ℝ} (hs : realSphere lev = some s)
    (hb : Built s .triangle g pt cl) (hV : HasCorners s g pt V) (hT : (famT .triangle).Uniform .triangle kT)
    (hR : (famR .triangle).Uniform .triangle kR) (hmT : FunctionSpace.new 0 1 g famT = .done test)
    (hmR : FunctionSpace.new 0 1 g famR = .done trial) (hBT : ContinuousBasis BT .triangle (famT .triangle).dim)
    (hBR : ContinuousBasis BR .triangle (famR .triangle).dim) (hoT : ValuesSumOne BT .triangle (famT .triangle).dim)
    (hoR : ValuesSumOne BR .triangle (famR .triangle).dim) :
    ((List.range test.globalSize).map fun i => ((List.range trial.globalSize).map fun j => doubleSum test trial
      (pairIntegral dlF laplaceGreen (vertexGeometry triangleFunctions V) (vertexGeometry triangleFunctions V) BT BR .triangle)
        i j).sum).sum = -(1 / 2) * surfaceArea g (vertexGeometry triangleFunctions V) .triangle := by
  rw [← C86_integrals hb hT hmT hBT hoT, ← List.sum_map_mul_left]
  congr 1
  exact List.map_congr_left fun i _ => C84_rows hs hb hV hT hR hmT hmR hBT hBR hoR i

/-- **C86.** Assembly of the double layer operator on `regular_sphere(lev)` with rules that converge: the sums of all
entries of the matrices converge to a number between `-2 π` and `-2 π 4^lev / (4^lev + 2)`. -/
theorem C86_double_layer {env : Env ℝ ℝ} {kernel : Kernel ℝ ℝ} {trial test : Space ℝ ℝ} {BT BR : Basis ℝ ℝ} {o : Nat → Options}
    {Q : Nat → Quadrature ℝ} (hcast : env.cast = id) (hs : realSphere lev = some s) (hb : Built s .triangle g pt cl)
    (hV : HasCorners s g pt V) (hT : (famT .triangle).Uniform .triangle kT) (hR : (famR .triangle).Uniform .triangle kR)
    (hmT : FunctionSpace.new 0 1 g famT = .done test.fs) (hmR : FunctionSpace.new 0 1 g famR = .done trial.fs)
    (hgT : GeometryOk test (vertexGeometry triangleFunctions V)) (hgR : GeometryOk trial (vertexGeometry triangleFunctions V))
    (hbT : TabulateOk test famT BT) (hbR : TabulateOk trial famR BR) (hreg : ∀ n, RegularOk env (o n) (Q n) .triangle)
    (hsing : ∀ n, SingularOk env (o n) (Q n) .triangle .triangle)
    (hK : kernel.Computes .valueDeriv laplaceGreen) (hbatch : ∀ n, 0 < (o n).batchSize)
    (hBT : ContinuousBasis BT .triangle (famT .triangle).dim) (hBR : ContinuousBasis BR .triangle (famR .triangle).dim)
    (hoT : ValuesSumOne BT .triangle (famT .triangle).dim) (hoR : ValuesSumOne BR .triangle (famR .triangle).dim)
    (hrule : RulesConverge (refCell .triangle) fun n => (Q n).regular .triangle)
    (hpair : ∀ c ∈ g.entityIter 2, ∀ c' ∈ g.entityIter 2, c.Touches c' → ∀ a b, a < (famT .triangle).dim →
      b < (famR .triangle).dim → PairRulesConverge (refCell .triangle)
        (fun n => (Q n).singular .triangle .triangle (connectivity c c'))
        (pairIntegrand dlF laplaceGreen (vertexGeometry triangleFunctions V) (vertexGeometry triangleFunctions V) BT BR
          .triangle c.localIndex c'.localIndex a b)) :
    ∃ M : Nat → List ℝ, (∀ n out, Assemble env (Laplace.doubleLayer kernel (o n)) trial test out ↔ out = some (M n)) ∧
      ∃ T : ℝ, Tendsto (fun n => matrixTotal test.fs.globalSize trial.fs.globalSize (M n)) atTop (𝓝 T) ∧
        -(2 * Real.pi) ≤ T ∧ T ≤ -(2 * Real.pi) * (4 ^ lev / (4 ^ lev + 2)) := by
  obtain ⟨M, hM, hlim⟩ := C84_double_layer hcast hs hb hV hT hR hmT hmR hgT hgR hbT hbR hreg hsing hK hbatch hBT hBR hoR hrule hpair
  refine ⟨M, hM, _, tendsto_list_map_sum _ (f := fun i n =>
    ((List.range trial.fs.globalSize).map fun j => (M n).getD (i + test.fs.globalSize * j) 0).sum)
    fun i hi => hlim i (List.mem_range.mp hi), ?_⟩
  rw [List.sum_map_mul_left, C86_integrals hb hT hmT hBT hoT]
  obtain ⟨h1, h2⟩ := C86_area hs hb hV
  constructor <;> linarith

/-- **C86.** The same for the adjoint double layer operator. -/
theorem C86_adjoint {env : Env ℝ ℝ} {kernel : Kernel ℝ ℝ} {trial test : Space ℝ ℝ} {BT BR : Basis ℝ ℝ} {o : Nat → Options}
    {Q : Nat → Quadrature ℝ} (hcast : env.cast = id) (hs : realSphere lev = some s) (hb : Built s .triangle g pt cl)
    (hV : HasCorners s g pt V) (hT : (famT .triangle).Uniform .triangle kT) (hR : (famR .triangle).Uniform .triangle kR)
    (hmT : FunctionSpace.new 0 1 g famT = .done test.fs) (hmR : FunctionSpace.new 0 1 g famR = .done trial.fs)
    (hgT : GeometryOk test (vertexGeometry triangleFunctions V)) (hgR : GeometryOk trial (vertexGeometry triangleFunctions V))
    (hbT : TabulateOk test famT BT) (hbR : TabulateOk trial famR BR) (hreg : ∀ n, RegularOk env (o n) (Q n) .triangle)
    (hsing : ∀ n, SingularOk env (o n) (Q n) .triangle .triangle)
    (hK : kernel.Computes .valueDeriv laplaceGreen) (hbatch : ∀ n, 0 < (o n).batchSize)
    (hBT : ContinuousBasis BT .triangle (famT .triangle).dim) (hBR : ContinuousBasis BR .triangle (famR .triangle).dim)
    (hoT : ValuesSumOne BT .triangle (famT .triangle).dim) (hoR : ValuesSumOne BR .triangle (famR .triangle).dim)
    (hrule : RulesConverge (refCell .triangle) fun n => (Q n).regular .triangle)
    (hpair : ∀ c ∈ g.entityIter 2, ∀ c' ∈ g.entityIter 2, c.Touches c' → ∀ a b, a < (famT .triangle).dim →
      b < (famR .triangle).dim → PairRulesConverge (refCell .triangle)
        (fun n => (Q n).singular .triangle .triangle (connectivity c c'))
        (pairIntegrand adlF laplaceGreen (vertexGeometry triangleFunctions V) (vertexGeometry triangleFunctions V) BT BR
          .triangle c.localIndex c'.localIndex a b)) :
    ∃ M : Nat → List ℝ, (∀ n out, Assemble env (Laplace.adjointDoubleLayer kernel (o n)) trial test out ↔ out = some (M n)) ∧
      ∃ T : ℝ, Tendsto (fun n => matrixTotal test.fs.globalSize trial.fs.globalSize (M n)) atTop (𝓝 T) ∧
        -(2 * Real.pi) ≤ T ∧ T ≤ -(2 * Real.pi) * (4 ^ lev / (4 ^ lev + 2)) := by
  obtain ⟨M, hM, hlim⟩ := C84_adjoint hcast hs hb hV hT hR hmT hmR hgT hgR hbT hbR hreg hsing hK hbatch hBT hBR hoT hrule hpair
  have hsw : ∀ n, matrixTotal test.fs.globalSize trial.fs.globalSize (M n) = ((List.range trial.fs.globalSize).map fun j =>
      ((List.range test.fs.globalSize).map fun i => (M n).getD (i + test.fs.globalSize * j) 0).sum).sum := fun n => sum_swap _ _ _
  refine ⟨M, hM, _, (tendsto_list_map_sum _ (f := fun j n =>
    ((List.range test.fs.globalSize).map fun i => (M n).getD (i + test.fs.globalSize * j) 0).sum)
    fun j hj => hlim j (List.mem_range.mp hj)).congr fun n => (hsw n).symm, ?_⟩
  rw [List.sum_map_mul_left, C86_integrals hb hR hmR hBR hoR]
  obtain ⟨h1, h2⟩ := C86_area hs hb hV
  constructor <;> linarith

end

/-! ### The hypotheses can be met -/

namespace Examples

/-- C86: the area of spheres of all levels. -/
example (lev : Nat) : ∃ (s : Shape ℝ) (g : Grid) (pt cl : Nat → Nat) (V : Nat → Nat → Nat → ℝ), realSphere lev = some s ∧
    Built s .triangle g pt cl ∧ HasCorners s g pt V ∧
    4 * Real.pi * (4 ^ lev / (4 ^ lev + 2)) ≤ surfaceArea g (vertexGeometry triangleFunctions V) .triangle := by
  obtain ⟨s, hs, -⟩ := C30_sizes (1 / 2 : ℝ) Real.sqrt lev
  have hl : LibraryShape lev .triangle s := .inl ⟨hs, rfl⟩
  obtain ⟨-, -, -, ⟨g, pt, cl, hb⟩, -⟩ := C47_conforming _ _ _ hl
  obtain ⟨⟨V, hV⟩, -⟩ := C79_surface hl hb
  exact ⟨s, g, pt, cl, V, hs, hb, hV, (C86_area hs hb hV).1⟩

/-- C86: the totals of the double layer matrices of P1 elements on spheres of all levels. -/
example (lev : Nat) : ∃ (rule : List (List ℝ × List ℝ × ℝ)) (V : Nat → Nat → Nat → ℝ) (fs : FunctionSpace),
    fs.globalSize = 4 ^ (lev + 1) + 2 ∧
    ∃ M : Nat → List ℝ, (∀ n out,
        Assemble (pairEnv rule) (Laplace.doubleLayer (kernelOf laplaceGreen) (latticeOptions n))
          (Examples.spaceOf fs p1 (vertexGeometry triangleFunctions V) realP1)
          (Examples.spaceOf fs p1 (vertexGeometry triangleFunctions V) realP1) out ↔ out = some (M n)) ∧
      ∃ T : ℝ, Tendsto (fun n => matrixTotal fs.globalSize fs.globalSize (M n)) atTop (𝓝 T) ∧
        -(2 * Real.pi) ≤ T ∧ T ≤ -(2 * Real.pi) * (4 ^ lev / (4 ^ lev + 2)) := by
  obtain ⟨s, hs, -⟩ := C30_sizes (1 / 2 : ℝ) Real.sqrt lev
  have hl : LibraryShape lev .triangle s := .inl ⟨hs, rfl⟩
  obtain ⟨-, -, -, ⟨g, pt, cl, hb⟩, -⟩ := C47_conforming _ _ _ hl
  obtain ⟨⟨V, hV⟩, -⟩ := C79_surface hl hb
  have hu := p1_uniform .triangle (by decide)
  obtain ⟨fs, h1, h2⟩ := C46_sphere _ _ hs hb hu
  obtain ⟨rule, r1, r2⟩ := exact_rule (S := refCell .triangle)
    ((g.entityIter 2).flatMap fun c => (g.entityIter 2).flatMap fun c' => (List.range 3).flatMap fun a =>
      (List.range 3).map fun b => pairIntegrand dlF laplaceGreen (vertexGeometry triangleFunctions V)
        (vertexGeometry triangleFunctions V) realP1 realP1 .triangle c.localIndex c'.localIndex a b) (by
      intro f hf
      simp only [List.mem_flatMap, List.mem_map, List.mem_range] at hf
      obtain ⟨c, hc, c', hc', a, ha, b, hb', rfl⟩ := hf
      exact shape_integrable laplaceGreen_greenLike .doubleLayer hl hb hV (realP1_continuous .triangle)
        (realP1_continuous .triangle) hc hc' ha hb')
  obtain ⟨M, hM, hlim⟩ := C86_double_layer (env := pairEnv rule) (o := latticeOptions) (Q := pairRules rule)
    (test := Examples.spaceOf fs p1 (vertexGeometry triangleFunctions V) realP1)
    (trial := Examples.spaceOf fs p1 (vertexGeometry triangleFunctions V) realP1) rfl hs hb hV hu hu h1 h1
    (spaceOf_geometry fs p1 _ realP1) (spaceOf_geometry fs p1 _ realP1) (spaceOf_tabulate fs p1 _ realP1)
    (spaceOf_tabulate fs p1 _ realP1) (pair_regular rule) (pair_singular r1)
    (kernelOf_computes laplaceGreen _) (fun _ => by show 0 < 128; decide)
    (realP1_continuous _) (realP1_continuous _) realP1_one realP1_one triangleRule_converges
    (fun c hc c' hc' _ a b ha hb' => by
      have := r2 _ (List.mem_flatMap.mpr ⟨c, hc, List.mem_flatMap.mpr ⟨c', hc', List.mem_flatMap.mpr
        ⟨a, List.mem_range.mpr ha, List.mem_map.mpr ⟨b, List.mem_range.mpr hb', rfl⟩⟩⟩⟩)
      show Tendsto (fun _ => (rule.map fun p => p.2.2 * _).sum) atTop _
      exact tendsto_const_nhds.congr fun _ => this.symm)
  exact ⟨rule, V, fs, by simpa using h2, M, hM, hlim⟩

end Examples
end Bempp
