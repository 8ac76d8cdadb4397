import Verif.Proofs.NearSystems
import Verif.Props.Inexact
import Verif.Props.Positive
import Verif.Props.Curl
import Verif.Props.SphereArea
/-
C87: the matrices that are computed in floating point arithmetic on spheres and screens.
-/
namespace Bempp
open MeasureTheory Filter Topology

section
variable {s : Shape ℝ} {t : CellType} {g : Grid} {pt cl : Nat → Nat} {V : Nat → Nat → Nat → ℝ} {lev : Nat}
  {Q : Nat → Quadrature ℝ} {famT famR fam : CellType → ElementDofs} {kT kR kk : Nat → Nat} {S : OperatorData ℝ}
  {W : MathIntegrand ℝ} {k m : Nat}

theorem values_getD {T : Type} [RCLike T] {u : ℝ} {B : Arith T u} {M : List (Fl B)} {i : Nat} {x : Fl B}
    (h : M[i]? = some x) : (values M).getD i 0 = x.val := by
  unfold values
  rw [List.getD_eq_getElem?_getD, List.getElem?_map, h]
  rfl

theorem small_tolerance (n : Nat) {X m ε ε₁ : ℝ} (hX : 0 ≤ X) (hm : 0 < m) (hε : 0 < ε) (hε₁ : 0 < ε₁) :
    ∃ η > 0, η ≤ ε₁ ∧ η * n * (1 + X) / m ≤ ε := by
  refine ⟨min ε₁ (ε * m / ((n + 1) * (1 + X))), lt_min hε₁ (by positivity), min_le_left _ _, ?_⟩
  rw [div_le_iff₀ hm]
  calc _ ≤ ε * m / ((n + 1) * (1 + X)) * n * (1 + X) := by
        gcongr
        exact min_le_right _ _
    _ ≤ ε * m / ((n + 1) * (1 + X)) * (n + 1) * (1 + X) := by
        gcongr
        linarith
    _ = ε * m := by field_simp

/-- A space with DOFs on the vertices of a surface is not empty. -/
theorem shape_positive (hs : LibraryShape lev t s) (hb : Built s t g pt cl) (hf : (fam t).Uniform t kk) (hk : 0 < kk 0)
    {fs : FunctionSpace} (hm : FunctionSpace.new 0 1 g fam = .done fs) : 0 < fs.globalSize := by
  obtain ⟨fs', e, -, -, h1, h2⟩ := hb.space hf
  obtain rfl : fs = fs' := Prog.done.inj (hm.symm.trans e)
  have hp : 0 < s.points.length := by
    rcases hs with ⟨hs, -⟩ | ⟨hs, -⟩ | ⟨hs, -⟩
    · obtain ⟨s', hs', h3, -⟩ := C30_sizes (1 / 2 : ℝ) Real.sqrt lev
      have : some s' = some s := hs'.symm.trans hs
      cases this
      rw [h3]
      positivity
    · rcases Nat.eq_zero_or_pos lev with h0 | h0
      · rw [(C33_triangles _ lev).1 h0] at hs
        exact absurd hs (by simp)
      · obtain ⟨s', hs', h3, -⟩ := (C33_triangles (fun k => (k : ℝ)) lev).2 h0
        have : some s' = some s := hs'.symm.trans hs
        cases this
        rw [h3]
        positivity
    · rcases Nat.eq_zero_or_pos lev with h0 | h0
      · rw [(C33_quadrilaterals _ lev).1 h0] at hs
        exact absurd hs (by simp)
      · obtain ⟨s', hs', h3, -⟩ := (C33_quadrilaterals (fun k => (k : ℝ)) lev).2 h0
        have : some s' = some s := hs'.symm.trans hs
        cases this
        rw [h3]
        positivity
  rw [h2, h1]
  have := Nat.mul_pos hk hp
  omega

/-- The columns of the Galerkin matrix of the hypersingular operator add up to 0. -/
theorem hyper_columns (hs : LibraryShape lev t s) (hb : Built s t g pt cl) (hV : HasCorners s g pt V)
    (hf : (fam t).Uniform t kk) {fs : FunctionSpace} (hm : FunctionSpace.new 0 1 g fam = .done fs) {BB : Basis ℝ ℝ}
    (hB : ContinuousBasis BB t (fam t).dim) (hz : DerivativesSumZero BB t (fam t).dim) (j : Nat) :
    ((List.range fs.globalSize).map fun i => doubleSum fs fs (pairIntegral curlCurlF laplaceGreen
      (vertexGeometry (cellFunctions t) V) (vertexGeometry (cellFunctions t) V) BB BB t) i j).sum = 0 := by
  obtain ⟨sT, gT⟩ := shape_space hb hf hm
  have e0 : (fun i => doubleSum fs fs (pairIntegral curlCurlF laplaceGreen (vertexGeometry (cellFunctions t) V)
      (vertexGeometry (cellFunctions t) V) BB BB t) i j) = fun i => doubleSum fs fs (fun c c' a b => pairIntegral curlCurlF
        laplaceGreen (vertexGeometry (cellFunctions t) V) (vertexGeometry (cellFunctions t) V) BB BB t c' c b a) j i :=
    funext fun i => doubleSum_swap fs fs _ i j
  rw [e0, doubleSum_row sT]
  refine List.sum_eq_zero fun r hr => ?_
  obtain ⟨c', hc', rfl⟩ := List.mem_map.mp hr
  refine List.sum_eq_zero fun r hr => ?_
  obtain ⟨ib, hib, rfl⟩ := List.mem_map.mp hr
  split
  · refine List.sum_eq_zero fun r hr => ?_
    obtain ⟨c, hc, rfl⟩ := List.mem_map.mp hr
    obtain ⟨cd, r1, -, r3, -⟩ := sT.cell hc'
    have e : fs.cellDofs c'.localIndex = some cd := by rw [cellDofs_eq]; exact r1
    rw [e, Option.getD_some] at hib
    rw [gT] at hc hc'
    have hb' : ib.2 < (fam t).dim := by
      have := List.snd_lt_of_mem_zipIdx hib
      rw [r3, hb.cell_type hc'] at this
      omega
    rw [hb.cell_type hc]
    have hi := fun a (ha : a ∈ List.range (fam t).dim) =>
      shape_integrable (F := curlCurlF) laplaceGreen_greenLike .hypersingular hs hb hV hB hB hc hc' (List.mem_range.mp ha) hb'
    have e1 : ∀ a ∈ List.range (fam t).dim, pairIntegral curlCurlF laplaceGreen (vertexGeometry (cellFunctions t) V)
        (vertexGeometry (cellFunctions t) V) BB BB t c c' a ib.2 =
        ∫ z in refCell t ×ˢ refCell t, pairIntegrand curlCurlF laplaceGreen (vertexGeometry (cellFunctions t) V)
          (vertexGeometry (cellFunctions t) V) BB BB t c.localIndex c'.localIndex a ib.2 (pointList z.1)
          (pointList z.2) := fun a ha => (setIntegral_prod _ (hi a ha)).symm
    rw [List.map_congr_left e1, ← (integral_list _ hi).2]
    refine integral_eq_zero_of_ae (.of_forall fun z => ?_)
    simp only [pairIntegrand, Pi.zero_apply]
    exact curl_sum_zero' (fun a i => BB t a i (pointList z.1)) _ _ _ _ _ _ _ (hz _).1 (hz _).2
  · rfl

theorem shape_accuracy {T : Type} [RCLike T] {K : MathKernel ℝ T} (hK : ContinuousKernel K) {F' : MathIntegrand T}
    (hF : OperatorFormula F') (hF' : Factors F' W m) {BT BR : Basis ℝ T}
    (hs : LibraryShape lev t s) (hb : Built s t g pt cl) (hV : HasCorners s g pt V)
    (hT : (famT t).Uniform t kT) (hR : (famR t).Uniform t kR) {fsT fsR : FunctionSpace}
    (hmT : FunctionSpace.new 0 1 g famT = .done fsT) (hmR : FunctionSpace.new 0 1 g famR = .done fsR)
    (hBT : ContinuousBasis BT t (famT t).dim) (hBR : ContinuousBasis BR t (famR t).dim)
    (hrule : RulesConverge (refCell t) fun n => (Q n).regular t)
    (hpair : ∀ c ∈ g.entityIter 2, ∀ c' ∈ g.entityIter 2, c.Touches c' → ∀ a b, a < (famT t).dim → b < (famR t).dim →
      PairRulesConverge (refCell t) (fun n => (Q n).singular t t (connectivity c c'))
        (pairIntegrand F' K (vertexGeometry (cellFunctions t) V) (vertexGeometry (cellFunctions t) V) BT BR t
          c.localIndex c'.localIndex a b)) {ε : ℝ} (hε : 0 < ε) :
    ∃ n₀, ∀ n ≥ n₀, ∃ δ > 0, ∀ u e, 0 ≤ u → u ≤ δ → 0 ≤ e → e ≤ δ →
      ∀ (A : Arith ℝ u) (B : Arith T u) env asm trial test D Q' o F,
      FloatAssembly A B e (shapeData K t V BT BR) S (Q n) g t famT famR F' W k env asm trial test D Q' o F →
      ∃ M : List (Fl B), (∀ out, Assemble env asm trial test out ↔ out = some M) ∧
        M.length = fsT.globalSize * fsR.globalSize ∧
        ∀ i j, i < fsT.globalSize → j < fsR.globalSize →
          ‖(values M).getD (i + fsT.globalSize * j) 0 - doubleSum fsT fsR (pairIntegral F' K
            (vertexGeometry (cellFunctions t) V) (vertexGeometry (cellFunctions t) V) BT BR t) i j‖ ≤ ε := by
  obtain ⟨sT, gT⟩ := shape_space hb hT hmT
  obtain ⟨sR, gR⟩ := shape_space hb hR hmR
  have hcell := fun c (hc : c ∈ g.entityIter 2) => shape_continuous hs hb hV hc
  obtain ⟨n₀, hn₀⟩ := C78_accuracy (D' := shapeData K t V BT BR) (S := S) (Q := Q) (t := t) (k := k) sT sR
    (by rw [gT]; exact hb.types) (by rw [gR]; exact hb.types) hF hF' hK (by rw [gT]; exact hcell) (by rw [gR]; exact hcell)
    hBT hBR
    (by
      rw [gT, gR]
      exact fun c hc c' hc' hn => shape_disjoint hs hb hV hc hc' fun h => hn ⟨rfl, h⟩) hrule
    (by
      rw [gT, gR]
      exact fun c hc c' hc' _ h => hpair c hc c' hc' h) hε
  refine ⟨n₀, fun n hn => ?_⟩
  obtain ⟨δ, hδ, h1⟩ := hn₀ n hn
  refine ⟨δ, hδ, fun u e u0 u1 e0 e1 A B env asm trial test D Q' o F h => ?_⟩
  have eT : test.fs = fsT := Prog.done.inj (h.testMade.symm.trans hmT)
  have eR : trial.fs = fsR := Prog.done.inj (h.trialMade.symm.trans hmR)
  obtain ⟨-, -, -, -, hall⟩ := C47_conforming _ _ _ hs
  obtain ⟨-, -, -, hev⟩ := hall g pt cl hb
  have hp : SpacePair (R := Fl A) (T := Fl B) env o trial test famT famR D.testGeometry D.trialGeometry D.testBasis
      D.trialBasis Q' t :=
    { testSpace := eT ▸ sT
      trialSpace := eR ▸ sR
      testType := by rw [eT, gT]; exact hb.types
      trialType := by rw [eR, gR]; exact hb.types
      testSurface := by rw [eT, gT]; exact hb.surface
      trialSurface := by rw [eR, gR]; exact hb.surface
      testGeometry := h.testGeometry
      trialGeometry := h.trialGeometry
      testBasis := h.testBasis
      trialBasis := h.trialBasis
      rule := h.regular
      same := fun _ => ⟨by rw [eT, eR, gT, gR], h.sameGeometry.symm, by rw [eT, gT]; exact hb.vertices,
        by rw [eT, gT]; exact hev, h.singular⟩ }
  have hw := h.accurate
  rw [eT, eR] at hw
  obtain ⟨M, m1, m2, m3⟩ := h1 u e u0 u1 e0 e1 A B env o asm trial test F D Q' h.cast eR eT hp h.operator h.rounded
    h.batch hw
  refine ⟨M, m1, m2, fun i j hi hj => ?_⟩
  obtain ⟨x, x1, x2⟩ := m3 i j hi hj
  rw [values_getD x1]
  exact x2

/-- **C87.** The Laplace operators on spheres and screens in floating point arithmetic, where the vertices of the grid, the
geometry, the basis functions, the kernel and the quadrature rules are known up to errors: for every tolerance there is a
number of quadrature points from which on all entries are within the tolerance of the Galerkin matrix, if the arithmetic and
the data are accurate enough. -/
theorem C87_laplace {F' : MathIntegrand ℝ} (hF : OperatorFormula F') (hF' : Factors F' W m) {BT BR : Basis ℝ ℝ}
    (hs : LibraryShape lev t s) (hb : Built s t g pt cl) (hV : HasCorners s g pt V)
    (hT : (famT t).Uniform t kT) (hR : (famR t).Uniform t kR) {fsT fsR : FunctionSpace}
    (hmT : FunctionSpace.new 0 1 g famT = .done fsT) (hmR : FunctionSpace.new 0 1 g famR = .done fsR)
    (hBT : ContinuousBasis BT t (famT t).dim) (hBR : ContinuousBasis BR t (famR t).dim)
    (hrule : RulesConverge (refCell t) fun n => (Q n).regular t)
    (hpair : ∀ c ∈ g.entityIter 2, ∀ c' ∈ g.entityIter 2, c.Touches c' → ∀ a b, a < (famT t).dim → b < (famR t).dim →
      PairRulesConverge (refCell t) (fun n => (Q n).singular t t (connectivity c c'))
        (pairIntegrand F' laplaceGreen (vertexGeometry (cellFunctions t) V) (vertexGeometry (cellFunctions t) V) BT BR t
          c.localIndex c'.localIndex a b)) {ε : ℝ} (hε : 0 < ε) :
    ∃ n₀, ∀ n ≥ n₀, ∃ δ > 0, ∀ u e, 0 ≤ u → u ≤ δ → 0 ≤ e → e ≤ δ →
      ∀ (A : Arith ℝ u) (B : Arith ℝ u) env asm trial test D Q' o F,
      FloatAssembly A B e (shapeData laplaceGreen t V BT BR) S (Q n) g t famT famR F' W k env asm trial test D Q' o F →
      ∃ M : List (Fl B), (∀ out, Assemble env asm trial test out ↔ out = some M) ∧
        M.length = fsT.globalSize * fsR.globalSize ∧
        ∀ i j, i < fsT.globalSize → j < fsR.globalSize →
          ‖(values M).getD (i + fsT.globalSize * j) 0 - doubleSum fsT fsR (pairIntegral F' laplaceGreen
            (vertexGeometry (cellFunctions t) V) (vertexGeometry (cellFunctions t) V) BT BR t) i j‖ ≤ ε := 
  shape_accuracy laplaceGreen_continuous hF hF' hs hb hV hT hR hmT hmR hBT hBR hrule hpair hε

/-- **C87.** The same for the Helmholtz operators. -/
theorem C87_helmholtz {w : ℝ} {F' : MathIntegrand ℂ} (hF : OperatorFormula F') (hF' : Factors F' W m) {BT BR : Basis ℝ ℂ}
    (hs : LibraryShape lev t s) (hb : Built s t g pt cl) (hV : HasCorners s g pt V)
    (hT : (famT t).Uniform t kT) (hR : (famR t).Uniform t kR) {fsT fsR : FunctionSpace}
    (hmT : FunctionSpace.new 0 1 g famT = .done fsT) (hmR : FunctionSpace.new 0 1 g famR = .done fsR)
    (hBT : ContinuousBasis BT t (famT t).dim) (hBR : ContinuousBasis BR t (famR t).dim)
    (hrule : RulesConverge (refCell t) fun n => (Q n).regular t)
    (hpair : ∀ c ∈ g.entityIter 2, ∀ c' ∈ g.entityIter 2, c.Touches c' → ∀ a b, a < (famT t).dim → b < (famR t).dim →
      PairRulesConverge (refCell t) (fun n => (Q n).singular t t (connectivity c c'))
        (pairIntegrand F' (helmholtzGreen w) (vertexGeometry (cellFunctions t) V) (vertexGeometry (cellFunctions t) V) BT BR t
          c.localIndex c'.localIndex a b)) {ε : ℝ} (hε : 0 < ε) :
    ∃ n₀, ∀ n ≥ n₀, ∃ δ > 0, ∀ u e, 0 ≤ u → u ≤ δ → 0 ≤ e → e ≤ δ →
      ∀ (A : Arith ℝ u) (B : Arith ℂ u) env asm trial test D Q' o F,
      FloatAssembly A B e (shapeData (helmholtzGreen w) t V BT BR) S (Q n) g t famT famR F' W k env asm trial test D Q' o F →
      ∃ M : List (Fl B), (∀ out, Assemble env asm trial test out ↔ out = some M) ∧
        M.length = fsT.globalSize * fsR.globalSize ∧
        ∀ i j, i < fsT.globalSize → j < fsR.globalSize →
          ‖(values M).getD (i + fsT.globalSize * j) 0 - doubleSum fsT fsR (pairIntegral F' (helmholtzGreen w)
            (vertexGeometry (cellFunctions t) V) (vertexGeometry (cellFunctions t) V) BT BR t) i j‖ ≤ ε := 
  shape_accuracy (helmholtzGreen_continuous w) hF hF' hs hb hV hT hR hmT hmR hBT hBR hrule hpair hε

/-- **C87.** The single layer matrices that are computed: with enough quadrature points, digits and accuracy of the data they
are positive definite (with the same constant), and every linear system with such a matrix has exactly one solution. -/
theorem C87_single_layer {BB : Basis ℝ ℝ}
    (hs : LibraryShape lev t s) (hb : Built s t g pt cl) (hV : HasCorners s g pt V)
    (hf : (fam t).Uniform t kk) {fs : FunctionSpace} (hm : FunctionSpace.new 0 1 g fam = .done fs)
    (hB : ContinuousBasis BB t (fam t).dim) (hi : IndependentBasis BB t (fam t).dim)
    (hrule : RulesConverge (refCell t) fun n => (Q n).regular t)
    (hpair : ∀ c ∈ g.entityIter 2, ∀ c' ∈ g.entityIter 2, c.Touches c' → ∀ a b, a < (fam t).dim → b < (fam t).dim →
      PairRulesConverge (refCell t) (fun n => (Q n).singular t t (connectivity c c'))
        (pairIntegrand slF laplaceGreen (vertexGeometry (cellFunctions t) V) (vertexGeometry (cellFunctions t) V) BB BB t
          c.localIndex c'.localIndex a b)) :
    ∃ c > 0, ∃ n₀, ∀ n ≥ n₀, ∃ δ > 0, ∀ u e, 0 ≤ u → u ≤ δ → 0 ≤ e → e ≤ δ →
      ∀ (A : Arith ℝ u) (B : Arith ℝ u) env asm trial test D Q' o F,
      FloatAssembly A B e (shapeData laplaceGreen t V BB BB) S (Q n) g t fam fam slF slF 2 env asm trial test D Q' o F →
      ∃ M : List (Fl B), (∀ out, Assemble env asm trial test out ↔ out = some M) ∧
        (∀ v, c * sumSq fs.globalSize v ≤ formOf (values M) fs.globalSize fs.globalSize v v) ∧
        ∀ b : Nat → ℝ, (∃ x, Solves (values M) fs.globalSize x b) ∧
          ∀ x y, Solves (values M) fs.globalSize x b → Solves (values M) fs.globalSize y b →
            ∀ i, i < fs.globalSize → x i = y i := by
  obtain ⟨ε, hε, m, hm0, hdef⟩ := C81_nearby hs hb hV hf hm hB hi
  obtain ⟨n₀, hn₀⟩ := C87_laplace (S := S) (k := 2) .singleLayer .singleLayer hs hb hV hf hf hm hm hB hB hrule hpair hε
  refine ⟨m, hm0, n₀, fun n hn => ?_⟩
  obtain ⟨δ, hδ, hb1⟩ := hn₀ n hn
  refine ⟨δ, hδ, fun u e u0 u1 e0 e1 A B env asm trial test D Q' o F h => ?_⟩
  obtain ⟨M, m1, -, m3⟩ := hb1 u e u0 u1 e0 e1 A B env asm trial test D Q' o F h
  have h1 := hdef (fun i j => (values M).getD (i + fs.globalSize * j) 0) m3
  refine ⟨M, m1, h1, fun b => ?_⟩
  refine solvable_of_definite (A := fun i j => (values M).getD (i + fs.globalSize * j) 0) (fun v hv => ?_) b
  have h2 := h1 v
  rw [hv] at h2
  have h3 := sumSq_nonneg fs.globalSize v
  exact sumSq_eq_zero (by nlinarith)

/-- **C87.** The solutions: for every right-hand side `b` the system with the Galerkin matrix of the single layer operator
has exactly one solution `x`. For every tolerance there is a number of quadrature points from which on the solution of the
system that is computed is within the tolerance of `x`, also for a right-hand side `b'` that differs from `b` by little. -/
theorem C87_solution {BB : Basis ℝ ℝ}
    (hs : LibraryShape lev t s) (hb : Built s t g pt cl) (hV : HasCorners s g pt V)
    (hf : (fam t).Uniform t kk) {fs : FunctionSpace} (hm : FunctionSpace.new 0 1 g fam = .done fs)
    (hB : ContinuousBasis BB t (fam t).dim) (hi : IndependentBasis BB t (fam t).dim)
    (hrule : RulesConverge (refCell t) fun n => (Q n).regular t)
    (hpair : ∀ c ∈ g.entityIter 2, ∀ c' ∈ g.entityIter 2, c.Touches c' → ∀ a b, a < (fam t).dim → b < (fam t).dim →
      PairRulesConverge (refCell t) (fun n => (Q n).singular t t (connectivity c c'))
        (pairIntegrand slF laplaceGreen (vertexGeometry (cellFunctions t) V) (vertexGeometry (cellFunctions t) V) BB BB t
          c.localIndex c'.localIndex a b)) (b : Nat → ℝ) :
    ∃ x : Nat → ℝ, (∀ i, i < fs.globalSize → ((List.range fs.globalSize).map fun j =>
        doubleSum fs fs (pairIntegral slF laplaceGreen (vertexGeometry (cellFunctions t) V)
          (vertexGeometry (cellFunctions t) V) BB BB t) i j * x j).sum = b i) ∧
    ∀ ε > 0, ∃ n₀, ∀ n ≥ n₀, ∃ δ > 0, ∀ u e, 0 ≤ u → u ≤ δ → 0 ≤ e → e ≤ δ →
      ∀ (A : Arith ℝ u) (B : Arith ℝ u) env asm trial test D Q' o F,
      FloatAssembly A B e (shapeData laplaceGreen t V BB BB) S (Q n) g t fam fam slF slF 2 env asm trial test D Q' o F →
      ∃ M : List (Fl B), (∀ out, Assemble env asm trial test out ↔ out = some M) ∧
        ∀ b' : Nat → ℝ, (∀ i, i < fs.globalSize → |b' i - b i| ≤ δ) →
          (∃ y, Solves (values M) fs.globalSize y b') ∧
          ∀ y, Solves (values M) fs.globalSize y b' → ∀ i, i < fs.globalSize → |y i - x i| ≤ ε := by
  obtain ⟨m', hm', hdef'⟩ := C81_definite hs hb hV hf hm hB hi
  obtain ⟨⟨x, hx⟩, -⟩ := solvable_of_definite (n := fs.globalSize) (A := (doubleSum fs fs (pairIntegral slF laplaceGreen (vertexGeometry (cellFunctions t) V)
        (vertexGeometry (cellFunctions t) V) BB BB t)))
    (fun v hv => by
      have h2 := hdef' v
      rw [hv] at h2
      have h3 := sumSq_nonneg fs.globalSize v
      exact sumSq_eq_zero (by nlinarith)) b
  refine ⟨x, hx, fun ε hε => ?_⟩
  obtain ⟨ε₁, hε₁, m, hm0, hdef⟩ := C81_nearby hs hb hV hf hm hB hi
  have hX : 0 ≤ ((List.range fs.globalSize).map fun j => |x j|).sum := by
    rw [range_sum]
    exact Finset.sum_nonneg fun _ _ => abs_nonneg _
  obtain ⟨η, hη, hη1, hη2⟩ := small_tolerance fs.globalSize hX hm0 hε hε₁
  obtain ⟨n₀, hn₀⟩ := C87_laplace (S := S) (k := 2) .singleLayer .singleLayer hs hb hV hf hf hm hm hB hB hrule hpair hη
  refine ⟨n₀, fun n hn => ?_⟩
  obtain ⟨δ, hδ, hb1⟩ := hn₀ n hn
  refine ⟨min δ η, lt_min hδ hη, fun u e u0 u1 e0 e1 A B env asm trial test D Q' o F h => ?_⟩
  obtain ⟨M, m1, -, m3⟩ := hb1 u e u0 (u1.trans (min_le_left _ _)) e0 (e1.trans (min_le_left _ _)) A B env asm trial test D
    Q' o F h
  have h1 := hdef (fun i j => (values M).getD (i + fs.globalSize * j) 0) fun i j hi hj => (m3 i j hi hj).trans hη1
  refine ⟨M, m1, fun b' hb' => ⟨?_, fun y hy i hi => ?_⟩⟩
  · refine (solvable_of_definite (A := fun i j => (values M).getD (i + fs.globalSize * j) 0) (fun v hv => ?_) b').1
    have h2 := h1 v
    rw [hv] at h2
    have h3 := sumSq_nonneg fs.globalSize v
    exact sumSq_eq_zero (by nlinarith)
  · refine (solution_near (l := 0) hm0 (h1 _) (zero_mul _) hx (fun i hi => ?_)
      (fun i hi => (hb' i hi).trans (min_le_right _ _)) m3 i hi).trans hη2
    rw [add_zero]
    exact hy i hi

/-- **C87.** The hypersingular matrices that are computed: with enough quadrature points, digits and accuracy of the data the
form is at least `c vᵀ v` for vectors `v` that add up to 0, and for every right-hand side there are exactly one vector that
adds up to 0 and one constant such that the system is solved up to the constant. -/
theorem C87_hypersingular {BB : Basis ℝ ℝ}
    (hs : LibraryShape lev t s) (hb : Built s t g pt cl) (hV : HasCorners s g pt V)
    (hf : (fam t).Uniform t kk) {fs : FunctionSpace} (hm : FunctionSpace.new 0 1 g fam = .done fs)
    (hB : ContinuousBasis BB t (fam t).dim) (hi : GradientBasis BB t (fam t).dim)
    (hz : DerivativesSumZero BB t (fam t).dim) (hk : 0 < kk 0)
    (hrule : RulesConverge (refCell t) fun n => (Q n).regular t)
    (hpair : ∀ c ∈ g.entityIter 2, ∀ c' ∈ g.entityIter 2, c.Touches c' → ∀ a b, a < (fam t).dim → b < (fam t).dim →
      PairRulesConverge (refCell t) (fun n => (Q n).singular t t (connectivity c c'))
        (pairIntegrand curlCurlF laplaceGreen (vertexGeometry (cellFunctions t) V) (vertexGeometry (cellFunctions t) V) BB BB t
          c.localIndex c'.localIndex a b)) :
    ∃ c > 0, ∃ n₀, ∀ n ≥ n₀, ∃ δ > 0, ∀ u e, 0 ≤ u → u ≤ δ → 0 ≤ e → e ≤ δ →
      ∀ (A : Arith ℝ u) (B : Arith ℝ u) env asm trial test D Q' o F,
      FloatAssembly A B e (shapeData laplaceGreen t V BB BB) S (Q n) g t fam fam curlCurlF curlCurlAbsF 10 env asm trial test D Q' o F →
      ∃ M : List (Fl B), (∀ out, Assemble env asm trial test out ↔ out = some M) ∧
        (∀ v, ((List.range fs.globalSize).map v).sum = 0 →
          c * sumSq fs.globalSize v ≤ formOf (values M) fs.globalSize fs.globalSize v v) ∧
        ∀ b : Nat → ℝ, (∃ x l, SolvesUpTo (values M) fs.globalSize x l b) ∧
          ∀ x l y l', SolvesUpTo (values M) fs.globalSize x l b → SolvesUpTo (values M) fs.globalSize y l' b →
            (∀ i, i < fs.globalSize → x i = y i) ∧ l = l' := by
  obtain ⟨-, m, hm0, hdef⟩ := C82_kernel hs hb hV hf hk hm hB hi hz
  obtain ⟨n₀, hn₀⟩ := C87_laplace (S := S) (k := 10) .hypersingular .hypersingular hs hb hV hf hf hm hm hB hB hrule hpair
    (ε := m / (2 * (fs.globalSize + 1))) (by positivity)
  refine ⟨m / 2, by positivity, n₀, fun n hn => ?_⟩
  obtain ⟨δ, hδ, hb1⟩ := hn₀ n hn
  refine ⟨δ, hδ, fun u e u0 u1 e0 e1 A B env asm trial test D Q' o F h => ?_⟩
  obtain ⟨M, m1, -, m3⟩ := hb1 u e u0 u1 e0 e1 A B env asm trial test D Q' o F h
  have h1 : ∀ v, ((List.range fs.globalSize).map v).sum = 0 →
      m / 2 * sumSq fs.globalSize v ≤ bilinear (fun i j => (values M).getD (i + fs.globalSize * j) 0) fs.globalSize v v :=
    fun v hv => nearby_form hm0 m3 (hdef v hv)
  refine ⟨M, m1, h1, fun b => ?_⟩
  have hsol := solvable_upTo (A := fun i j => (values M).getD (i + fs.globalSize * j) 0) (shape_positive hs hb hf hk hm)
    (fun v hv0 hv => by
      have h2 := h1 v hv0
      rw [hv] at h2
      have h3 := sumSq_nonneg fs.globalSize v
      exact sumSq_eq_zero (by nlinarith)) b
  exact ⟨hsol.1, fun x l y l' hx hy => hsol.2 x y l l' hx.1 hy.1 hx.2 hy.2⟩

/-- **C87.** The solutions for the hypersingular operator: for every right-hand side that adds up to 0 the system with the
Galerkin matrix has exactly one solution `x` that adds up to 0. For every tolerance there is a number of quadrature points
from which on the solution of the system that is computed is within the tolerance of `x`. -/
theorem C87_hypersingular_solution {BB : Basis ℝ ℝ}
    (hs : LibraryShape lev t s) (hb : Built s t g pt cl) (hV : HasCorners s g pt V)
    (hf : (fam t).Uniform t kk) {fs : FunctionSpace} (hm : FunctionSpace.new 0 1 g fam = .done fs)
    (hB : ContinuousBasis BB t (fam t).dim) (hi : GradientBasis BB t (fam t).dim)
    (hz : DerivativesSumZero BB t (fam t).dim) (hk : 0 < kk 0)
    (hrule : RulesConverge (refCell t) fun n => (Q n).regular t)
    (hpair : ∀ c ∈ g.entityIter 2, ∀ c' ∈ g.entityIter 2, c.Touches c' → ∀ a b, a < (fam t).dim → b < (fam t).dim →
      PairRulesConverge (refCell t) (fun n => (Q n).singular t t (connectivity c c'))
        (pairIntegrand curlCurlF laplaceGreen (vertexGeometry (cellFunctions t) V) (vertexGeometry (cellFunctions t) V) BB BB t
          c.localIndex c'.localIndex a b)) (b : Nat → ℝ)
    (hsum : ((List.range fs.globalSize).map b).sum = 0) :
    ∃ x : Nat → ℝ, ((List.range fs.globalSize).map x).sum = 0 ∧
    (∀ i, i < fs.globalSize → ((List.range fs.globalSize).map fun j =>
        doubleSum fs fs (pairIntegral curlCurlF laplaceGreen (vertexGeometry (cellFunctions t) V)
          (vertexGeometry (cellFunctions t) V) BB BB t) i j * x j).sum = b i) ∧
    ∀ ε > 0, ∃ n₀, ∀ n ≥ n₀, ∃ δ > 0, ∀ u e, 0 ≤ u → u ≤ δ → 0 ≤ e → e ≤ δ →
      ∀ (A : Arith ℝ u) (B : Arith ℝ u) env asm trial test D Q' o F,
      FloatAssembly A B e (shapeData laplaceGreen t V BB BB) S (Q n) g t fam fam curlCurlF curlCurlAbsF 10 env asm trial test D Q' o F →
      ∃ M : List (Fl B), (∀ out, Assemble env asm trial test out ↔ out = some M) ∧
        ∀ b' : Nat → ℝ, (∀ i, i < fs.globalSize → |b' i - b i| ≤ δ) →
          (∃ y l, SolvesUpTo (values M) fs.globalSize y l b') ∧
          ∀ y l, SolvesUpTo (values M) fs.globalSize y l b' → ∀ i, i < fs.globalSize → |y i - x i| ≤ ε := by
  obtain ⟨-, m, hm0, hdef⟩ := C82_kernel hs hb hV hf hk hm hB hi hz
  have hpos := shape_positive hs hb hf hk hm
  obtain ⟨⟨x, l, hx0, hx⟩, -⟩ := solvable_upTo (A := doubleSum fs fs (pairIntegral curlCurlF laplaceGreen
      (vertexGeometry (cellFunctions t) V) (vertexGeometry (cellFunctions t) V) BB BB t)) hpos
    (fun v hv0 hv => by
      have h2 := hdef v hv0
      rw [hv] at h2
      have h3 := sumSq_nonneg fs.globalSize v
      exact sumSq_eq_zero (by nlinarith)) b
  have hl : l = 0 := by
    have h1 : ∑ i : Fin fs.globalSize, (((List.range fs.globalSize).map fun j => doubleSum fs fs (pairIntegral curlCurlF
        laplaceGreen (vertexGeometry (cellFunctions t) V) (vertexGeometry (cellFunctions t) V) BB BB t) i j * x j).sum + l) =
        0 := by
      rw [← hsum, range_sum _ b]
      exact Finset.sum_congr rfl fun i _ => hx i i.2
    rw [Finset.sum_add_distrib, Finset.sum_const, Finset.card_univ, Fintype.card_fin, nsmul_eq_mul] at h1
    have h2 : ∑ i : Fin fs.globalSize, ((List.range fs.globalSize).map fun j => doubleSum fs fs (pairIntegral curlCurlF
        laplaceGreen (vertexGeometry (cellFunctions t) V) (vertexGeometry (cellFunctions t) V) BB BB t) i j * x j).sum =
        0 := by
      simp only [range_sum]
      rw [Finset.sum_comm]
      refine Finset.sum_eq_zero fun j _ => ?_
      have := hyper_columns hs hb hV hf hm hB hz j
      rw [range_sum] at this
      rw [← Finset.sum_mul, this, zero_mul]
    rw [h2, zero_add] at h1
    exact (mul_eq_zero.mp h1).resolve_left (by positivity)
  subst hl
  refine ⟨x, hx0, fun i hi' => by simpa using hx i hi', fun ε hε => ?_⟩
  have hX : 0 ≤ ((List.range fs.globalSize).map fun j => |x j|).sum := by
    rw [range_sum]
    exact Finset.sum_nonneg fun _ _ => abs_nonneg _
  obtain ⟨η, hη, hη1, hη2⟩ := small_tolerance fs.globalSize hX (half_pos hm0) hε
    (show 0 < m / (2 * (fs.globalSize + 1)) by positivity)
  obtain ⟨n₀, hn₀⟩ := C87_laplace (S := S) (k := 10) .hypersingular .hypersingular hs hb hV hf hf hm hm hB hB hrule hpair hη
  refine ⟨n₀, fun n hn => ?_⟩
  obtain ⟨δ, hδ, hb1⟩ := hn₀ n hn
  refine ⟨min δ η, lt_min hδ hη, fun u e u0 u1 e0 e1 A B env asm trial test D Q' o F h => ?_⟩
  obtain ⟨M, m1, -, m3⟩ := hb1 u e u0 (u1.trans (min_le_left _ _)) e0 (e1.trans (min_le_left _ _)) A B env asm trial test D
    Q' o F h
  have h1 : ∀ v, ((List.range fs.globalSize).map v).sum = 0 →
      m / 2 * sumSq fs.globalSize v ≤ bilinear (fun i j => (values M).getD (i + fs.globalSize * j) 0) fs.globalSize v v :=
    fun v hv => nearby_form hm0 (fun i j hi hj => (m3 i j hi hj).trans hη1) (hdef v hv)
  refine ⟨M, m1, fun b' hb' => ⟨?_, fun y l' hy i hi' => ?_⟩⟩
  · exact (solvable_upTo (A := fun i j => (values M).getD (i + fs.globalSize * j) 0) hpos
      (fun v hv0 hv => by
        have h2 := h1 v hv0
        rw [hv] at h2
        have h3 := sumSq_nonneg fs.globalSize v
        exact sumSq_eq_zero (by nlinarith)) b').1
  · have hd : ((List.range fs.globalSize).map fun i => y i - x i).sum = 0 := by
      have a1 := hy.1
      rw [range_sum] at a1 hx0 ⊢
      rw [Finset.sum_sub_distrib, a1, hx0, sub_zero]
    exact (solution_near (l := l') (half_pos hm0) (h1 _ hd) (by rw [hd, mul_zero]) (fun i hi' => by simpa using hx i hi') hy.2
      (fun i hi' => (hb' i hi').trans (min_le_right _ _)) m3 i hi').trans hη2

theorem sum_near {N : Nat} {f h : Nat → ℝ} {ε : ℝ} (hε : 0 ≤ ε) (hf : ∀ j, j < N → |f j - h j| ≤ ε / (N + 1)) :
    |((List.range N).map f).sum - ((List.range N).map h).sum| ≤ ε := by
  rw [range_sum, range_sum, ← Finset.sum_sub_distrib]
  calc _ ≤ ∑ j : Fin N, |f j - h j| := Finset.abs_sum_le_sum_abs _ _
    _ ≤ ∑ _j : Fin N, ε / (N + 1) := Finset.sum_le_sum fun j _ => hf j j.2
    _ = N * (ε / (N + 1)) := by rw [Finset.sum_const, Finset.card_univ, Fintype.card_fin, nsmul_eq_mul]
    _ ≤ (N + 1) * (ε / (N + 1)) := by
        gcongr
        linarith
    _ = ε := by field_simp

/-- **C87.** Gauss' law for the double layer matrices that are computed on spheres: for every tolerance there is a number of
quadrature points from which on the row sums are within the tolerance of minus one half of the integrals of the test
functions, if the arithmetic and the data are accurate enough. -/
theorem C87_double_layer {BT BR : Basis ℝ ℝ}
    (hs : realSphere lev = some s) (hb : Built s .triangle g pt cl) (hV : HasCorners s g pt V)
    (hT : (famT .triangle).Uniform .triangle kT) (hR : (famR .triangle).Uniform .triangle kR) {fsT fsR : FunctionSpace}
    (hmT : FunctionSpace.new 0 1 g famT = .done fsT) (hmR : FunctionSpace.new 0 1 g famR = .done fsR)
    (hBT : ContinuousBasis BT .triangle (famT .triangle).dim) (hBR : ContinuousBasis BR .triangle (famR .triangle).dim)
    (hone : ValuesSumOne BR .triangle (famR .triangle).dim)
    (hrule : RulesConverge (refCell .triangle) fun n => (Q n).regular .triangle)
    (hpair : ∀ c ∈ g.entityIter 2, ∀ c' ∈ g.entityIter 2, c.Touches c' → ∀ a b, a < (famT .triangle).dim →
      b < (famR .triangle).dim →
      PairRulesConverge (refCell .triangle) (fun n => (Q n).singular .triangle .triangle (connectivity c c'))
        (pairIntegrand dlF laplaceGreen (vertexGeometry triangleFunctions V) (vertexGeometry triangleFunctions V) BT BR
          .triangle c.localIndex c'.localIndex a b)) {ε : ℝ} (hε : 0 < ε) :
    ∃ n₀, ∀ n ≥ n₀, ∃ δ > 0, ∀ u e, 0 ≤ u → u ≤ δ → 0 ≤ e → e ≤ δ →
      ∀ (A : Arith ℝ u) (B : Arith ℝ u) env asm trial test D Q' o F,
      FloatAssembly A B e (shapeData laplaceGreen .triangle V BT BR) S (Q n) g .triangle famT famR dlF dlF 5 env asm trial
        test D Q' o F →
      ∃ M : List (Fl B), (∀ out, Assemble env asm trial test out ↔ out = some M) ∧
        ∀ i, i < fsT.globalSize →
          |((List.range fsR.globalSize).map fun j => (values M).getD (i + fsT.globalSize * j) 0).sum -
            -(1 / 2) * fsT.surfaceIntegral BT (vertexGeometry triangleFunctions V) .triangle i| ≤ ε := by
  obtain ⟨n₀, hn₀⟩ := C87_laplace (S := S) (k := 5) .doubleLayer .doubleLayer (.inl ⟨hs, rfl⟩) hb hV hT hR hmT hmR hBT hBR
    hrule hpair (ε := ε / (fsR.globalSize + 1)) (by positivity)
  refine ⟨n₀, fun n hn => ?_⟩
  obtain ⟨δ, hδ, hb1⟩ := hn₀ n hn
  refine ⟨δ, hδ, fun u e u0 u1 e0 e1 A B env asm trial test D Q' o F h => ?_⟩
  obtain ⟨M, m1, -, m3⟩ := hb1 u e u0 u1 e0 e1 A B env asm trial test D Q' o F h
  refine ⟨M, m1, fun i hi => ?_⟩
  rw [← C84_rows hs hb hV hT hR hmT hmR hBT hBR hone i]
  exact sum_near hε.le fun j hj => m3 i j hi hj

/-- **C87.** The same for the columns of the adjoint double layer matrices. -/
theorem C87_adjoint {BT BR : Basis ℝ ℝ}
    (hs : realSphere lev = some s) (hb : Built s .triangle g pt cl) (hV : HasCorners s g pt V)
    (hT : (famT .triangle).Uniform .triangle kT) (hR : (famR .triangle).Uniform .triangle kR) {fsT fsR : FunctionSpace}
    (hmT : FunctionSpace.new 0 1 g famT = .done fsT) (hmR : FunctionSpace.new 0 1 g famR = .done fsR)
    (hBT : ContinuousBasis BT .triangle (famT .triangle).dim) (hBR : ContinuousBasis BR .triangle (famR .triangle).dim)
    (hone : ValuesSumOne BT .triangle (famT .triangle).dim)
    (hrule : RulesConverge (refCell .triangle) fun n => (Q n).regular .triangle)
    (hpair : ∀ c ∈ g.entityIter 2, ∀ c' ∈ g.entityIter 2, c.Touches c' → ∀ a b, a < (famT .triangle).dim →
      b < (famR .triangle).dim →
      PairRulesConverge (refCell .triangle) (fun n => (Q n).singular .triangle .triangle (connectivity c c'))
        (pairIntegrand adlF laplaceGreen (vertexGeometry triangleFunctions V) (vertexGeometry triangleFunctions V) BT BR
          .triangle c.localIndex c'.localIndex a b)) {ε : ℝ} (hε : 0 < ε) :
    ∃ n₀, ∀ n ≥ n₀, ∃ δ > 0, ∀ u e, 0 ≤ u → u ≤ δ → 0 ≤ e → e ≤ δ →
      ∀ (A : Arith ℝ u) (B : Arith ℝ u) env asm trial test D Q' o F,
      FloatAssembly A B e (shapeData laplaceGreen .triangle V BT BR) S (Q n) g .triangle famT famR adlF adlAbsF 5 env asm trial
        test D Q' o F →
      ∃ M : List (Fl B), (∀ out, Assemble env asm trial test out ↔ out = some M) ∧
        ∀ j, j < fsR.globalSize →
          |((List.range fsT.globalSize).map fun i => (values M).getD (i + fsT.globalSize * j) 0).sum -
            -(1 / 2) * fsR.surfaceIntegral BR (vertexGeometry triangleFunctions V) .triangle j| ≤ ε := by
  obtain ⟨n₀, hn₀⟩ := C87_laplace (S := S) (k := 5) .adjoint .adjointDoubleLayer (.inl ⟨hs, rfl⟩) hb hV hT hR hmT hmR hBT hBR
    hrule hpair (ε := ε / (fsT.globalSize + 1)) (by positivity)
  refine ⟨n₀, fun n hn => ?_⟩
  obtain ⟨δ, hδ, hb1⟩ := hn₀ n hn
  refine ⟨δ, hδ, fun u e u0 u1 e0 e1 A B env asm trial test D Q' o F h => ?_⟩
  obtain ⟨M, m1, -, m3⟩ := hb1 u e u0 u1 e0 e1 A B env asm trial test D Q' o F h
  refine ⟨M, m1, fun j hj => ?_⟩
  rw [← C84_columns hs hb hV hT hR hmT hmR hBT hBR hone j]
  exact sum_near hε.le fun i hi => m3 i j hi hj

end

/-! ### C87: the hypotheses can be met -/

namespace Examples

/-- Arithmetic with `p + 1` binary digits on a sphere, with a kernel and weights that are rounded to as many digits. -/
noncomputable def sphereEnv (rule : List (List ℝ × List ℝ × ℝ)) (p : Nat) : Env (Fl (digits p)) (Fl (digits p)) :=
  roundedEnv p (pairEnv rule)

theorem sphere_float {lev : Nat} {s : Shape ℝ} {g : Grid} {pt cl : Nat → Nat} {V : Nat → Nat → Nat → ℝ}
    {rule : List (List ℝ × List ℝ × ℝ)} {fs : FunctionSpace} {asm : Assembler (Fl (digits p)) (Fl (digits p))}
    {F' : MathIntegrand ℝ} {F : MathIntegrand (Fl (digits p))} {W : MathIntegrand ℝ} {k : Nat} (n : Nat)
    (hs : realSphere lev = some s) (hb : Built s .triangle g pt cl) (hV : HasCorners s g pt V)
    (hm : FunctionSpace.new 0 1 g p1 = .done fs) (hrule : ∀ q ∈ rule, q.1.length = 2 ∧ q.2.1.length = 2)
    (ho : OperatorWith (sphereEnv rule p).cast (latticeOptions n) (roundedGreen p) asm F)
    (hr : Rounded (digits p) (digits p) F F' W k) :
    FloatAssembly (digits p) (digits p) (2⁻¹ ^ (p + 1)) (shapeData laplaceGreen .triangle V realP1 realP1)
      (shapeData laplaceGreen .triangle V realP1 realP1).abs (pairRules rule n) g .triangle p1 p1 F' W k (sphereEnv rule p)
      asm (digitsSpace p fs V) (digitsSpace p fs V)
      { shapeData laplaceGreen .triangle V realP1 realP1 with kernel := roundedGreen p }
      (roundedRules p (pairRules rule n)) (latticeOptions n) F where
  cast := rfl
  testMade := hm
  trialMade := hm
  sameGeometry := rfl
  testGeometry := spaceOf_geometry fs p1 _ realP1
  trialGeometry := spaceOf_geometry fs p1 _ realP1
  testBasis := spaceOf_tabulate fs p1 _ realP1
  trialBasis := spaceOf_tabulate fs p1 _ realP1
  regular := rounded_regular (pair_regular rule n) p
  singular := rounded_singular (pair_singular hrule n) p
  operator := ho
  rounded := hr
  batch := by show 0 < 128; decide
  accurate := by
    have hg : fs.grid = g := (shape_space hb (p1_uniform .triangle (by decide)) hm).2
    have hj : ∀ c ∈ fs.grid.entityIter 2, ∀ x, (vertexGeometry triangleFunctions V).jdet c.localIndex x ≠ 0 := by
      rw [hg]
      exact fun c hc x => shape_jdet (.inl ⟨hs, rfl⟩) hb hV hc x
    exact {
      weights := rounded_weights p _ _
      testGeometry := fun c hc x x' hx => by
        obtain rfl := rounded_nodes hx
        exact withinAt_self (by positivity) _ _ _ (hj c hc x)
      trialGeometry := fun c hc x x' hx => by
        obtain rfl := rounded_nodes hx
        exact withinAt_self (by positivity) _ _ _ (hj c hc x)
      testBasis := fun x x' hx a i _ _ => by
        obtain rfl := rounded_nodes hx
        exact ⟨by simp only [sub_self, norm_zero]; exact mul_nonneg (by positivity) (norm_nonneg _), le_rfl⟩
      trialBasis := fun x x' hx a i _ _ => by
        obtain rfl := rounded_nodes hx
        exact ⟨by simp only [sub_self, norm_zero]; exact mul_nonneg (by positivity) (norm_nonneg _), le_rfl⟩
      kernel := fun c _ c' _ x y x' y' hx i _ => by
        obtain ⟨rfl, rfl⟩ := rounded_pairs hx
        exact ⟨roundTo_err p _, le_rfl⟩ }

/-- C87: on spheres of all levels the solutions of the single layer systems can be computed with any accuracy. -/
example (lev : Nat) : ∃ (rule : List (List ℝ × List ℝ × ℝ)) (V : Nat → Nat → Nat → ℝ) (fs : FunctionSpace),
    fs.globalSize = 4 ^ (lev + 1) + 2 ∧ ∀ b : Nat → ℝ, ∃ x : Nat → ℝ,
      (∀ i, i < fs.globalSize → ((List.range fs.globalSize).map fun j => doubleSum fs fs (pairIntegral slF laplaceGreen
        (vertexGeometry triangleFunctions V) (vertexGeometry triangleFunctions V) realP1 realP1 .triangle) i j * x j).sum =
          b i) ∧
      ∀ ε > 0, ∃ n₀, ∀ n ≥ n₀, ∃ p₀, ∀ p ≥ p₀, ∃ M : List (Fl (digits p)),
        (∀ out, Assemble (sphereEnv rule p) (Laplace.singleLayer (T := Fl (digits p)) (R := Fl (digits p))
          (kernelOf (roundedGreen p)) (latticeOptions n)) (digitsSpace p fs V) (digitsSpace p fs V) out ↔ out = some M) ∧
        (∃ y, Solves (values M) fs.globalSize y b) ∧
          ∀ y, Solves (values M) fs.globalSize y b → ∀ i, i < fs.globalSize → |y i - x i| ≤ ε := by
  obtain ⟨s, hs, -⟩ := C30_sizes (1 / 2 : ℝ) Real.sqrt lev
  have hl : LibraryShape lev .triangle s := .inl ⟨hs, rfl⟩
  obtain ⟨-, -, -, ⟨g, pt, cl, hb⟩, -⟩ := C47_conforming _ _ _ hl
  obtain ⟨⟨V, hV⟩, -⟩ := C79_surface hl hb
  have hu := p1_uniform .triangle (by decide)
  obtain ⟨fs, h1, h2⟩ := C46_sphere _ _ hs hb hu
  obtain ⟨rule, r1, r2⟩ := exact_rule (S := refCell .triangle)
    ((g.entityIter 2).flatMap fun c => (g.entityIter 2).flatMap fun c' => (List.range 3).flatMap fun a =>
      (List.range 3).map fun b => pairIntegrand slF laplaceGreen (vertexGeometry triangleFunctions V)
        (vertexGeometry triangleFunctions V) realP1 realP1 .triangle c.localIndex c'.localIndex a b) (by
      intro f hf
      simp only [List.mem_flatMap, List.mem_map, List.mem_range] at hf
      obtain ⟨c, hc, c', hc', a, ha, b, hb', rfl⟩ := hf
      exact shape_integrable laplaceGreen_greenLike .singleLayer hl hb hV (realP1_continuous .triangle)
        (realP1_continuous .triangle) hc hc' ha hb')
  refine ⟨rule, V, fs, by simpa using h2, fun b => ?_⟩
  obtain ⟨x, hx, hlim⟩ := C87_solution (S := (shapeData laplaceGreen .triangle V realP1 realP1).abs) (Q := pairRules rule)
    hl hb hV hu h1 (realP1_continuous _) realP1_independent triangleRule_converges
    (fun c hc c' hc' _ a b ha hb' => by
      have := r2 _ (List.mem_flatMap.mpr ⟨c, hc, List.mem_flatMap.mpr ⟨c', hc', List.mem_flatMap.mpr
        ⟨a, List.mem_range.mpr ha, List.mem_map.mpr ⟨b, List.mem_range.mpr hb', rfl⟩⟩⟩⟩)
      show Tendsto (fun _ => (rule.map fun p => p.2.2 * _).sum) atTop _
      exact tendsto_const_nhds.congr fun _ => this.symm) b
  refine ⟨x, hx, fun ε hε => ?_⟩
  obtain ⟨n₀, hn₀⟩ := hlim ε hε
  refine ⟨n₀, fun n hn => ?_⟩
  obtain ⟨δ, hδ, hd⟩ := hn₀ n hn
  obtain ⟨p₀, hp₀⟩ := exists_pow_lt_of_lt_one hδ (show (2⁻¹ : ℝ) < 1 by norm_num)
  have hle : ∀ p ≥ p₀, (2⁻¹ : ℝ) ^ (p + 1) ≤ δ := fun p hp =>
    (pow_le_pow_of_le_one (by norm_num) (by norm_num) (by omega)).trans hp₀.le
  refine ⟨p₀, fun p hp => ?_⟩
  obtain ⟨M, m1, m2⟩ := hd _ _ (by positivity) (hle p hp) (by positivity) (hle p hp) _ _ _ _ _ _ _ _ _ _
    (sphere_float (p := p) n hs hb hV h1 r1
      (.laplaceSingleLayer (R := Fl (digits p)) (T := Fl (digits p)) (kernelOf_computes (roundedGreen p) _)) .singleLayer)
  exact ⟨M, m1, m2 b fun i _ => by rw [sub_self, abs_zero]; exact hδ.le⟩

end Examples
end Bempp
