import Verif.Proofs.Decay
import Verif.Props.Linear
import Verif.Props.Vertices
/-
C107: entries for functions that are far apart decay with the distance.
-/
set_option linter.unusedSimpArgs false

namespace Bempp
open Examples

section
variable {𝕜 : Type} [RCLike 𝕜] {env : Env ℝ 𝕜} {o : Options} {trial test : Space ℝ 𝕜}
  {famT famR : CellType → ElementDofs} {GT GR : Geometry ℝ} {BT BR : Basis ℝ 𝕜} {Q : Quadrature ℝ} {t : CellType}
  {asm : Assembler ℝ 𝕜} {F : MathIntegrand 𝕜} {K : MathKernel ℝ 𝕜}

/-- Entries of a matrix whose integrand is bounded at distances of at least `d`. -/
theorem far_entries {k₁ k₂ : ℝ → ℝ} {s₁ r₁ s₂ r₂ : Nat → Nat → List ℝ → ℝ}
    (h : SpacePair env o trial test famT famR GT GR BT BR Q t) (hφ : env.cast = fun r : ℝ => (r : 𝕜))
    (ho : OperatorWith env.cast o K asm F) (hb : 0 < o.batchSize)
    (hF : ∀ d, 0 < d → ∀ c c' a b x y, d ≤ pointDist (GT.coords c x) (GR.coords c' y) →
      ‖F (K (GT.coords c x) (GR.coords c' y)) (fun i => BT t a i x)
      (fun i => BR t b i y) (GT.data (fun r : ℝ => (r : 𝕜)) c x) (GR.data (fun r : ℝ => (r : 𝕜)) c' y)‖ ≤
      k₁ d * (s₁ c a x * r₁ c' b y) + k₂ d * (s₂ c a x * r₂ c' b y)) :
    ∃ M : List 𝕜, (∀ out, Assemble env asm trial test out ↔ out = some M) ∧
      ∀ i j d, i < test.fs.globalSize → j < trial.fs.globalSize → 0 < d →
        FarApart d test.fs trial.fs GT GR Q t i j → ∃ x, M[i + test.fs.globalSize * j]? = some x ∧
          ‖x‖ ≤ k₁ d * (dofQuadrature test.fs GT Q t s₁ i * dofQuadrature trial.fs GR Q t r₁ j) +
            k₂ d * (dofQuadrature test.fs GT Q t s₂ i * dofQuadrature trial.fs GR Q t r₂ j) := by
  obtain ⟨M, m1, _, m3⟩ := C14_operators h ho hb
  refine ⟨M, m1, fun i j d hi hj hd hf => ⟨_, m3 i j hi hj, ?_⟩⟩
  rw [hφ]
  refine far_bound ?_ ?_ hf (hF d hd)
  · intro c hc
    have := h.testSpace.wf.types c hc
    rwa [h.testType, List.mem_singleton] at this
  · intro c hc
    have := h.trialSpace.wf.types c hc
    rwa [h.trialType, List.mem_singleton] at this

end

/-- **C107.** Entries of the Laplace single layer matrix for functions that are at least `d` apart are at most the product of
the integrals of the absolute values of the two functions divided by `4 π d`. -/
theorem C107_laplace_single_layer {env : Env ℝ ℝ} {o : Options} {trial test : Space ℝ ℝ}
    {famT famR : CellType → ElementDofs} {GT GR : Geometry ℝ} {BT BR : Basis ℝ ℝ} {Q : Quadrature ℝ} {t : CellType}
    {kernel : Kernel ℝ ℝ} (h : SpacePair env o trial test famT famR GT GR BT BR Q t) (hφ : env.cast = id)
    (hk : kernel.Computes .value laplaceGreen) (hb : 0 < o.batchSize) :
    ∃ M : List ℝ, (∀ out, Assemble env (Laplace.singleLayer kernel o) trial test out ↔ out = some M) ∧
      ∀ i j d, i < test.fs.globalSize → j < trial.fs.globalSize → 0 < d →
        FarApart d test.fs trial.fs GT GR Q t i j → ∃ x, M[i + test.fs.globalSize * j]? = some x ∧
          ‖x‖ ≤ dofMass test.fs GT BT Q t i * dofMass trial.fs GR BR Q t j / (4 * Real.pi * d) := by
  have hφ' : env.cast = fun r : ℝ => (r : ℝ) := hφ
  have ho : OperatorWith env.cast o laplaceGreen (Laplace.singleLayer kernel o) slF := .laplaceSingleLayer hk
  obtain ⟨M, m1, m2⟩ := far_entries (k₁ := fun d => 1 / (4 * Real.pi * d)) (k₂ := fun _ => 0)
    (s₁ := fun _ a x => ‖BT t a 0 x‖) (r₁ := fun _ a x => ‖BR t a 0 x‖)
    (s₂ := fun _ a x => ‖BT t a 0 x‖) (r₂ := fun _ a x => ‖BR t a 0 x‖) h hφ' ho hb (by
      intro d hd c c' a b x y hxy
      exact (by simpa using slF_far (laplace_far hd) c c' a b x y hxy _ _))
  refine ⟨M, m1, fun i j d hi hj hd hf => ?_⟩
  obtain ⟨x, x1, x2⟩ := m2 i j d hi hj hd hf
  refine ⟨x, x1, x2.trans (le_of_eq ?_)⟩
  simp only [dofMass, dofCurl]
  ring

/-- **C107.** Entries of the Laplace double layer matrix for functions that are at least `d` apart are at most the product of
the integrals of the absolute values of the two functions divided by `4 π d²`. -/
theorem C107_laplace_double_layer {env : Env ℝ ℝ} {o : Options} {trial test : Space ℝ ℝ}
    {famT famR : CellType → ElementDofs} {GT GR : Geometry ℝ} {BT BR : Basis ℝ ℝ} {Q : Quadrature ℝ} {t : CellType}
    {kernel : Kernel ℝ ℝ} (h : SpacePair env o trial test famT famR GT GR BT BR Q t) (hφ : env.cast = id)
    (hk : kernel.Computes .valueDeriv laplaceGreen) (hb : 0 < o.batchSize) (hn : UnitNormals GR) :
    ∃ M : List ℝ, (∀ out, Assemble env (Laplace.doubleLayer kernel o) trial test out ↔ out = some M) ∧
      ∀ i j d, i < test.fs.globalSize → j < trial.fs.globalSize → 0 < d →
        FarApart d test.fs trial.fs GT GR Q t i j → ∃ x, M[i + test.fs.globalSize * j]? = some x ∧
          ‖x‖ ≤ dofMass test.fs GT BT Q t i * dofMass trial.fs GR BR Q t j / (4 * Real.pi * d ^ 2) := by
  have hφ' : env.cast = fun r : ℝ => (r : ℝ) := hφ
  have ho : OperatorWith env.cast o laplaceGreen (Laplace.doubleLayer kernel o) dlF := .laplaceDoubleLayer hk
  obtain ⟨M, m1, m2⟩ := far_entries (k₁ := fun d => 1 / (4 * Real.pi * d ^ 2)) (k₂ := fun _ => 0)
    (s₁ := fun _ a x => ‖BT t a 0 x‖) (r₁ := fun _ a x => ‖BR t a 0 x‖)
    (s₂ := fun _ a x => ‖BT t a 0 x‖) (r₂ := fun _ a x => ‖BR t a 0 x‖) h hφ' ho hb (by
      intro d hd c c' a b x y hxy
      exact (by simpa using dlF_far (laplace_far hd) hn c c' a b x y hxy _))
  refine ⟨M, m1, fun i j d hi hj hd hf => ?_⟩
  obtain ⟨x, x1, x2⟩ := m2 i j d hi hj hd hf
  refine ⟨x, x1, x2.trans (le_of_eq ?_)⟩
  simp only [dofMass, dofCurl]
  ring

/-- **C107.** The same for the Laplace adjoint double layer matrix. -/
theorem C107_laplace_adjoint {env : Env ℝ ℝ} {o : Options} {trial test : Space ℝ ℝ}
    {famT famR : CellType → ElementDofs} {GT GR : Geometry ℝ} {BT BR : Basis ℝ ℝ} {Q : Quadrature ℝ} {t : CellType}
    {kernel : Kernel ℝ ℝ} (h : SpacePair env o trial test famT famR GT GR BT BR Q t) (hφ : env.cast = id)
    (hk : kernel.Computes .valueDeriv laplaceGreen) (hb : 0 < o.batchSize) (hn : UnitNormals GT) :
    ∃ M : List ℝ, (∀ out, Assemble env (Laplace.adjointDoubleLayer kernel o) trial test out ↔ out = some M) ∧
      ∀ i j d, i < test.fs.globalSize → j < trial.fs.globalSize → 0 < d →
        FarApart d test.fs trial.fs GT GR Q t i j → ∃ x, M[i + test.fs.globalSize * j]? = some x ∧
          ‖x‖ ≤ dofMass test.fs GT BT Q t i * dofMass trial.fs GR BR Q t j / (4 * Real.pi * d ^ 2) := by
  have hφ' : env.cast = fun r : ℝ => (r : ℝ) := hφ
  have ho : OperatorWith env.cast o laplaceGreen (Laplace.adjointDoubleLayer kernel o) adlF := .laplaceAdjoint hk
  obtain ⟨M, m1, m2⟩ := far_entries (k₁ := fun d => 1 / (4 * Real.pi * d ^ 2)) (k₂ := fun _ => 0)
    (s₁ := fun _ a x => ‖BT t a 0 x‖) (r₁ := fun _ a x => ‖BR t a 0 x‖)
    (s₂ := fun _ a x => ‖BT t a 0 x‖) (r₂ := fun _ a x => ‖BR t a 0 x‖) h hφ' ho hb (by
      intro d hd c c' a b x y hxy
      exact (by simpa using adlF_far (laplace_far hd) hn c c' a b x y hxy _))
  refine ⟨M, m1, fun i j d hi hj hd hf => ?_⟩
  obtain ⟨x, x1, x2⟩ := m2 i j d hi hj hd hf
  refine ⟨x, x1, x2.trans (le_of_eq ?_)⟩
  simp only [dofMass, dofCurl]
  ring

/-- **C107.** Entries of the Laplace hypersingular matrix for functions that are at least `d` apart are at most the product
of the integrals of the lengths of the surface curls of the two functions divided by `4 π d`. -/
theorem C107_laplace_hypersingular {env : Env ℝ ℝ} {o : Options} {trial test : Space ℝ ℝ}
    {famT famR : CellType → ElementDofs} {GT GR : Geometry ℝ} {BT BR : Basis ℝ ℝ} {Q : Quadrature ℝ} {t : CellType}
    {kernel : Kernel ℝ ℝ} (h : SpacePair env o trial test famT famR GT GR BT BR Q t) (hφ : env.cast = id)
    (hk : kernel.Computes .valueDeriv laplaceGreen) (hb : 0 < o.batchSize) :
    ∃ M : List ℝ, (∀ out, Assemble env (Laplace.hypersingular kernel o) trial test out ↔ out = some M) ∧
      ∀ i j d, i < test.fs.globalSize → j < trial.fs.globalSize → 0 < d →
        FarApart d test.fs trial.fs GT GR Q t i j → ∃ x, M[i + test.fs.globalSize * j]? = some x ∧
          ‖x‖ ≤ dofCurl test.fs GT BT Q t i * dofCurl trial.fs GR BR Q t j / (4 * Real.pi * d) := by
  have hφ' : env.cast = fun r : ℝ => (r : ℝ) := hφ
  have ho : OperatorWith env.cast o laplaceGreen (Laplace.hypersingular kernel o) curlCurlF := .laplaceHypersingular hk
  obtain ⟨M, m1, m2⟩ := far_entries (k₁ := fun d => 1 / (4 * Real.pi * d)) (k₂ := fun _ => 0)
    (s₁ := curlSize GT BT t) (r₁ := curlSize GR BR t)
    (s₂ := curlSize GT BT t) (r₂ := curlSize GR BR t) h hφ' ho hb (by
      intro d hd c c' a b x y hxy
      exact (by simpa using curlCurlF_far (laplace_far hd) c c' a b x y hxy))
  refine ⟨M, m1, fun i j d hi hj hd hf => ?_⟩
  obtain ⟨x, x1, x2⟩ := m2 i j d hi hj hd hf
  refine ⟨x, x1, x2.trans (le_of_eq ?_)⟩
  simp only [dofMass, dofCurl]
  ring

/-- **C107.** Entries of the Helmholtz single layer matrix for functions that are at least `d` apart are at most the product of
the integrals of the absolute values of the two functions divided by `4 π d`. -/
theorem C107_helmholtz_single_layer {env : Env ℝ ℂ} {o : Options} {trial test : Space ℝ ℂ}
    {famT famR : CellType → ElementDofs} {GT GR : Geometry ℝ} {BT BR : Basis ℝ ℂ} {Q : Quadrature ℝ} {t : CellType}
    {kernel : ℝ → Kernel ℝ ℂ} {w : ℝ} (h : SpacePair env o trial test famT famR GT GR BT BR Q t) (hφ : env.cast = Complex.ofReal)
    (hk : (kernel w).Computes .value (helmholtzGreen w)) (hb : 0 < o.batchSize) :
    ∃ M : List ℂ, (∀ out, Assemble env (Helmholtz.singleLayer kernel w o) trial test out ↔ out = some M) ∧
      ∀ i j d, i < test.fs.globalSize → j < trial.fs.globalSize → 0 < d →
        FarApart d test.fs trial.fs GT GR Q t i j → ∃ x, M[i + test.fs.globalSize * j]? = some x ∧
          ‖x‖ ≤ dofMass test.fs GT BT Q t i * dofMass trial.fs GR BR Q t j / (4 * Real.pi * d) := by
  have hφ' : env.cast = fun r : ℝ => (r : ℂ) := hφ
  have ho : OperatorWith env.cast o (helmholtzGreen w) (Helmholtz.singleLayer kernel w o) slF := .helmholtzSingleLayer hk
  obtain ⟨M, m1, m2⟩ := far_entries (k₁ := fun d => 1 / (4 * Real.pi * d)) (k₂ := fun _ => 0)
    (s₁ := fun _ a x => ‖BT t a 0 x‖) (r₁ := fun _ a x => ‖BR t a 0 x‖)
    (s₂ := fun _ a x => ‖BT t a 0 x‖) (r₂ := fun _ a x => ‖BR t a 0 x‖) h hφ' ho hb (by
      intro d hd c c' a b x y hxy
      exact (by simpa using slF_far (helmholtz_far w hd) c c' a b x y hxy _ _))
  refine ⟨M, m1, fun i j d hi hj hd hf => ?_⟩
  obtain ⟨x, x1, x2⟩ := m2 i j d hi hj hd hf
  refine ⟨x, x1, x2.trans (le_of_eq ?_)⟩
  simp only [dofMass, dofCurl]
  ring

/-- **C107.** Entries of the Helmholtz double layer matrix for functions that are at least `d` apart are at most the product of
the integrals of the absolute values of the two functions times `√(1 + k² d²) / (4 π d²)`. -/
theorem C107_helmholtz_double_layer {env : Env ℝ ℂ} {o : Options} {trial test : Space ℝ ℂ}
    {famT famR : CellType → ElementDofs} {GT GR : Geometry ℝ} {BT BR : Basis ℝ ℂ} {Q : Quadrature ℝ} {t : CellType}
    {kernel : ℝ → Kernel ℝ ℂ} {w : ℝ} (h : SpacePair env o trial test famT famR GT GR BT BR Q t) (hφ : env.cast = Complex.ofReal)
    (hk : (kernel w).Computes .valueDeriv (helmholtzGreen w)) (hb : 0 < o.batchSize) (hn : UnitNormals GR) :
    ∃ M : List ℂ, (∀ out, Assemble env (Helmholtz.doubleLayer kernel w o) trial test out ↔ out = some M) ∧
      ∀ i j d, i < test.fs.globalSize → j < trial.fs.globalSize → 0 < d →
        FarApart d test.fs trial.fs GT GR Q t i j → ∃ x, M[i + test.fs.globalSize * j]? = some x ∧
          ‖x‖ ≤ Real.sqrt (1 + (w * d) ^ 2) * (dofMass test.fs GT BT Q t i * dofMass trial.fs GR BR Q t j) / (4 * Real.pi * d ^ 2) := by
  have hφ' : env.cast = fun r : ℝ => (r : ℂ) := hφ
  have ho : OperatorWith env.cast o (helmholtzGreen w) (Helmholtz.doubleLayer kernel w o) dlF := .helmholtzDoubleLayer hk
  obtain ⟨M, m1, m2⟩ := far_entries (k₁ := fun d => Real.sqrt (1 + (w * d) ^ 2) / (4 * Real.pi * d ^ 2)) (k₂ := fun _ => 0)
    (s₁ := fun _ a x => ‖BT t a 0 x‖) (r₁ := fun _ a x => ‖BR t a 0 x‖)
    (s₂ := fun _ a x => ‖BT t a 0 x‖) (r₂ := fun _ a x => ‖BR t a 0 x‖) h hφ' ho hb (by
      intro d hd c c' a b x y hxy
      exact (by simpa using dlF_far (helmholtz_far w hd) hn c c' a b x y hxy _))
  refine ⟨M, m1, fun i j d hi hj hd hf => ?_⟩
  obtain ⟨x, x1, x2⟩ := m2 i j d hi hj hd hf
  refine ⟨x, x1, x2.trans (le_of_eq ?_)⟩
  simp only [dofMass, dofCurl]
  ring

/-- **C107.** The same for the Helmholtz adjoint double layer matrix. -/
theorem C107_helmholtz_adjoint {env : Env ℝ ℂ} {o : Options} {trial test : Space ℝ ℂ}
    {famT famR : CellType → ElementDofs} {GT GR : Geometry ℝ} {BT BR : Basis ℝ ℂ} {Q : Quadrature ℝ} {t : CellType}
    {kernel : ℝ → Kernel ℝ ℂ} {w : ℝ} (h : SpacePair env o trial test famT famR GT GR BT BR Q t) (hφ : env.cast = Complex.ofReal)
    (hk : (kernel w).Computes .valueDeriv (helmholtzGreen w)) (hb : 0 < o.batchSize) (hn : UnitNormals GT) :
    ∃ M : List ℂ, (∀ out, Assemble env (Helmholtz.adjointDoubleLayer kernel w o) trial test out ↔ out = some M) ∧
      ∀ i j d, i < test.fs.globalSize → j < trial.fs.globalSize → 0 < d →
        FarApart d test.fs trial.fs GT GR Q t i j → ∃ x, M[i + test.fs.globalSize * j]? = some x ∧
          ‖x‖ ≤ Real.sqrt (1 + (w * d) ^ 2) * (dofMass test.fs GT BT Q t i * dofMass trial.fs GR BR Q t j) / (4 * Real.pi * d ^ 2) := by
  have hφ' : env.cast = fun r : ℝ => (r : ℂ) := hφ
  have ho : OperatorWith env.cast o (helmholtzGreen w) (Helmholtz.adjointDoubleLayer kernel w o) adlF := .helmholtzAdjoint hk
  obtain ⟨M, m1, m2⟩ := far_entries (k₁ := fun d => Real.sqrt (1 + (w * d) ^ 2) / (4 * Real.pi * d ^ 2)) (k₂ := fun _ => 0)
    (s₁ := fun _ a x => ‖BT t a 0 x‖) (r₁ := fun _ a x => ‖BR t a 0 x‖)
    (s₂ := fun _ a x => ‖BT t a 0 x‖) (r₂ := fun _ a x => ‖BR t a 0 x‖) h hφ' ho hb (by
      intro d hd c c' a b x y hxy
      exact (by simpa using adlF_far (helmholtz_far w hd) hn c c' a b x y hxy _))
  refine ⟨M, m1, fun i j d hi hj hd hf => ?_⟩
  obtain ⟨x, x1, x2⟩ := m2 i j d hi hj hd hf
  refine ⟨x, x1, x2.trans (le_of_eq ?_)⟩
  simp only [dofMass, dofCurl]
  ring

/-- **C107.** For the Helmholtz hypersingular matrix the square of the wavenumber times the product of the integrals of the
absolute values is added to the product of the integrals of the lengths of the surface curls. -/
theorem C107_helmholtz_hypersingular {env : Env ℝ ℂ} {o : Options} {trial test : Space ℝ ℂ}
    {famT famR : CellType → ElementDofs} {GT GR : Geometry ℝ} {BT BR : Basis ℝ ℂ} {Q : Quadrature ℝ} {t : CellType}
    {kernel : ℝ → Kernel ℝ ℂ} {w : ℝ} (h : SpacePair env o trial test famT famR GT GR BT BR Q t) (hφ : env.cast = Complex.ofReal)
    (hk : (kernel w).Computes .valueDeriv (helmholtzGreen w)) (hb : 0 < o.batchSize) (hT : UnitNormals GT) (hR : UnitNormals GR) :
    ∃ M : List ℂ, (∀ out, Assemble env (Helmholtz.hypersingular env.cast kernel w o) trial test out ↔ out = some M) ∧
      ∀ i j d, i < test.fs.globalSize → j < trial.fs.globalSize → 0 < d →
        FarApart d test.fs trial.fs GT GR Q t i j → ∃ x, M[i + test.fs.globalSize * j]? = some x ∧
          ‖x‖ ≤ (dofCurl test.fs GT BT Q t i * dofCurl trial.fs GR BR Q t j +
            w ^ 2 * (dofMass test.fs GT BT Q t i * dofMass trial.fs GR BR Q t j)) / (4 * Real.pi * d) := by
  have hφ' : env.cast = fun r : ℝ => (r : ℂ) := hφ
  have ho : OperatorWith env.cast o (helmholtzGreen w) (Helmholtz.hypersingular env.cast kernel w o) (helmholtzHypF env.cast w) := .helmholtzHypersingular hk
  obtain ⟨M, m1, m2⟩ := far_entries (k₁ := fun d => 1 / (4 * Real.pi * d)) (k₂ := fun d => w ^ 2 * (1 / (4 * Real.pi * d)))
    (s₁ := curlSize GT BT t) (r₁ := curlSize GR BR t)
    (s₂ := fun _ a x => ‖BT t a 0 x‖) (r₂ := fun _ a x => ‖BR t a 0 x‖) h hφ' ho hb (by
      intro d hd c c' a b x y hxy
      rw [hφ']
      exact helmholtzHypF_far (helmholtz_far w hd) hT hR c c' a b x y hxy)
  refine ⟨M, m1, fun i j d hi hj hd hf => ?_⟩
  obtain ⟨x, x1, x2⟩ := m2 i j d hi hj hd hf
  refine ⟨x, x1, x2.trans (le_of_eq ?_)⟩
  simp only [dofMass, dofCurl]
  ring

/-- On surfaces given by vertices the normals are not longer than 1. -/
theorem C107_normals (N : ShapeFunctions) (V : Nat → Nat → Nat → ℝ) : UnitNormals (vertexGeometry N V) :=
  vertexGeometry_unit N V

namespace Examples

/-- An octahedron, a mirror image of the other one, at distance `s` along the first axis. -/
noncomputable def awayVertices (s : ℝ) (c k i : Nat) : ℝ := mirroredVertices 1 c k i + (if i = 0 then s else 0)

theorem octVertices_bounds (c k : Nat) : -1 ≤ octVertices c k 0 ∧ octVertices c k 0 ≤ 1 := by
  have : ∀ v, -1 ≤ octVertex v 0 ∧ octVertex v 0 ≤ 1 := by
    intro v
    match v with
    | 0 | 1 | 2 | 3 | 4 | 5 => decide +kernel
    | n + 6 => exact ⟨by show (-1 : Rat) ≤ 0; decide, by show (0 : Rat) ≤ 1; decide⟩
  obtain ⟨h1, h2⟩ := this (octCell c k)
  unfold octVertices
  exact ⟨by exact_mod_cast h1, by exact_mod_cast h2⟩

theorem oct_far {s : ℝ} {fs fs' : FunctionSpace} (hg : fs.grid = octahedron) (hg' : fs'.grid = octahedronTurned) (i j : Nat) :
    FarApart (s - 1) fs fs' (vertexGeometry triangleFunctions octVertices)
      (vertexGeometry triangleFunctions (awayVertices s)) realRules .triangle i j := by
  intro c _ c' _ _ _
  refine ⟨fun h => ?_, fun p hp q hq => ?_⟩
  · rw [hg, hg'] at h
    exact absurd h.1 (by decide)
  · have hw : ∀ p ∈ realRules.regular .triangle, ∃ x y : ℝ, p.1 = [x, y] ∧ 0 ≤ x ∧ 0 ≤ y ∧ x + y ≤ 1 := by
      intro p hp
      simp only [realRules, List.mem_cons, List.not_mem_nil, or_false] at hp
      rcases hp with rfl | rfl
      · exact ⟨_, _, rfl, by norm_num, by norm_num, by norm_num⟩
      · exact ⟨_, _, rfl, by norm_num, by norm_num, by norm_num⟩
    obtain ⟨x, y, e, x0, y0, xy⟩ := hw p hp
    obtain ⟨x', y', e', x0', y0', xy'⟩ := hw q hq
    rw [e, e']
    refine le_trans ?_ (Real.le_sqrt_of_sq_le (x := pointDiff
      ((vertexGeometry triangleFunctions (awayVertices s)).coords c'.localIndex [x', y'])
      ((vertexGeometry triangleFunctions octVertices).coords c.localIndex [x, y]) 0) ?_)
    · have b := fun k => octVertices_bounds c.localIndex k
      have b' := fun k => octVertices_bounds (7 - c'.localIndex) k
      simp only [pointDiff, Geometry.coords, vertexGeometry, triangleFunctions, awayVertices, mirroredVertices, matVec, mirror,
        List.range_succ, List.range_zero, List.map_append, List.map_cons, List.map_nil, List.sum_append, List.sum_cons,
        List.sum_nil, List.getD_cons_zero, List.getD_cons_succ, List.nil_append, List.cons_append, List.singleton_append,
        if_true]
      norm_num
      nlinarith [b 0, b 1, b 2, b' 0, b' 1, b' 2, mul_le_mul_of_nonneg_left (b 0).2 (sub_nonneg.2 xy),
        mul_le_mul_of_nonneg_left (b 1).2 x0, mul_le_mul_of_nonneg_left (b 2).2 y0,
        mul_le_mul_of_nonneg_left (b' 0).2 (sub_nonneg.2 xy'), mul_le_mul_of_nonneg_left (b' 1).2 x0',
        mul_le_mul_of_nonneg_left (b' 2).2 y0']
    · have : ∀ u v : List ℝ, pointDiff u v 0 ^ 2 = pointDiff v u 0 ^ 2 := by
        intro u v; simp only [pointDiff]; ring
      rw [this]
      nlinarith [sq_nonneg (pointDiff ((vertexGeometry triangleFunctions octVertices).coords c.localIndex [x, y])
        ((vertexGeometry triangleFunctions (awayVertices s)).coords c'.localIndex [x', y']) 1),
        sq_nonneg (pointDiff ((vertexGeometry triangleFunctions octVertices).coords c.localIndex [x, y])
        ((vertexGeometry triangleFunctions (awayVertices s)).coords c'.localIndex [x', y']) 2)]

theorem realPair_two {fs fs' : FunctionSpace} (h : SerialSpace fs p1) (h' : SerialSpace fs' p1) (G G' : Geometry ℝ)
    (hg : fs.grid = octahedron) (hg' : fs'.grid = octahedronTurned) :
    SpacePair realEnv smallOptions (Examples.spaceOf fs' p1 G' realP1) (Examples.spaceOf fs p1 G realP1) p1 p1
      G G' realP1 realP1 realRules .triangle :=
  have a := realPair h G (.inl hg)
  have b := realPair h' G' (.inr hg')
  { testSpace := a.testSpace, trialSpace := b.trialSpace, testType := a.testType, trialType := b.trialType,
    testSurface := a.testSurface, trialSurface := b.trialSurface, testGeometry := a.testGeometry,
    trialGeometry := b.trialGeometry, testBasis := a.testBasis, trialBasis := b.trialBasis, rule := a.rule,
    same := fun h => by
      have h : fs.grid.addr = fs'.grid.addr := h
      rw [hg, hg'] at h
      exact absurd h (by decide) }

/-- The hypotheses can be met: the entries of the double layer matrix for two octahedra decay with the square of their
distance. -/
example (s : ℝ) (hs : 1 < s) : ∃ fs fs', SerialSpace fs p1 ∧ SerialSpace fs' p1 ∧ fs.grid = octahedron ∧
    fs'.grid = octahedronTurned ∧ ∃ M : List ℝ,
      (∀ out, Assemble realEnv (Laplace.doubleLayer (kernelOf laplaceGreen) smallOptions)
        (Examples.spaceOf fs' p1 (vertexGeometry triangleFunctions (awayVertices s)) realP1)
        (Examples.spaceOf fs p1 (vertexGeometry triangleFunctions octVertices) realP1) out ↔ out = some M) ∧
      ∀ i j, i < fs.globalSize → j < fs'.globalSize → ∃ x, M[i + fs.globalSize * j]? = some x ∧
        ‖x‖ ≤ dofMass fs (vertexGeometry triangleFunctions octVertices) realP1 realRules .triangle i *
          dofMass fs' (vertexGeometry triangleFunctions (awayVertices s)) realP1 realRules .triangle j /
            (4 * Real.pi * (s - 1) ^ 2) := by
  obtain ⟨fs, h, hg⟩ := octSpace
  obtain ⟨fs', h', hg'⟩ := octTurnedSpace
  obtain ⟨M, m1, m2⟩ := C107_laplace_double_layer (realPair_two h h' (vertexGeometry triangleFunctions octVertices)
    (vertexGeometry triangleFunctions (awayVertices s)) hg hg') rfl (kernelOf_computes laplaceGreen _) (by decide)
    (C107_normals _ _)
  exact ⟨fs, fs', h, h', hg, hg', M, m1, fun i j hi hj => m2 i j (s - 1) hi hj (by linarith) (oct_far hg hg' i j)⟩

end Examples

end Bempp
