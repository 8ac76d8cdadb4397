import Verif.Proofs.Frequency
import Verif.Props.Decay
/-
C108: Helmholtz matrices depend continuously on the wavenumber.
-/
set_option linter.unusedSimpArgs false

namespace Bempp
open Examples

section
variable {env : Env ℝ ℂ} {o : Options} {trial test : Space ℝ ℂ}
  {famT famR : CellType → ElementDofs} {GT GR : Geometry ℝ} {BT BR : Basis ℝ ℂ} {Q : Quadrature ℝ} {t : CellType}
  {kernel : ℝ → Kernel ℝ ℂ}

/-- The matrices for all wavenumbers. -/
theorem wavenumber_entries {asm : ℝ → Assembler ℝ ℂ} {F : ℝ → MathIntegrand ℂ}
    (h : SpacePair env o trial test famT famR GT GR BT BR Q t) (hφ : env.cast = Complex.ofReal)
    (ho : ∀ w, OperatorWith env.cast o (helmholtzGreen w) (asm w) (F w)) (hb : 0 < o.batchSize) :
    ∃ M : ℝ → List ℂ, (∀ w out, Assemble env (asm w) trial test out ↔ out = some (M w)) ∧
      ∀ w i j, i < test.fs.globalSize → j < trial.fs.globalSize → (M w)[i + test.fs.globalSize * j]? =
        some (doubleSum test.fs trial.fs (cellPairValue Complex.ofReal (F w) (helmholtzGreen w) GT GR BT BR Q
          test.fs trial.fs) i j) := by
  have := fun w => C14_operators h (ho w) hb
  choose M m using this
  refine ⟨M, fun w => (m w).1, fun w i j hi hj => ?_⟩
  have := (m w).2.2 i j hi hj
  rwa [hφ] at this

/-- **C108.** The entries of the Helmholtz single layer matrices for the wavenumbers `k` and `k'` differ by at most
`|k - k'| / (4 π)` times the double integral of the absolute value of the product of the two functions. -/
theorem C108_single_layer (h : SpacePair env o trial test famT famR GT GR BT BR Q t) (hφ : env.cast = Complex.ofReal)
    (hk : ∀ w, (kernel w).Computes .value (helmholtzGreen w)) (hb : 0 < o.batchSize) :
    ∃ M : ℝ → List ℂ,
      (∀ w out, Assemble env (Helmholtz.singleLayer kernel w o) trial test out ↔ out = some (M w)) ∧
      ∀ w w' i j, i < test.fs.globalSize → j < trial.fs.globalSize →
        ∃ x x', (M w)[i + test.fs.globalSize * j]? = some x ∧ (M w')[i + test.fs.globalSize * j]? = some x' ∧
          ‖x - x'‖ ≤ |w - w'| / (4 * Real.pi) * pairMass GT GR BT BR Q test.fs trial.fs i j := by
  have ho : ∀ w, OperatorWith env.cast o (helmholtzGreen w) (Helmholtz.singleLayer kernel w o) (slF) := fun w => .helmholtzSingleLayer (hk w)
  obtain ⟨M, m1, m2⟩ := wavenumber_entries h hφ ho hb
  refine ⟨M, m1, fun w w' i j hi hj => ⟨_, _, m2 w i j hi hj, m2 w' i j hi hj, ?_⟩⟩
  refine (near_bound (k₁ := |w - w'| / (4 * Real.pi)) (k₂ := 0) (k₃ := 0)
    (s₁ := fun c c' a b x y => ‖BT c.entityType a 0 x‖ * ‖BR c'.entityType b 0 y‖)
    (s₂ := fun c c' a b x y => ‖BT c.entityType a 0 x‖ * ‖BR c'.entityType b 0 y‖)
    (s₃ := fun c c' a b x y => ‖BT c.entityType a 0 x‖ * ‖BR c'.entityType b 0 y‖) i j ?_).trans (le_of_eq ?_)
  · intro c c' a b x y
    exact (by simpa using slF_near (helmholtz_near w w') _ _ _ _ _ _)
  · simp only [pairMass, pairCurl, pairPotential]
    ring

/-- **C108.** The entries of the Helmholtz double layer matrices differ by at most `|k² - k'²| / (8 π)` times that double integral
if `k` and `k'` are not negative. -/
theorem C108_double_layer (h : SpacePair env o trial test famT famR GT GR BT BR Q t) (hφ : env.cast = Complex.ofReal)
    (hk : ∀ w, (kernel w).Computes .valueDeriv (helmholtzGreen w)) (hb : 0 < o.batchSize) (hn : UnitNormals GR) :
    ∃ M : ℝ → List ℂ,
      (∀ w out, Assemble env (Helmholtz.doubleLayer kernel w o) trial test out ↔ out = some (M w)) ∧
      ∀ w w' i j, i < test.fs.globalSize → j < trial.fs.globalSize →
        ∃ x x', (M w)[i + test.fs.globalSize * j]? = some x ∧ (M w')[i + test.fs.globalSize * j]? = some x' ∧
          ‖x - x'‖ ≤ |w * |w| - w' * (|w'|)| / (8 * Real.pi) * pairMass GT GR BT BR Q test.fs trial.fs i j := by
  have ho : ∀ w, OperatorWith env.cast o (helmholtzGreen w) (Helmholtz.doubleLayer kernel w o) (dlF) := fun w => .helmholtzDoubleLayer (hk w)
  obtain ⟨M, m1, m2⟩ := wavenumber_entries h hφ ho hb
  refine ⟨M, m1, fun w w' i j hi hj => ⟨_, _, m2 w i j hi hj, m2 w' i j hi hj, ?_⟩⟩
  refine (near_bound (k₁ := |w * |w| - w' * (|w'|)| / (8 * Real.pi)) (k₂ := 0) (k₃ := 0)
    (s₁ := fun c c' a b x y => ‖BT c.entityType a 0 x‖ * ‖BR c'.entityType b 0 y‖)
    (s₂ := fun c c' a b x y => ‖BT c.entityType a 0 x‖ * ‖BR c'.entityType b 0 y‖)
    (s₃ := fun c c' a b x y => ‖BT c.entityType a 0 x‖ * ‖BR c'.entityType b 0 y‖) i j ?_).trans (le_of_eq ?_)
  · intro c c' a b x y
    exact (by simpa using dlF_near (helmholtz_near w w') hn _ _ _ _ _ _ _)
  · simp only [pairMass, pairCurl, pairPotential]
    ring

/-- **C108.** The same for the Helmholtz adjoint double layer matrices. -/
theorem C108_adjoint (h : SpacePair env o trial test famT famR GT GR BT BR Q t) (hφ : env.cast = Complex.ofReal)
    (hk : ∀ w, (kernel w).Computes .valueDeriv (helmholtzGreen w)) (hb : 0 < o.batchSize) (hn : UnitNormals GT) :
    ∃ M : ℝ → List ℂ,
      (∀ w out, Assemble env (Helmholtz.adjointDoubleLayer kernel w o) trial test out ↔ out = some (M w)) ∧
      ∀ w w' i j, i < test.fs.globalSize → j < trial.fs.globalSize →
        ∃ x x', (M w)[i + test.fs.globalSize * j]? = some x ∧ (M w')[i + test.fs.globalSize * j]? = some x' ∧
          ‖x - x'‖ ≤ |w * |w| - w' * (|w'|)| / (8 * Real.pi) * pairMass GT GR BT BR Q test.fs trial.fs i j := by
  have ho : ∀ w, OperatorWith env.cast o (helmholtzGreen w) (Helmholtz.adjointDoubleLayer kernel w o) (adlF) := fun w => .helmholtzAdjoint (hk w)
  obtain ⟨M, m1, m2⟩ := wavenumber_entries h hφ ho hb
  refine ⟨M, m1, fun w w' i j hi hj => ⟨_, _, m2 w i j hi hj, m2 w' i j hi hj, ?_⟩⟩
  refine (near_bound (k₁ := |w * |w| - w' * (|w'|)| / (8 * Real.pi)) (k₂ := 0) (k₃ := 0)
    (s₁ := fun c c' a b x y => ‖BT c.entityType a 0 x‖ * ‖BR c'.entityType b 0 y‖)
    (s₂ := fun c c' a b x y => ‖BT c.entityType a 0 x‖ * ‖BR c'.entityType b 0 y‖)
    (s₃ := fun c c' a b x y => ‖BT c.entityType a 0 x‖ * ‖BR c'.entityType b 0 y‖) i j ?_).trans (le_of_eq ?_)
  · intro c c' a b x y
    exact (by simpa using adlF_near (helmholtz_near w w') hn _ _ _ _ _ _ _)
  · simp only [pairMass, pairCurl, pairPotential]
    ring

/-- **C108.** For the Helmholtz hypersingular matrices the difference is at most `|k - k'| / (4 π)` times the sum of the double
integral of the product of the lengths of the surface curls and `k²` times that of the absolute value of the product, plus
`|k² - k'²|` times the double integral of the absolute value of the product of the functions and the Laplace kernel. -/
theorem C108_hypersingular (h : SpacePair env o trial test famT famR GT GR BT BR Q t) (hφ : env.cast = Complex.ofReal)
    (hk : ∀ w, (kernel w).Computes .valueDeriv (helmholtzGreen w)) (hb : 0 < o.batchSize) (hT : UnitNormals GT) (hR : UnitNormals GR) :
    ∃ M : ℝ → List ℂ,
      (∀ w out, Assemble env (Helmholtz.hypersingular env.cast kernel w o) trial test out ↔ out = some (M w)) ∧
      ∀ w w' i j, i < test.fs.globalSize → j < trial.fs.globalSize →
        ∃ x x', (M w)[i + test.fs.globalSize * j]? = some x ∧ (M w')[i + test.fs.globalSize * j]? = some x' ∧
          ‖x - x'‖ ≤ |w - w'| / (4 * Real.pi) * (pairCurl GT GR BT BR Q test.fs trial.fs i j +
            w ^ 2 * pairMass GT GR BT BR Q test.fs trial.fs i j) + |w ^ 2 - w' ^ 2| * pairPotential GT GR BT BR Q test.fs trial.fs i j := by
  have ho : ∀ w, OperatorWith env.cast o (helmholtzGreen w) (Helmholtz.hypersingular env.cast kernel w o) (helmholtzHypF env.cast w) := fun w => .helmholtzHypersingular (hk w)
  obtain ⟨M, m1, m2⟩ := wavenumber_entries h hφ ho hb
  refine ⟨M, m1, fun w w' i j hi hj => ⟨_, _, m2 w i j hi hj, m2 w' i j hi hj, ?_⟩⟩
  refine (near_bound (k₁ := |w - w'| / (4 * Real.pi)) (k₂ := w ^ 2 * (|w - w'| / (4 * Real.pi))) (k₃ := |w ^ 2 - w' ^ 2|)
    (s₁ := fun c c' a b x y => curlSize GT BT c.entityType c.localIndex a x * curlSize GR BR c'.entityType c'.localIndex b y)
    (s₂ := fun c c' a b x y => ‖BT c.entityType a 0 x‖ * ‖BR c'.entityType b 0 y‖)
    (s₃ := fun c c' a b x y => laplaceGreen (GT.coords c.localIndex x) (GR.coords c'.localIndex y) 0 *
      (‖BT c.entityType a 0 x‖ * ‖BR c'.entityType b 0 y‖)) i j ?_).trans (le_of_eq ?_)
  · intro c c' a b x y
    rw [hφ]
    exact hypF_near w w' hT hR _ _ _ _ _ _ _ _ _ _ _ _
  · simp only [pairMass, pairCurl, pairPotential]
    ring

/-- **C108.** Every entry of each Helmholtz matrix is a continuous function of the wavenumber. -/
theorem C108_continuous (h : SpacePair env o trial test famT famR GT GR BT BR Q t) (hφ : env.cast = Complex.ofReal)
    (hk : ∀ w, (kernel w).Computes .value (helmholtzGreen w)) (hk' : ∀ w, (kernel w).Computes .valueDeriv (helmholtzGreen w))
    (hb : 0 < o.batchSize) (hT : UnitNormals GT) (hR : UnitNormals GR) (asm : ℝ → Assembler ℝ ℂ)
    (hasm : asm ∈ [fun w => Helmholtz.singleLayer kernel w o, fun w => Helmholtz.doubleLayer kernel w o,
      fun w => Helmholtz.adjointDoubleLayer kernel w o, fun w => Helmholtz.hypersingular env.cast kernel w o]) :
    ∃ M : ℝ → List ℂ, (∀ w out, Assemble env (asm w) trial test out ↔ out = some (M w)) ∧
      (∀ w, (M w).length = test.fs.globalSize * trial.fs.globalSize) ∧
      ∀ i j, i < test.fs.globalSize → j < trial.fs.globalSize →
        Continuous fun w => (M w)[i + test.fs.globalSize * j]?.getD 0 := by
  have lim : ∀ (M : ℝ → List ℂ) (n : Nat) (e : ℝ → ℝ → ℝ), (∀ w', Continuous fun w => e w w') → (∀ w, e w w = 0) →
      (∀ w w', ∃ x x', (M w)[n]? = some x ∧ (M w')[n]? = some x' ∧ ‖x - x'‖ ≤ e w w') →
      Continuous fun w => (M w)[n]?.getD 0 := by
    intro M n e hc h0 hM
    rw [continuous_iff_continuousAt]
    intro w'
    have h1 : Filter.Tendsto (fun w => e w w') (nhds w') (nhds 0) := by
      have := (hc w').tendsto w'
      rwa [h0] at this
    show Filter.Tendsto _ _ _
    rw [tendsto_iff_norm_sub_tendsto_zero]
    refine squeeze_zero (fun _ => norm_nonneg _) (fun w => ?_) h1
    obtain ⟨x, x', e1, e2, e3⟩ := hM w w'
    show ‖(M w)[n]?.getD 0 - (M w')[n]?.getD 0‖ ≤ _
    rw [e1, e2]
    exact e3
  have len : ∀ {asm : ℝ → Assembler ℝ ℂ} {F : ℝ → MathIntegrand ℂ} {M : ℝ → List ℂ},
      (∀ w, OperatorWith env.cast o (helmholtzGreen w) (asm w) (F w)) →
      (∀ w out, Assemble env (asm w) trial test out ↔ out = some (M w)) →
      ∀ w, (M w).length = test.fs.globalSize * trial.fs.globalSize := by
    intro asm F M ho hM w
    obtain ⟨N, n1, n2, _⟩ := C14_operators h (ho w) hb
    have := (hM w _).1 ((n1 _).2 rfl)
    rw [Option.some.injEq] at this
    rw [← this, n2]
  simp only [List.mem_cons, List.not_mem_nil, or_false] at hasm
  rcases hasm with rfl | rfl | rfl | rfl
  · obtain ⟨M, m1, m2⟩ := C108_single_layer h hφ hk hb
    refine ⟨M, m1, len (fun w => .helmholtzSingleLayer (hk w)) m1, fun i j hi hj => lim M _ _ ?_ ?_ fun w w' => m2 w w' i j hi hj⟩
    · intro w'; fun_prop
    · intro w; simp
  · obtain ⟨M, m1, m2⟩ := C108_double_layer h hφ hk' hb hR
    refine ⟨M, m1, len (fun w => .helmholtzDoubleLayer (hk' w)) m1, fun i j hi hj => lim M _ _ ?_ ?_ fun w w' => m2 w w' i j hi hj⟩
    · intro w'; fun_prop
    · intro w; simp
  · obtain ⟨M, m1, m2⟩ := C108_adjoint h hφ hk' hb hT
    refine ⟨M, m1, len (fun w => .helmholtzAdjoint (hk' w)) m1, fun i j hi hj => lim M _ _ ?_ ?_ fun w w' => m2 w w' i j hi hj⟩
    · intro w'; fun_prop
    · intro w; simp
  · obtain ⟨M, m1, m2⟩ := C108_hypersingular h hφ hk' hb hT hR
    refine ⟨M, m1, len (fun w => .helmholtzHypersingular (hk' w)) m1, fun i j hi hj => lim M _ _ ?_ ?_ fun w w' => m2 w w' i j hi hj⟩
    · intro w'; fun_prop
    · intro w; simp

end


/-! ### Small wavenumbers -/

/-- An integrand that is computed with real numbers has the same value as with complex numbers. -/
theorem cellPairValue_real {F : MathIntegrand ℝ} {F' : MathIntegrand ℂ} {K : MathKernel ℝ ℝ} {GT GR : Geometry ℝ}
    {BT BR : Basis ℝ ℝ} {Q : Quadrature ℝ} {test trial : FunctionSpace}
    (h : ∀ K U V c x c' y, ((F K U V (GT.data id c x) (GR.data id c' y) : ℝ) : ℂ) = F' (fun i => (K i : ℂ)) (fun i => (U i : ℂ))
      (fun i => (V i : ℂ)) (GT.data Complex.ofReal c x) (GR.data Complex.ofReal c' y)) (i j : Nat) :
    ((doubleSum test trial (cellPairValue id F K GT GR BT BR Q test trial) i j : ℝ) : ℂ) =
      doubleSum test trial (cellPairValue Complex.ofReal F' (fun x y i => (K x y i : ℂ)) GT GR
        (fun t a d x => (BT t a d x : ℂ)) (fun t a d x => (BR t a d x : ℂ)) Q test trial) i j := by
  rw [doubleSum_hom Complex.ofReal Complex.ofReal_zero Complex.ofReal_add]
  congr 1
  funext c c' a b
  unfold cellPairValue
  split
  · rw [singularValue_eq, singularValue_eq, sum_hom Complex.ofReal Complex.ofReal_zero Complex.ofReal_add]
    congr 2; funext p
    unfold singularTerm
    rw [Complex.ofReal_mul, h]
    rfl
  · rw [regularValue_eq, regularValue_eq, sum_hom Complex.ofReal Complex.ofReal_zero Complex.ofReal_add]
    congr 2; funext p
    rw [sum_hom Complex.ofReal Complex.ofReal_zero Complex.ofReal_add]
    congr 2; funext q
    unfold regularTerm
    rw [Complex.ofReal_mul, Complex.ofReal_mul, h]
    rfl

section
variable {env : Env ℝ ℝ} {envC : Env ℝ ℂ} {o : Options} {trial test : Space ℝ ℝ} {trialC testC : Space ℝ ℂ}
  {famT famR : CellType → ElementDofs} {GT GR : Geometry ℝ} {BT BR : Basis ℝ ℝ} {Q : Quadrature ℝ} {t : CellType}
  {kernel : Kernel ℝ ℝ} {kernelC : ℝ → Kernel ℝ ℂ}

/-- **C108.** For small wavenumbers `k`, the entries of the Helmholtz single layer matrix differ from those of the Laplace
single layer matrix by at most `k / (4 π)` times the double integral of the absolute value of the product of the two functions. -/
theorem C108_small_single_layer (h : SpacePair env o trial test famT famR GT GR BT BR Q t) (hφ : env.cast = id)
    (hC : SpacePair envC o trialC testC famT famR GT GR (fun t a d x => (BT t a d x : ℂ)) (fun t a d x => (BR t a d x : ℂ)) Q t)
    (hφC : envC.cast = Complex.ofReal) (eT : testC.fs = test.fs) (eR : trialC.fs = trial.fs)
    (hk : kernel.Computes .value laplaceGreen) (hkC : ∀ w, (kernelC w).Computes .value (helmholtzGreen w))
    (hb : 0 < o.batchSize) (w : ℝ) :
    ∃ (M : List ℝ) (N : List ℂ), (∀ out, Assemble env (Laplace.singleLayer kernel o) trial test out ↔ out = some M) ∧
      (∀ out, Assemble envC (Helmholtz.singleLayer kernelC w o) trialC testC out ↔ out = some N) ∧
      ∀ i j, i < test.fs.globalSize → j < trial.fs.globalSize → ∃ x y, M[i + test.fs.globalSize * j]? = some x ∧
        N[i + test.fs.globalSize * j]? = some y ∧ ‖y - (x : ℂ)‖ ≤ |w| / (4 * Real.pi) * pairMass GT GR (fun t a d x => (BT t a d x : ℂ)) (fun t a d x => (BR t a d x : ℂ)) Q test.fs trial.fs i j := by
  have ho : OperatorWith env.cast o laplaceGreen (Laplace.singleLayer kernel o) slF := .laplaceSingleLayer hk
  have ho0 : OperatorWith envC.cast o (helmholtzGreen 0) (Helmholtz.singleLayer kernelC 0 o) (slF) := .helmholtzSingleLayer (hkC 0)
  obtain ⟨M, m1, _, m3⟩ := C14_operators h ho hb
  obtain ⟨N, n1, n2⟩ := C108_single_layer hC hφC hkC hb
  obtain ⟨N', n1', _, n3'⟩ := C14_operators hC ho0 hb
  have eN : N' = N 0 := by
    have := (n1 0 _).1 ((n1' _).2 rfl)
    rwa [Option.some.injEq] at this
  subst eN
  rw [eT, eR] at n2 n3'
  refine ⟨M, N w, m1, n1 w, fun i j hi hj => ?_⟩
  obtain ⟨y, x, e1, e2, e3⟩ := n2 w 0 i j hi hj
  refine ⟨_, y, m3 i j hi hj, e1, ?_⟩
  have : x = ((doubleSum test.fs trial.fs (cellPairValue env.cast slF laplaceGreen GT GR BT BR Q test.fs trial.fs) i j : ℝ) : ℂ) := by
    have e := n3' i j hi hj
    rw [e2, Option.some.injEq] at e
    rw [e, hφ, cellPairValue_real (F' := slF)]
    · rw [hφC, helmholtzGreen_zero]
      rfl
    · intro K U V c x c' y
      simp only [slF, dlF, adlF, curlCurlF, helmholtzHypF, surfaceCurl, Geometry.data, id]
      push_cast
      ring
  rw [← this]
  refine e3.trans (le_of_eq ?_)
  simp [sq]

/-- **C108.** For small wavenumbers `k`, the entries of the Helmholtz double layer matrix differ from those of the Laplace
double layer matrix by at most `k² / (8 π)` times that double integral. -/
theorem C108_small_double_layer (h : SpacePair env o trial test famT famR GT GR BT BR Q t) (hφ : env.cast = id)
    (hC : SpacePair envC o trialC testC famT famR GT GR (fun t a d x => (BT t a d x : ℂ)) (fun t a d x => (BR t a d x : ℂ)) Q t)
    (hφC : envC.cast = Complex.ofReal) (eT : testC.fs = test.fs) (eR : trialC.fs = trial.fs)
    (hk : kernel.Computes .valueDeriv laplaceGreen) (hkC : ∀ w, (kernelC w).Computes .valueDeriv (helmholtzGreen w))
    (hb : 0 < o.batchSize) (hR : UnitNormals GR) (w : ℝ) :
    ∃ (M : List ℝ) (N : List ℂ), (∀ out, Assemble env (Laplace.doubleLayer kernel o) trial test out ↔ out = some M) ∧
      (∀ out, Assemble envC (Helmholtz.doubleLayer kernelC w o) trialC testC out ↔ out = some N) ∧
      ∀ i j, i < test.fs.globalSize → j < trial.fs.globalSize → ∃ x y, M[i + test.fs.globalSize * j]? = some x ∧
        N[i + test.fs.globalSize * j]? = some y ∧ ‖y - (x : ℂ)‖ ≤ w ^ 2 / (8 * Real.pi) * pairMass GT GR (fun t a d x => (BT t a d x : ℂ)) (fun t a d x => (BR t a d x : ℂ)) Q test.fs trial.fs i j := by
  have ho : OperatorWith env.cast o laplaceGreen (Laplace.doubleLayer kernel o) dlF := .laplaceDoubleLayer hk
  have ho0 : OperatorWith envC.cast o (helmholtzGreen 0) (Helmholtz.doubleLayer kernelC 0 o) (dlF) := .helmholtzDoubleLayer (hkC 0)
  obtain ⟨M, m1, _, m3⟩ := C14_operators h ho hb
  obtain ⟨N, n1, n2⟩ := C108_double_layer hC hφC hkC hb hR
  obtain ⟨N', n1', _, n3'⟩ := C14_operators hC ho0 hb
  have eN : N' = N 0 := by
    have := (n1 0 _).1 ((n1' _).2 rfl)
    rwa [Option.some.injEq] at this
  subst eN
  rw [eT, eR] at n2 n3'
  refine ⟨M, N w, m1, n1 w, fun i j hi hj => ?_⟩
  obtain ⟨y, x, e1, e2, e3⟩ := n2 w 0 i j hi hj
  refine ⟨_, y, m3 i j hi hj, e1, ?_⟩
  have : x = ((doubleSum test.fs trial.fs (cellPairValue env.cast dlF laplaceGreen GT GR BT BR Q test.fs trial.fs) i j : ℝ) : ℂ) := by
    have e := n3' i j hi hj
    rw [e2, Option.some.injEq] at e
    rw [e, hφ, cellPairValue_real (F' := dlF)]
    · rw [hφC, helmholtzGreen_zero]
      rfl
    · intro K U V c x c' y
      simp only [slF, dlF, adlF, curlCurlF, helmholtzHypF, surfaceCurl, Geometry.data, id]
      push_cast
      ring
  rw [← this]
  refine e3.trans (le_of_eq ?_)
  simp [sq]

/-- **C108.** For small wavenumbers `k`, the entries of the Helmholtz adjoint double layer matrix differ from those of the
Laplace adjoint double layer matrix by at most `k² / (8 π)` times that double integral. -/
theorem C108_small_adjoint (h : SpacePair env o trial test famT famR GT GR BT BR Q t) (hφ : env.cast = id)
    (hC : SpacePair envC o trialC testC famT famR GT GR (fun t a d x => (BT t a d x : ℂ)) (fun t a d x => (BR t a d x : ℂ)) Q t)
    (hφC : envC.cast = Complex.ofReal) (eT : testC.fs = test.fs) (eR : trialC.fs = trial.fs)
    (hk : kernel.Computes .valueDeriv laplaceGreen) (hkC : ∀ w, (kernelC w).Computes .valueDeriv (helmholtzGreen w))
    (hb : 0 < o.batchSize) (hT : UnitNormals GT) (w : ℝ) :
    ∃ (M : List ℝ) (N : List ℂ), (∀ out, Assemble env (Laplace.adjointDoubleLayer kernel o) trial test out ↔ out = some M) ∧
      (∀ out, Assemble envC (Helmholtz.adjointDoubleLayer kernelC w o) trialC testC out ↔ out = some N) ∧
      ∀ i j, i < test.fs.globalSize → j < trial.fs.globalSize → ∃ x y, M[i + test.fs.globalSize * j]? = some x ∧
        N[i + test.fs.globalSize * j]? = some y ∧ ‖y - (x : ℂ)‖ ≤ w ^ 2 / (8 * Real.pi) * pairMass GT GR (fun t a d x => (BT t a d x : ℂ)) (fun t a d x => (BR t a d x : ℂ)) Q test.fs trial.fs i j := by
  have ho : OperatorWith env.cast o laplaceGreen (Laplace.adjointDoubleLayer kernel o) adlF := .laplaceAdjoint hk
  have ho0 : OperatorWith envC.cast o (helmholtzGreen 0) (Helmholtz.adjointDoubleLayer kernelC 0 o) (adlF) := .helmholtzAdjoint (hkC 0)
  obtain ⟨M, m1, _, m3⟩ := C14_operators h ho hb
  obtain ⟨N, n1, n2⟩ := C108_adjoint hC hφC hkC hb hT
  obtain ⟨N', n1', _, n3'⟩ := C14_operators hC ho0 hb
  have eN : N' = N 0 := by
    have := (n1 0 _).1 ((n1' _).2 rfl)
    rwa [Option.some.injEq] at this
  subst eN
  rw [eT, eR] at n2 n3'
  refine ⟨M, N w, m1, n1 w, fun i j hi hj => ?_⟩
  obtain ⟨y, x, e1, e2, e3⟩ := n2 w 0 i j hi hj
  refine ⟨_, y, m3 i j hi hj, e1, ?_⟩
  have : x = ((doubleSum test.fs trial.fs (cellPairValue env.cast adlF laplaceGreen GT GR BT BR Q test.fs trial.fs) i j : ℝ) : ℂ) := by
    have e := n3' i j hi hj
    rw [e2, Option.some.injEq] at e
    rw [e, hφ, cellPairValue_real (F' := adlF)]
    · rw [hφC, helmholtzGreen_zero]
      rfl
    · intro K U V c x c' y
      simp only [slF, dlF, adlF, curlCurlF, helmholtzHypF, surfaceCurl, Geometry.data, id]
      push_cast
      ring
  rw [← this]
  refine e3.trans (le_of_eq ?_)
  simp [sq]

/-- **C108.** For small wavenumbers `k`, the entries of the Helmholtz hypersingular matrix tend to those of the Laplace
hypersingular matrix, with an explicit bound. -/
theorem C108_small_hypersingular (h : SpacePair env o trial test famT famR GT GR BT BR Q t) (hφ : env.cast = id)
    (hC : SpacePair envC o trialC testC famT famR GT GR (fun t a d x => (BT t a d x : ℂ)) (fun t a d x => (BR t a d x : ℂ)) Q t)
    (hφC : envC.cast = Complex.ofReal) (eT : testC.fs = test.fs) (eR : trialC.fs = trial.fs)
    (hk : kernel.Computes .valueDeriv laplaceGreen) (hkC : ∀ w, (kernelC w).Computes .valueDeriv (helmholtzGreen w))
    (hb : 0 < o.batchSize) (hT : UnitNormals GT) (hR : UnitNormals GR) (w : ℝ) :
    ∃ (M : List ℝ) (N : List ℂ), (∀ out, Assemble env (Laplace.hypersingular kernel o) trial test out ↔ out = some M) ∧
      (∀ out, Assemble envC (Helmholtz.hypersingular envC.cast kernelC w o) trialC testC out ↔ out = some N) ∧
      ∀ i j, i < test.fs.globalSize → j < trial.fs.globalSize → ∃ x y, M[i + test.fs.globalSize * j]? = some x ∧
        N[i + test.fs.globalSize * j]? = some y ∧ ‖y - (x : ℂ)‖ ≤ |w| / (4 * Real.pi) * (pairCurl GT GR (fun t a d x => (BT t a d x : ℂ)) (fun t a d x => (BR t a d x : ℂ)) Q test.fs trial.fs i j +
          w ^ 2 * pairMass GT GR (fun t a d x => (BT t a d x : ℂ)) (fun t a d x => (BR t a d x : ℂ)) Q test.fs trial.fs i j) + w ^ 2 * pairPotential GT GR (fun t a d x => (BT t a d x : ℂ)) (fun t a d x => (BR t a d x : ℂ)) Q test.fs trial.fs i j := by
  have ho : OperatorWith env.cast o laplaceGreen (Laplace.hypersingular kernel o) curlCurlF := .laplaceHypersingular hk
  have ho0 : OperatorWith envC.cast o (helmholtzGreen 0) (Helmholtz.hypersingular envC.cast kernelC 0 o) (helmholtzHypF envC.cast 0) := .helmholtzHypersingular (hkC 0)
  obtain ⟨M, m1, _, m3⟩ := C14_operators h ho hb
  obtain ⟨N, n1, n2⟩ := C108_hypersingular hC hφC hkC hb hT hR
  obtain ⟨N', n1', _, n3'⟩ := C14_operators hC ho0 hb
  have eN : N' = N 0 := by
    have := (n1 0 _).1 ((n1' _).2 rfl)
    rwa [Option.some.injEq] at this
  subst eN
  rw [eT, eR] at n2 n3'
  refine ⟨M, N w, m1, n1 w, fun i j hi hj => ?_⟩
  obtain ⟨y, x, e1, e2, e3⟩ := n2 w 0 i j hi hj
  refine ⟨_, y, m3 i j hi hj, e1, ?_⟩
  have : x = ((doubleSum test.fs trial.fs (cellPairValue env.cast curlCurlF laplaceGreen GT GR BT BR Q test.fs trial.fs) i j : ℝ) : ℂ) := by
    have e := n3' i j hi hj
    rw [e2, Option.some.injEq] at e
    rw [e, hφ, cellPairValue_real (F' := helmholtzHypF Complex.ofReal 0)]
    · rw [hφC, helmholtzGreen_zero]
      rfl
    · intro K U V c x c' y
      simp only [slF, dlF, adlF, curlCurlF, helmholtzHypF, surfaceCurl, Geometry.data, id]
      push_cast
      ring
  rw [← this]
  refine e3.trans (le_of_eq ?_)
  simp [sq]

end

namespace Examples

theorem complexPair_of (G : Geometry ℝ) : SpacePair complexEnv smallOptions (Examples.spaceOf octFs p1 G complexP1)
    (Examples.spaceOf octFs p1 G complexP1) p1 p1 G G complexP1 complexP1 realRules .triangle :=
  have a := complexPair
  { testSpace := a.testSpace, trialSpace := a.trialSpace, testType := a.testType, trialType := a.trialType,
    testSurface := a.testSurface, trialSurface := a.trialSurface, testGeometry := spaceOf_geometry octFs p1 G complexP1,
    trialGeometry := spaceOf_geometry octFs p1 G complexP1, testBasis := spaceOf_tabulate octFs p1 G complexP1,
    trialBasis := spaceOf_tabulate octFs p1 G complexP1, rule := a.rule,
    same := fun h => ⟨rfl, rfl, (a.same h).2.2⟩ }

/-- The hypotheses can be met: the Helmholtz hypersingular matrices on the octahedron. -/
example : ∃ M : ℝ → List ℂ, (∀ w out, Assemble complexEnv
      (Helmholtz.hypersingular complexEnv.cast (fun w => kernelOf (helmholtzGreen w)) w smallOptions)
      (Examples.spaceOf octFs p1 (vertexGeometry triangleFunctions octVertices) complexP1)
      (Examples.spaceOf octFs p1 (vertexGeometry triangleFunctions octVertices) complexP1) out ↔ out = some (M w)) ∧
    ∀ i j, i < octFs.globalSize → j < octFs.globalSize → Continuous fun w => (M w)[i + octFs.globalSize * j]?.getD 0 := by
  obtain ⟨M, m1, _, m2⟩ := C108_continuous (kernel := fun w => kernelOf (helmholtzGreen w))
    (complexPair_of (vertexGeometry triangleFunctions octVertices)) rfl (fun w => kernelOf_computes _ _)
    (fun w => kernelOf_computes _ _) (by decide) (C107_normals _ _) (C107_normals _ _)
    (fun w => Helmholtz.hypersingular complexEnv.cast (fun w => kernelOf (helmholtzGreen w)) w smallOptions) (by simp)
  exact ⟨M, m1, m2⟩

/-- The hypotheses for small wavenumbers can be met. -/
example (w : ℝ) := C108_small_double_layer (realPair octFs_space.1 (vertexGeometry triangleFunctions octVertices)
    (Or.inl octFs_space.2)) rfl (complexPair_of (vertexGeometry triangleFunctions octVertices)) rfl rfl rfl
  (kernelOf_computes laplaceGreen _) (kernelC := fun w => kernelOf (helmholtzGreen w)) (fun w => kernelOf_computes _ _)
  (by decide) (C107_normals _ _) w

end Examples

end Bempp
