import Mathlib.Topology.Instances.Matrix
import Mathlib.LinearAlgebra.Matrix.ToLinearEquiv
import Mathlib.Analysis.Analytic.IsolatedZeros
import Mathlib.Analysis.Complex.CauchyIntegral
import Mathlib.Analysis.Complex.Norm
import Verif.Spec.Helmholtz
import Verif.Proofs.PositiveMatrix
/-
Linear systems with complex matrices: solvability and the determinant, small changes of the matrix, analytic families.
-/
namespace Bempp
open Filter Topology Set

theorem complex_range_sum (n : Nat) (f : Nat → ℂ) : ((List.range n).map f).sum = ∑ i : Fin n, f i := by
  rw [← Fin.sum_univ_fun_getElem]
  have e : (List.range n).length = n := List.length_range
  refine Fintype.sum_equiv (finCongr e) _ _ fun i => ?_
  simp

/-- The matrix with entries `A i j`. -/
def matrixOf (A : Nat → Nat → ℂ) (n : Nat) : Matrix (Fin n) (Fin n) ℂ := fun i j => A i j

theorem systemSolves_iff {A : Nat → Nat → ℂ} {n : Nat} {x b : Nat → ℂ} :
    SystemSolves A n x b ↔ (matrixOf A n).mulVec (fun j : Fin n => x j) = fun i : Fin n => b i := by
  unfold SystemSolves
  constructor
  · intro h
    funext i
    rw [← h i i.2, complex_range_sum]
    rfl
  · intro h i hi
    rw [complex_range_sum]
    exact congrFun h ⟨i, hi⟩

/-- The vector with entries `v`. -/
def ofFin {n : Nat} (v : Fin n → ℂ) (i : Nat) : ℂ := if h : i < n then v ⟨i, h⟩ else 0

theorem ofFin_fin {n : Nat} (v : Fin n → ℂ) (i : Fin n) : ofFin v i = v i := by
  unfold ofFin
  rw [dif_pos i.2]

theorem uniquelySolvable_iff {A : Nat → Nat → ℂ} {n : Nat} : UniquelySolvable A n ↔ (matrixOf A n).det ≠ 0 := by
  constructor
  · intro h hd
    obtain ⟨v, hv, h0⟩ := Matrix.exists_mulVec_eq_zero_iff.mpr hd
    apply hv
    funext i
    have := (h fun _ => 0).2 (ofFin v) (fun _ => 0) (systemSolves_iff.mpr (by
      simp only [ofFin_fin]
      exact h0)) (systemSolves_iff.mpr (by
      exact Matrix.mulVec_zero _)) i i.2
    rwa [ofFin_fin] at this
  · intro hd b
    have hu : IsUnit (matrixOf A n).det := isUnit_iff_ne_zero.mpr hd
    constructor
    · refine ⟨ofFin ((matrixOf A n)⁻¹.mulVec fun i : Fin n => b i), systemSolves_iff.mpr ?_⟩
      simp only [ofFin_fin]
      rw [Matrix.mulVec_mulVec, Matrix.mul_nonsing_inv _ hu, Matrix.one_mulVec]
    · intro x y hx hy i hi
      rw [systemSolves_iff] at hx hy
      have := congrArg (matrixOf A n)⁻¹.mulVec (hx.trans hy.symm)
      rw [Matrix.mulVec_mulVec, Matrix.mulVec_mulVec, Matrix.nonsing_inv_mul _ hu, Matrix.one_mulVec, Matrix.one_mulVec] at this
      exact congrFun this ⟨i, hi⟩

/-- A matrix whose form is 0 only for 0. -/
theorem uniquelySolvable_of_form {A : Nat → Nat → ℂ} {n : Nat}
    (h : ∀ z, hermitianForm A n z = 0 → ∀ i, i < n → z i = 0) : UniquelySolvable A n := by
  rw [uniquelySolvable_iff]
  intro hd
  obtain ⟨v, hv, h0⟩ := Matrix.exists_mulVec_eq_zero_iff.mpr hd
  apply hv
  funext i
  rw [← ofFin_fin v i]
  refine h (ofFin v) ?_ i i.2
  unfold hermitianForm
  rw [complex_range_sum]
  refine Finset.sum_eq_zero fun i _ => ?_
  have h1 := congrFun h0 i
  rw [complex_range_sum]
  have e : ∀ j : Fin n, (starRingEnd ℂ) (ofFin v i) * ofFin v j * A i j = (starRingEnd ℂ) (ofFin v i) * (A i j * v j) := by
    intro j
    rw [ofFin_fin v j]
    ring
  simp only [e, ← Finset.mul_sum]
  rw [show ∑ j : Fin n, A i j * v j = 0 from h1, mul_zero]

/-- The imaginary part of the form of a symmetric matrix. -/
theorem hermitianForm_im {A : Nat → Nat → ℂ} {n : Nat} (hA : ∀ i j, A i j = A j i) (z : Nat → ℂ) :
    (hermitianForm A n z).im = bilinear (fun i j => (A i j).im) n (fun i => (z i).re) (fun i => (z i).re) +
      bilinear (fun i j => (A i j).im) n (fun i => (z i).im) (fun i => (z i).im) := by
  rw [bilinear_eq, bilinear_eq]
  unfold hermitianForm
  simp only [complex_range_sum, Complex.im_sum]
  have e : ∀ i j : Fin n, ((starRingEnd ℂ) (z i) * z j * A i j).im =
      ((z i).re * (z j).re * (A i j).im + (z i).im * (z j).im * (A i j).im) +
        ((z i).re * (z j).im * (A i j).re - (z i).im * (z j).re * (A i j).re) := by
    intro i j
    simp only [Complex.mul_im, Complex.mul_re, Complex.conj_re, Complex.conj_im]
    ring
  simp only [e, Finset.sum_add_distrib, Finset.sum_sub_distrib]
  have h : ∑ i : Fin n, ∑ j : Fin n, (z i).im * (z j).re * (A i j).re =
      ∑ i : Fin n, ∑ j : Fin n, (z i).re * (z j).im * (A i j).re := by
    rw [Finset.sum_comm]
    refine Finset.sum_congr rfl fun i _ => Finset.sum_congr rfl fun j _ => ?_
    rw [hA j i]
    ring
  rw [h, sub_self, add_zero]

/-- Systems near a uniquely solvable one are uniquely solvable, and have nearby solutions. -/
theorem nearby_system {A : Nat → Nat → ℂ} {n : Nat} (hA : UniquelySolvable A n) {x b : Nat → ℂ}
    (hx : SystemSolves A n x b) {ε : ℝ} (hε : 0 < ε) :
    ∃ δ > 0, ∀ M : Nat → Nat → ℂ, (∀ i j, i < n → j < n → ‖M i j - A i j‖ ≤ δ) → UniquelySolvable M n ∧
      ∀ b' y, (∀ i, i < n → ‖b' i - b i‖ ≤ δ) → SystemSolves M n y b' → ∀ i, i < n → ‖y i - x i‖ ≤ ε := by
  have hd := uniquelySolvable_iff.mp hA
  let E : (Fin n → Fin n → ℂ) × (Fin n → ℂ) → Matrix (Fin n) (Fin n) ℂ := fun p i j => p.1 i j
  have hE : Continuous E := continuous_fst
  let S : (Fin n → Fin n → ℂ) × (Fin n → ℂ) → Fin n → ℂ := fun p => (E p).det⁻¹ • (E p).adjugate.mulVec p.2
  let p₀ : (Fin n → Fin n → ℂ) × (Fin n → ℂ) := (fun i j => A i j, fun i => b i)
  have hd0 : (E p₀).det ≠ 0 := hd
  have hS : ContinuousAt S p₀ :=
    (hE.matrix_det.continuousAt.inv₀ hd0).smul ((hE.matrix_adjugate.matrix_mulVec continuous_snd).continuousAt)
  have hdet : ∀ᶠ p in 𝓝 p₀, (E p).det ≠ 0 := hE.matrix_det.continuousAt.eventually_ne hd0
  have hsol : ∀ p, (E p).det ≠ 0 → ∀ v, (E p).mulVec v = p.2 → v = S p := by
    intro p hp v hv
    have : (E p).det⁻¹ • (E p).adjugate.mulVec ((E p).mulVec v) = v := by
      rw [Matrix.mulVec_mulVec, Matrix.adjugate_mul, Matrix.smul_mulVec, Matrix.one_mulVec, smul_smul, inv_mul_cancel₀ hp,
        one_smul]
    rw [hv] at this
    exact this.symm
  obtain ⟨δ, hδ, hball⟩ := Metric.eventually_nhds_iff_ball.mp (hdet.and (Metric.tendsto_nhds.mp hS ε hε))
  have hin : ∀ M : Nat → Nat → ℂ, (∀ i j, i < n → j < n → ‖M i j - A i j‖ ≤ δ / 2) → ∀ b' : Nat → ℂ,
      (∀ i, i < n → ‖b' i - b i‖ ≤ δ / 2) → ((fun i j => M i j, fun i => b' i) :
        (Fin n → Fin n → ℂ) × (Fin n → ℂ)) ∈ Metric.ball p₀ δ := by
    intro M hM b' hb'
    have h2 : δ / 2 < δ := by linarith
    rw [Metric.mem_ball]
    refine lt_of_le_of_lt ?_ h2
    rw [Prod.dist_eq]
    refine max_le ?_ ?_
    · refine (dist_pi_le_iff (by positivity)).mpr fun i => (dist_pi_le_iff (by positivity)).mpr fun j => ?_
      rw [dist_eq_norm]
      exact hM i j i.2 j.2
    · refine (dist_pi_le_iff (by positivity)).mpr fun i => ?_
      rw [dist_eq_norm]
      exact hb' i i.2
  refine ⟨δ / 2, by positivity, fun M hM => ⟨?_, fun b' y hb' hy i hi => ?_⟩⟩
  · rw [uniquelySolvable_iff]
    exact (hball _ (hin M hM b fun i _ => by simp; positivity)).1
  · obtain ⟨k1, k2⟩ := hball _ (hin M hM b' hb')
    rw [← hsol _ k1 _ (systemSolves_iff.mp hy), ← hsol p₀ hd0 _ (systemSolves_iff.mp hx), dist_pi_lt_iff hε] at k2
    have := k2 ⟨i, hi⟩
    rw [dist_eq_norm] at this
    exact this.le

/-- An analytic family of matrices with one uniquely solvable member. -/
theorem exceptions_finite {A : ℂ → Nat → Nat → ℂ} {n : Nat} (hA : ∀ i j, Differentiable ℂ fun ζ => A ζ i j) {ζ₀ : ℂ}
    (h0 : UniquelySolvable (A ζ₀) n) (R : ℝ) : {w : ℝ | |w| ≤ R ∧ ¬ UniquelySolvable (A w) n}.Finite := by
  by_contra hinf
  have hdiff : Differentiable ℂ fun ζ => (matrixOf (A ζ) n).det := by
    simp only [Matrix.det_apply]
    refine Differentiable.fun_sum fun σ _ => Differentiable.const_smul ?_ _
    exact Differentiable.fun_finsetProd fun i _ => hA _ _
  have han : AnalyticOnNhd ℂ (fun ζ => (matrixOf (A ζ) n).det) univ := fun z _ => hdiff.analyticAt z
  have hinf' : (Complex.ofReal '' {w : ℝ | |w| ≤ R ∧ ¬ UniquelySolvable (A w) n}).Infinite :=
    Set.Infinite.image Complex.ofReal_injective.injOn hinf
  obtain ⟨z, -, hz⟩ := hinf'.exists_accPt_of_subset_isCompact (isCompact_closedBall (0 : ℂ) R) (by
    rintro _ ⟨w, hw, rfl⟩
    simpa using hw.1)
  have hfreq : ∃ᶠ ζ in 𝓝[≠] z, (matrixOf (A ζ) n).det = 0 := by
    refine (accPt_iff_frequently_nhdsNE.mp hz).mono ?_
    rintro _ ⟨w, hw, rfl⟩
    by_contra hne
    exact hw.2 (uniquelySolvable_iff.mpr hne)
  exact uniquelySolvable_iff.mp h0 (han.eqOn_zero_of_preconnected_of_frequently_eq_zero isPreconnected_univ (mem_univ z) hfreq
    (mem_univ ζ₀))

/-- A matrix with real entries that is positive definite. -/
theorem uniquelySolvable_real {A : Nat → Nat → ℝ} {n : Nat} (h : ∀ u, bilinear A n u u = 0 → ∀ i, i < n → u i = 0) :
    UniquelySolvable (fun i j => (A i j : ℂ)) n := by
  have hd : (Matrix.of fun i j : Fin n => A i j).det ≠ 0 := by
    intro hd
    obtain ⟨v, hv, h0⟩ := Matrix.exists_mulVec_eq_zero_iff.mpr hd
    apply hv
    funext i
    rw [← extend_fin v i]
    refine h (extend v) ?_ i i.2
    rw [bilinear_eq]
    refine Finset.sum_eq_zero fun i _ => ?_
    have h1 := congrFun h0 i
    have e : ∀ j : Fin n, extend v i * extend v j * A i j = extend v i * (A i j * v j) := by
      intro j
      rw [extend_fin v j]
      ring
    simp only [e, ← Finset.mul_sum]
    rw [show ∑ j : Fin n, A i j * v j = 0 from h1, mul_zero]
  rw [uniquelySolvable_iff]
  have e : matrixOf (fun i j => (A i j : ℂ)) n = (Complex.ofRealHom).mapMatrix (Matrix.of fun i j : Fin n => A i j) := by
    ext i j
    simp [matrixOf]
  rw [e, ← RingHom.map_det]
  simpa using hd

end Bempp
