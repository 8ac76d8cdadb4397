import Mathlib.Analysis.SpecialFunctions.Gaussian.FourierTransform
import Mathlib.MeasureTheory.Measure.CharacteristicFunction.Basic
import Mathlib.MeasureTheory.Integral.Prod
/-
The kernel `1 / r` is positive definite: it is an integral of Gaussian kernels, and these are the Fourier transforms
of Gaussian functions.
-/
namespace Bempp
open MeasureTheory Complex Real Set
open scoped RealInnerProductSpace

/-- Points of space. -/
abbrev Space3 := EuclideanSpace ℝ (Fin 3)

section
variable {α : Type*} [MeasurableSpace α] {μ : Measure α} {X : α → Space3} {f : α → ℝ}

/-- The Fourier transform of the measure with density `f` that `X` brings into space. -/
noncomputable def waveSum (μ : Measure α) (X : α → Space3) (f : α → ℝ) (v : Space3) : ℂ :=
  ∫ p, (f p : ℂ) * cexp (⟪X p, v⟫ * I) ∂μ

theorem wave_norm (x v : Space3) : ‖cexp ((⟪x, v⟫ : ℝ) * I)‖ = 1 := Complex.norm_exp_ofReal_mul_I _

theorem wave_measurable (hX : Measurable X) (v : Space3) : Measurable fun p => cexp ((⟪X p, v⟫ : ℝ) * I) := by
  fun_prop

theorem wave_integrable (hX : Measurable X) (hf : Integrable f μ) (v : Space3) :
    Integrable (fun p => (f p : ℂ) * cexp ((⟪X p, v⟫ : ℝ) * I)) μ := by
  refine (hf.ofReal (𝕜 := ℂ)).mul_bdd (c := 1) (wave_measurable hX v).aestronglyMeasurable ?_
  exact Filter.Eventually.of_forall fun p => (wave_norm _ _).le

theorem waveSum_continuous (hX : Measurable X) (hf : Integrable f μ) : Continuous (waveSum μ X f) := by
  refine continuous_of_dominated (bound := fun p => |f p|) (fun v => (wave_integrable hX hf v).aestronglyMeasurable)
    (fun v => Filter.Eventually.of_forall fun p => ?_) hf.abs (Filter.Eventually.of_forall fun p => by fun_prop)
  rw [norm_mul, wave_norm, mul_one, Complex.norm_real, Real.norm_eq_abs]

theorem waveSum_sq [SFinite μ] (v : Space3) :
    ((‖waveSum μ X f v‖ ^ 2 : ℝ) : ℂ) =
      ∫ z, ((f z.1 * f z.2 : ℝ) : ℂ) * cexp ((⟪X z.1 - X z.2, v⟫ : ℝ) * I) ∂μ.prod μ := by
  have e : ((‖waveSum μ X f v‖ ^ 2 : ℝ) : ℂ) = waveSum μ X f v * (starRingEnd ℂ) (waveSum μ X f v) := by
    rw [Complex.mul_conj, Complex.normSq_eq_norm_sq]
  rw [e]
  unfold waveSum
  rw [← integral_conj, ← integral_prod_mul]
  refine integral_congr_ae (Filter.Eventually.of_forall fun z => ?_)
  simp only [map_mul, Complex.conj_ofReal, ← Complex.exp_conj, Complex.conj_I, inner_sub_left, ofReal_mul, ofReal_sub]
  rw [sub_mul, sub_eq_add_neg, Complex.exp_add, mul_neg]
  ring

/-- The Gaussian kernel as a Fourier transform. -/
theorem gauss_wave {b : ℝ} (hb : 0 < b) (w : Space3) :
    ∫ v : Space3, ((rexp (-b * ‖v‖ ^ 2) : ℝ) : ℂ) * cexp ((⟪w, v⟫ : ℝ) * I) =
      ((((π / b) ^ (3 / 2 : ℝ) : ℝ) * rexp (-(‖w‖ ^ 2 / (4 * b))) : ℝ) : ℂ) := by
  have h := GaussianFourier.integral_cexp_neg_mul_sq_norm_add (V := Space3) (b := (b : ℂ)) (by simpa using hb) I w
  have e : ∀ v : Space3, ((rexp (-b * ‖v‖ ^ 2) : ℝ) : ℂ) * cexp ((⟪w, v⟫ : ℝ) * I) =
      cexp (-(b : ℂ) * ‖v‖ ^ 2 + I * (⟪w, v⟫ : ℝ)) := by
    intro v
    rw [Complex.exp_add, mul_comm I]
    push_cast
    ring_nf
  simp_rw [e, h]
  have hp : 0 ≤ π / b := by positivity
  push_cast [Complex.ofReal_cpow hp]
  congr 2
  · simp
  · rw [I_sq]
    ring

theorem gauss_integrable {b : ℝ} (hb : 0 < b) : Integrable fun v : Space3 => rexp (-b * ‖v‖ ^ 2) := by
  have h := (GaussianFourier.integrable_cexp_neg_mul_sq_norm_add (V := Space3) (b := (b : ℂ)) (by simpa using hb) 0 0).norm
  refine h.congr (Filter.Eventually.of_forall fun v => ?_)
  simp only [zero_mul, add_zero, Complex.norm_exp]
  congr 1
  have : -(b : ℂ) * (‖v‖ : ℂ) ^ 2 = ((-b * ‖v‖ ^ 2 : ℝ) : ℂ) := by push_cast; ring
  rw [this, Complex.ofReal_re]

/-- The quadratic form of the Gaussian kernel. -/
noncomputable def gaussForm (μ : Measure α) (X : α → Space3) (f : α → ℝ) (a : ℝ) : ℝ :=
  ∫ z, rexp (-(a * ‖X z.1 - X z.2‖ ^ 2)) * (f z.1 * f z.2) ∂μ.prod μ

theorem gaussForm_eq [SFinite μ] (hX : Measurable X) (hf : Integrable f μ) {b : ℝ} (hb : 0 < b) :
    (π / b) ^ (3 / 2 : ℝ) * gaussForm μ X f (1 / (4 * b)) =
      ∫ v : Space3, rexp (-b * ‖v‖ ^ 2) * ‖waveSum μ X f v‖ ^ 2 := by
  have hc : (((π / b) ^ (3 / 2 : ℝ) * gaussForm μ X f (1 / (4 * b)) : ℝ) : ℂ) =
      ((∫ v : Space3, rexp (-b * ‖v‖ ^ 2) * ‖waveSum μ X f v‖ ^ 2 : ℝ) : ℂ) := by
    have hint : Integrable (Function.uncurry fun (v : Space3) (z : α × α) =>
        ((rexp (-b * ‖v‖ ^ 2) : ℝ) : ℂ) *
          (((f z.1 * f z.2 : ℝ) : ℂ) * cexp ((⟪X z.1 - X z.2, v⟫ : ℝ) * I)))
        ((volume : Measure Space3).prod (μ.prod μ)) := by
      have h1 : Integrable (fun q : Space3 × (α × α) => ((rexp (-b * ‖q.1‖ ^ 2) : ℝ) : ℂ) *
          ((f q.2.1 * f q.2.2 : ℝ) : ℂ)) ((volume : Measure Space3).prod (μ.prod μ)) :=
        ((gauss_integrable hb).ofReal (𝕜 := ℂ)).mul_prod ((hf.mul_prod hf).ofReal (𝕜 := ℂ))
      have h2 := h1.mul_bdd (g := fun q => cexp ((⟪X q.2.1 - X q.2.2, q.1⟫ : ℝ) * I)) (c := 1)
        (by apply Measurable.aestronglyMeasurable; fun_prop)
        (Filter.Eventually.of_forall fun q => (wave_norm _ _).le)
      refine h2.congr (Filter.Eventually.of_forall fun q => ?_)
      simp only [Function.uncurry]
      ring
    have hs := integral_integral_swap hint
    rw [← integral_complex_ofReal]
    have l : (fun v : Space3 => ((rexp (-b * ‖v‖ ^ 2) * ‖waveSum μ X f v‖ ^ 2 : ℝ) : ℂ)) = fun v : Space3 =>
        ∫ z, ((rexp (-b * ‖v‖ ^ 2) : ℝ) : ℂ) *
          (((f z.1 * f z.2 : ℝ) : ℂ) * cexp ((⟪X z.1 - X z.2, v⟫ : ℝ) * I)) ∂μ.prod μ := by
      funext v
      rw [integral_const_mul, ← waveSum_sq, ofReal_mul]
    rw [l, hs, gaussForm, ← integral_const_mul, ← integral_complex_ofReal]
    refine integral_congr_ae (Filter.Eventually.of_forall fun z => ?_)
    have e : ∀ v : Space3, ((rexp (-b * ‖v‖ ^ 2) : ℝ) : ℂ) *
          (((f z.1 * f z.2 : ℝ) : ℂ) * cexp ((⟪X z.1 - X z.2, v⟫ : ℝ) * I)) = ((f z.1 * f z.2 : ℝ) : ℂ) *
          (((rexp (-b * ‖v‖ ^ 2) : ℝ) : ℂ) * cexp ((⟪X z.1 - X z.2, v⟫ : ℝ) * I)) := fun v => by ring
    simp only [e]
    rw [integral_const_mul, gauss_wave hb]
    rw [← ofReal_mul]
    congr 1
    have : 1 / (4 * b) * ‖X z.1 - X z.2‖ ^ 2 = ‖X z.1 - X z.2‖ ^ 2 / (4 * b) := by ring
    rw [this]
    ring
  exact_mod_cast hc

theorem gaussForm_nonneg [SFinite μ] (hX : Measurable X) (hf : Integrable f μ) {a : ℝ} (ha : 0 < a) :
    0 ≤ gaussForm μ X f a := by
  have hb : 0 < 1 / (4 * a) := by positivity
  have h := gaussForm_eq hX hf hb
  have e : 1 / (4 * (1 / (4 * a))) = a := by field_simp
  rw [e] at h
  have h1 : 0 ≤ ∫ v : Space3, rexp (-(1 / (4 * a)) * ‖v‖ ^ 2) * ‖waveSum μ X f v‖ ^ 2 :=
    integral_nonneg fun v => by positivity
  rw [← h] at h1
  exact nonneg_of_mul_nonneg_right h1 (by positivity)

theorem waveSum_le (v : Space3) : ‖waveSum μ X f v‖ ≤ ∫ p, |f p| ∂μ := by
  refine (norm_integral_le_integral_norm _).trans (le_of_eq ?_)
  simp

/-- If the form vanishes then the Fourier transform does. -/
theorem waveSum_eq_zero [SFinite μ] (hX : Measurable X) (hf : Integrable f μ) {a : ℝ} (ha : 0 < a)
    (h0 : gaussForm μ X f a = 0) (v : Space3) : waveSum μ X f v = 0 := by
  have hb : 0 < 1 / (4 * a) := by positivity
  have h := gaussForm_eq hX hf hb
  have e : 1 / (4 * (1 / (4 * a))) = a := by field_simp
  rw [e, h0, mul_zero] at h
  have hcont := waveSum_continuous hX hf
  have hint : Integrable fun v : Space3 => rexp (-(1 / (4 * a)) * ‖v‖ ^ 2) * ‖waveSum μ X f v‖ ^ 2 := by
    refine (gauss_integrable hb).mul_bdd (c := (∫ p, |f p| ∂μ) ^ 2) (by fun_prop)
      (Filter.Eventually.of_forall fun v => ?_)
    rw [Real.norm_eq_abs, abs_of_nonneg (by positivity)]
    exact pow_le_pow_left₀ (norm_nonneg _) (waveSum_le v) 2
  have h2 := (integral_eq_zero_iff_of_nonneg (fun v => by positivity) hint).mp h.symm
  have hc : Continuous fun v : Space3 => rexp (-(1 / (4 * a)) * ‖v‖ ^ 2) * ‖waveSum μ X f v‖ ^ 2 := by fun_prop
  have h3 : rexp (-(1 / (4 * a)) * ‖v‖ ^ 2) * ‖waveSum μ X f v‖ ^ 2 = 0 := congrFun ((Continuous.ae_eq_iff_eq volume hc continuous_const).mp h2) v
  have h4 := (mul_eq_zero.mp h3).resolve_left (Real.exp_pos _).ne'
  simpa using h4

/-- If the Fourier transform vanishes then the function has mean 0 over the preimage of every set. -/
theorem integral_preimage_eq_zero (hX : Measurable X) (hfm : Measurable f) (hf : Integrable f μ)
    (h : ∀ v, waveSum μ X f v = 0) {B : Set Space3} (hB : MeasurableSet B) : ∫ p in X ⁻¹' B, f p ∂μ = 0 := by
  let P : Measure Space3 := (μ.withDensity fun p => ENNReal.ofReal (f p)).map X
  let N : Measure Space3 := (μ.withDensity fun p => ENNReal.ofReal (-f p)).map X
  have i1 : IsFiniteMeasure (μ.withDensity fun p => ENNReal.ofReal (f p)) := isFiniteMeasure_withDensity_ofReal hf.2
  have i2 : IsFiniteMeasure (μ.withDensity fun p => ENNReal.ofReal (-f p)) :=
    isFiniteMeasure_withDensity_ofReal hf.neg.2
  have bdd : ∀ (k : α → ℝ) {v : Space3}, Integrable k μ →
      Integrable (fun p => (ENNReal.ofReal (k p)).toReal • cexp ((⟪X p, v⟫ : ℝ) * I)) μ := by
    intro k v hk
    have h1 : Integrable (fun p => max (k p) 0) μ := hk.pos_part
    have h2 := wave_integrable hX h1 v
    refine h2.congr (Filter.Eventually.of_forall fun p => ?_)
    simp [ENNReal.toReal_ofReal', Complex.real_smul]
  have e : P = N := by
    refine Measure.ext_of_charFun (funext fun v => ?_)
    have g1 : AEStronglyMeasurable (fun x : Space3 => cexp ((⟪x, v⟫ : ℝ) * I)) P := by fun_prop
    have g2 : AEStronglyMeasurable (fun x : Space3 => cexp ((⟪x, v⟫ : ℝ) * I)) N := by fun_prop
    rw [charFun_apply, charFun_apply, integral_map hX.aemeasurable g1, integral_map hX.aemeasurable g2,
      integral_withDensity_eq_integral_toReal_smul (by fun_prop) (by simp),
      integral_withDensity_eq_integral_toReal_smul (by fun_prop) (by simp), ← sub_eq_zero, ← integral_sub]
    · rw [← h v, waveSum]
      refine integral_congr_ae (Filter.Eventually.of_forall fun p => ?_)
      simp only [ENNReal.toReal_ofReal', Complex.real_smul, ← sub_mul, ← ofReal_sub]
      congr 2
      rcases le_total 0 (f p) with hp | hp
      · simp [hp]
      · simp [hp]
    · exact bdd _ hf
    · exact bdd _ hf.neg
  have hP : P B = N B := by rw [e]
  simp only [P, N] at hP
  rw [Measure.map_apply hX hB, Measure.map_apply hX hB, withDensity_apply _ (hX hB), withDensity_apply _ (hX hB)] at hP
  have := integral_eq_lintegral_pos_part_sub_lintegral_neg_part (hf.integrableOn (s := X ⁻¹' B))
  rw [this, hP, sub_self]

/-- The quadratic form of the kernel `1 / r`. -/
noncomputable def inverseForm (μ : Measure α) (X : α → Space3) (f : α → ℝ) : ℝ :=
  ∫ z, ‖X z.1 - X z.2‖⁻¹ * (f z.1 * f z.2) ∂μ.prod μ

theorem gauss_Ioi {r : ℝ} (hr : 0 < r) : ∫ s in Ioi (0 : ℝ), rexp (-(s ^ 2 * r ^ 2)) = √π / 2 * r⁻¹ := by
  have h := integral_gaussian_Ioi (r ^ 2)
  have e : ∀ s : ℝ, -(s ^ 2 * r ^ 2) = -r ^ 2 * s ^ 2 := fun s => by ring
  simp_rw [e]
  rw [h, Real.sqrt_div' _ (by positivity), Real.sqrt_sq hr.le]
  field_simp

/-- The form of `1 / r` is an integral of Gaussian forms. -/
theorem inverseForm_swap [SFinite μ] (hX : Measurable X) (hfm : Measurable f)
    (hne : ∀ᵐ z ∂μ.prod μ, X z.1 ≠ X z.2)
    (hint : Integrable (fun z : α × α => ‖X z.1 - X z.2‖⁻¹ * (f z.1 * f z.2)) (μ.prod μ)) :
    Integrable (fun s => gaussForm μ X f (s ^ 2)) (volume.restrict (Ioi (0 : ℝ))) ∧
      ∫ s in Ioi (0 : ℝ), gaussForm μ X f (s ^ 2) = √π / 2 * inverseForm μ X f := by
  have hu : Integrable (Function.uncurry fun (z : α × α) (s : ℝ) =>
      rexp (-(s ^ 2 * ‖X z.1 - X z.2‖ ^ 2)) * (f z.1 * f z.2)) ((μ.prod μ).prod (volume.restrict (Ioi (0 : ℝ)))) := by
    rw [integrable_prod_iff (by apply Measurable.aestronglyMeasurable; simp only [Function.uncurry_def]; fun_prop)]
    constructor
    · filter_upwards [hne] with z hz
      have hr : 0 < ‖X z.1 - X z.2‖ := norm_pos_iff.mpr (sub_ne_zero.mpr hz)
      have := (integrable_exp_neg_mul_sq (b := ‖X z.1 - X z.2‖ ^ 2) (by positivity)).integrableOn (s := Ioi (0 : ℝ))
      refine (Integrable.mul_const this (f z.1 * f z.2)).congr (Filter.Eventually.of_forall fun s => ?_)
      simp only [Function.uncurry]
      congr 2
      ring
    · refine (hint.norm.const_mul (√π / 2)).congr ?_
      filter_upwards [hne] with z hz
      have hr : 0 < ‖X z.1 - X z.2‖ := norm_pos_iff.mpr (sub_ne_zero.mpr hz)
      simp only [Function.uncurry, norm_mul, Real.norm_eq_abs, Real.abs_exp]
      rw [integral_mul_const, gauss_Ioi hr, abs_of_pos (inv_pos.mpr hr)]
      ring
  have hs := integral_integral_swap hu
  refine ⟨hu.integral_prod_right, ?_⟩
  rw [inverseForm, ← integral_const_mul]
  refine Eq.trans hs.symm (integral_congr_ae ?_)
  filter_upwards [hne] with z hz
  have hr : 0 < ‖X z.1 - X z.2‖ := norm_pos_iff.mpr (sub_ne_zero.mpr hz)
  rw [integral_mul_const, gauss_Ioi hr]
  ring

/-- **The kernel `1 / r` is positive semidefinite.** -/
theorem inverseForm_nonneg [SFinite μ] (hX : Measurable X) (hfm : Measurable f) (hf : Integrable f μ)
    (hne : ∀ᵐ z ∂μ.prod μ, X z.1 ≠ X z.2)
    (hint : Integrable (fun z : α × α => ‖X z.1 - X z.2‖⁻¹ * (f z.1 * f z.2)) (μ.prod μ)) :
    0 ≤ inverseForm μ X f := by
  have h := (inverseForm_swap hX hfm hne hint).2
  have h1 : 0 ≤ ∫ s in Ioi (0 : ℝ), gaussForm μ X f (s ^ 2) :=
    setIntegral_nonneg measurableSet_Ioi fun s hs => gaussForm_nonneg hX hf (pow_pos hs 2)
  rw [h] at h1
  exact nonneg_of_mul_nonneg_right h1 (by positivity)

/-- **The kernel `1 / r` is definite**: if the form vanishes then the function has mean 0 over the preimage of every
set. -/
theorem inverseForm_definite [SFinite μ] (hX : Measurable X) (hfm : Measurable f) (hf : Integrable f μ)
    (hne : ∀ᵐ z ∂μ.prod μ, X z.1 ≠ X z.2)
    (hint : Integrable (fun z : α × α => ‖X z.1 - X z.2‖⁻¹ * (f z.1 * f z.2)) (μ.prod μ))
    (h0 : inverseForm μ X f = 0) {B : Set Space3} (hB : MeasurableSet B) : ∫ p in X ⁻¹' B, f p ∂μ = 0 := by
  obtain ⟨hi, h⟩ := inverseForm_swap hX hfm hne hint
  rw [h0, mul_zero] at h
  have hae : ∀ᵐ s ∂volume.restrict (Ioi (0 : ℝ)), 0 ≤ gaussForm μ X f (s ^ 2) := by
    filter_upwards [ae_restrict_mem measurableSet_Ioi] with s hs using gaussForm_nonneg hX hf (pow_pos hs 2)
  have hz := (integral_eq_zero_iff_of_nonneg_ae hae hi).mp h
  have hz' : ∀ᵐ s ∂volume.restrict (Ioi (0 : ℝ)), 0 < s ∧ gaussForm μ X f (s ^ 2) = 0 := by
    filter_upwards [hz, ae_restrict_mem measurableSet_Ioi] with s hs hs' using ⟨hs', hs⟩
  have : NeZero (volume.restrict (Ioi (0 : ℝ))) := ⟨by
    intro h
    have := congrArg (fun m => m univ) h
    simp at this⟩
  obtain ⟨s, hs, hs0⟩ := hz'.exists
  exact integral_preimage_eq_zero hX hfm hf (waveSum_eq_zero hX hf (pow_pos hs 2) hs0) hB

end
end Bempp

namespace Bempp
open MeasureTheory Set

section
variable {β : Type*} [MeasurableSpace β] {N : Nat} {ν : Measure β} [SFinite ν]

/-- `N` copies of a measure. -/
noncomputable def copies (N : Nat) (ν : Measure β) : Measure (Fin N × β) := ∑ c : Fin N, ν.map (Prod.mk c)

instance : SFinite (copies N ν) := by
  unfold copies
  rw [← Measure.sum_fintype]
  infer_instance

theorem copies_prod : (copies N ν).prod (copies N ν) =
    ∑ c : Fin N, ∑ c' : Fin N, (ν.prod ν).map (Prod.map (Prod.mk c) (Prod.mk c')) := by
  unfold copies
  simp only [← Measure.sum_fintype]
  rw [Measure.prod_sum_left]
  congr 1
  funext c
  rw [Measure.prod_sum_right]
  congr 1
  funext c'
  rw [Measure.map_prod_map _ _ measurable_prodMk_left measurable_prodMk_left]

theorem pair_measurable (c c' : Fin N) : Measurable (Prod.map (Prod.mk c) (Prod.mk c') : β × β → _) :=
  measurable_prodMk_left.prodMap measurable_prodMk_left

theorem copies_prod_integrable {h : (Fin N × β) × (Fin N × β) → ℝ} (hm : Measurable h)
    (hi : ∀ c c', Integrable (fun z : β × β => h ((c, z.1), (c', z.2))) (ν.prod ν)) :
    Integrable h ((copies N ν).prod (copies N ν)) := by
  rw [copies_prod, integrable_finsetSum_measure]
  intro c _
  rw [integrable_finsetSum_measure]
  intro c' _
  rw [integrable_map_measure hm.aestronglyMeasurable (pair_measurable c c').aemeasurable]
  exact hi c c'

theorem copies_prod_integral {h : (Fin N × β) × (Fin N × β) → ℝ} (hm : Measurable h)
    (hi : ∀ c c', Integrable (fun z : β × β => h ((c, z.1), (c', z.2))) (ν.prod ν)) :
    ∫ z, h z ∂(copies N ν).prod (copies N ν) = ∑ c, ∑ c', ∫ z : β × β, h ((c, z.1), (c', z.2)) ∂ν.prod ν := by
  have hk : ∀ c c', Integrable h ((ν.prod ν).map (Prod.map (Prod.mk c) (Prod.mk c'))) := by
    intro c c'
    rw [integrable_map_measure hm.aestronglyMeasurable (pair_measurable c c').aemeasurable]
    exact hi c c'
  rw [copies_prod, integral_finsetSum_measure]
  · refine Finset.sum_congr rfl fun c _ => ?_
    rw [integral_finsetSum_measure]
    · refine Finset.sum_congr rfl fun c' _ => ?_
      rw [integral_map (pair_measurable c c').aemeasurable hm.aestronglyMeasurable]
      rfl
    · exact fun c' _ => hk c c'
  · intro c _
    rw [integrable_finsetSum_measure]
    exact fun c' _ => hk c c'

theorem copies_ae {p : (Fin N × β) × (Fin N × β) → Prop} (hp : MeasurableSet {z | p z})
    (h : ∀ c c', ∀ᵐ z ∂ν.prod ν, p ((c, z.1), (c', z.2))) : ∀ᵐ z ∂(copies N ν).prod (copies N ν), p z := by
  rw [copies_prod, ← Measure.sum_fintype, Measure.ae_sum_iff]
  intro c
  rw [← Measure.sum_fintype, Measure.ae_sum_iff]
  intro c'
  rw [ae_map_iff (pair_measurable c c').aemeasurable hp]
  exact h c c'

omit [SFinite ν] in
theorem copies_integrable {h : Fin N × β → ℝ} (hm : Measurable h) (hi : ∀ c, Integrable (fun x => h (c, x)) ν) :
    Integrable h (copies N ν) := by
  unfold copies
  rw [integrable_finsetSum_measure]
  intro c _
  rw [integrable_map_measure hm.aestronglyMeasurable measurable_prodMk_left.aemeasurable]
  exact hi c

omit [SFinite ν] in
theorem copies_setIntegral {h : Fin N × β → ℝ} (hm : Measurable h) (hi : ∀ c, Integrable (fun x => h (c, x)) ν)
    {A : Set (Fin N × β)} (hA : MeasurableSet A) :
    ∫ z in A, h z ∂copies N ν = ∑ c, ∫ x in Prod.mk c ⁻¹' A, h (c, x) ∂ν := by
  have e : (copies N ν).restrict A = ∑ c : Fin N, (ν.restrict (Prod.mk c ⁻¹' A)).map (Prod.mk c) := by
    unfold copies
    rw [← Measure.sum_fintype, Measure.restrict_sum _ hA, Measure.sum_fintype]
    exact Finset.sum_congr rfl fun c _ => Measure.restrict_map measurable_prodMk_left hA
  rw [e, integral_finsetSum_measure]
  · refine Finset.sum_congr rfl fun c _ => ?_
    rw [integral_map measurable_prodMk_left.aemeasurable hm.aestronglyMeasurable]
  · intro c _
    rw [integrable_map_measure hm.aestronglyMeasurable measurable_prodMk_left.aemeasurable]
    exact (hi c).restrict

/-- The form of `1 / r` for a family of surfaces with functions on them: it is not negative, and if it is 0 then the
integrals of the functions over the part of the surfaces in every set add up to 0. -/
theorem family_form {X : Fin N → β → Space3} (hX : ∀ c, Measurable (X c)) {f : Fin N → β → ℝ}
    (hf : ∀ c, Measurable (f c)) (hi : ∀ c, Integrable (f c) ν)
    (hne : ∀ c c', ∀ᵐ z ∂ν.prod ν, X c z.1 ≠ X c' z.2)
    (hint : ∀ c c', Integrable (fun z : β × β => ‖X c z.1 - X c' z.2‖⁻¹ * (f c z.1 * f c' z.2)) (ν.prod ν)) :
    0 ≤ ∑ c, ∑ c', ∫ z : β × β, ‖X c z.1 - X c' z.2‖⁻¹ * (f c z.1 * f c' z.2) ∂ν.prod ν ∧
    (∑ c, ∑ c', ∫ z : β × β, ‖X c z.1 - X c' z.2‖⁻¹ * (f c z.1 * f c' z.2) ∂ν.prod ν = 0 →
      ∀ B : Set Space3, MeasurableSet B → ∑ c, ∫ x in X c ⁻¹' B, f c x ∂ν = 0) := by
  let Y : Fin N × β → Space3 := fun p => X p.1 p.2
  let F : Fin N × β → ℝ := fun p => f p.1 p.2
  have hY : Measurable Y := measurable_from_prod_countable_right hX
  have hF : Measurable F := measurable_from_prod_countable_right hf
  have hm : Measurable fun z : (Fin N × β) × (Fin N × β) => ‖Y z.1 - Y z.2‖⁻¹ * (F z.1 * F z.2) := by fun_prop
  have hI := copies_integrable (ν := ν) hF hi
  have hII := copies_prod_integrable (ν := ν) hm hint
  have hN : ∀ᵐ z ∂(copies N ν).prod (copies N ν), Y z.1 ≠ Y z.2 := by
    refine copies_ae ?_ hne
    exact (measurableSet_eq_fun (by fun_prop) (by fun_prop)).compl
  have e := copies_prod_integral (ν := ν) hm hint
  have e' : inverseForm (copies N ν) Y F =
      ∑ c, ∑ c', ∫ z : β × β, ‖X c z.1 - X c' z.2‖⁻¹ * (f c z.1 * f c' z.2) ∂ν.prod ν := e
  rw [← e']
  refine ⟨inverseForm_nonneg hY hF hI hN hII, fun h0 B hB => ?_⟩
  have := inverseForm_definite hY hF hI hN hII h0 hB
  rwa [copies_setIntegral hF hi (hY hB)] at this

end
end Bempp
