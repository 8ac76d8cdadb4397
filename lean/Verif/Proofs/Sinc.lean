import Verif.Proofs.PositiveKernel
import Mathlib.Analysis.SpecialFunctions.Trigonometric.Sinc
import Mathlib.Analysis.Calculus.ParametricIntegral
import Mathlib.MeasureTheory.Integral.IntervalIntegral.FundThmCalculus
import Mathlib.MeasureTheory.Integral.IntervalIntegral.Periodic
import Mathlib.Analysis.Analytic.IsolatedZeros
import Mathlib.Analysis.Complex.CauchyIntegral
/-
The kernel `sin (k r) / r` is positive semidefinite: it is the mean of plane waves over all directions. In a plane it is
definite.
-/
namespace Bempp
open MeasureTheory Real Set Filter Topology
open scoped RealInnerProductSpace

/-! ### The mean of a plane wave over all directions -/

/-- The angles of the directions. -/
noncomputable def angles : Measure (ℝ × ℝ) :=
  (volume.restrict (Ioc 0 π)).prod (volume.restrict (Ioc 0 (2 * π)))

instance : IsFiniteMeasure angles := by unfold angles; infer_instance

theorem angles_eq : angles = (volume : Measure (ℝ × ℝ)).restrict (Ioc 0 π ×ˢ Ioc 0 (2 * π)) := by
  rw [angles, Measure.prod_restrict]
  rfl

theorem angles_integrable {g : ℝ × ℝ → ℝ} (hg : Continuous g) : Integrable g angles := by
  rw [angles_eq]
  exact (hg.continuousOn.integrableOn_compact (isCompact_Icc.prod isCompact_Icc)).mono_set
    (prod_mono Ioc_subset_Icc_self Ioc_subset_Icc_self)

theorem angles_integral {g : ℝ × ℝ → ℝ} (hg : Continuous g) :
    ∫ p, g p ∂angles = ∫ θ in (0)..π, ∫ φ in (0)..(2 * π), g (θ, φ) := by
  have h := angles_integrable hg
  unfold angles at h ⊢
  rw [integral_prod _ h, intervalIntegral.integral_of_le pi_pos.le]
  simp only [intervalIntegral.integral_of_le two_pi_pos.le]

theorem angles_integral' {g : ℝ × ℝ → ℝ} (hg : Continuous g) :
    ∫ p, g p ∂angles = ∫ φ in (0)..(2 * π), ∫ θ in (0)..π, g (θ, φ) := by
  have h := angles_integrable hg
  unfold angles at h ⊢
  rw [integral_prod_symm _ h, intervalIntegral.integral_of_le two_pi_pos.le]
  simp only [intervalIntegral.integral_of_le pi_pos.le]

/-- The mean for a vector of length `r` that is turned away from the axis by `τ`. -/
noncomputable def turnedMean (r τ : ℝ) : ℝ :=
  ∫ p, sin p.1 * cos (r * (sin τ * (sin p.1 * cos p.2) + cos τ * cos p.1)) ∂angles

theorem turnedMean_deriv (r τ : ℝ) : HasDerivAt (turnedMean r) 0 τ := by
  have hc : Continuous fun p : ℝ × ℝ => -(sin p.1 * (sin (r * (sin τ * (sin p.1 * cos p.2) + cos τ * cos p.1)) *
    (r * (cos τ * (sin p.1 * cos p.2) - sin τ * cos p.1)))) := by fun_prop
  have key := (hasDerivAt_integral_of_dominated_loc_of_deriv_le (μ := angles) (s := univ) (x₀ := τ) (bound := fun _ => |r| * 2)
    (F := fun τ p => sin p.1 * cos (r * (sin τ * (sin p.1 * cos p.2) + cos τ * cos p.1)))
    (F' := fun τ p => -(sin p.1 * (sin (r * (sin τ * (sin p.1 * cos p.2) + cos τ * cos p.1)) *
      (r * (cos τ * (sin p.1 * cos p.2) - sin τ * cos p.1)))))
    univ_mem (Eventually.of_forall fun τ => by
      have : Continuous fun p : ℝ × ℝ => sin p.1 * cos (r * (sin τ * (sin p.1 * cos p.2) + cos τ * cos p.1)) := by fun_prop
      exact this.aestronglyMeasurable)
    (angles_integrable (by fun_prop)) hc.aestronglyMeasurable ?_ (integrable_const _) ?_).2
  · have hz : ∫ p, -(sin p.1 * (sin (r * (sin τ * (sin p.1 * cos p.2) + cos τ * cos p.1)) *
        (r * (cos τ * (sin p.1 * cos p.2) - sin τ * cos p.1)))) ∂angles = 0 := by
      -- the integrand is a divergence
      let E : ℝ → ℝ → ℝ := fun θ φ => r * (sin τ * (sin θ * cos φ) + cos τ * cos θ)
      have e : ∀ p : ℝ × ℝ, -(sin p.1 * (sin (r * (sin τ * (sin p.1 * cos p.2) + cos τ * cos p.1)) *
          (r * (cos τ * (sin p.1 * cos p.2) - sin τ * cos p.1)))) =
          (-(cos p.1 * cos p.2 * cos (E p.1 p.2)) + sin p.1 * cos p.2 * (sin (E p.1 p.2) *
            (r * (sin τ * (cos p.1 * cos p.2) - cos τ * sin p.1)))) +
          (cos p.1 * cos p.2 * cos (E p.1 p.2) + cos p.1 * sin p.2 * (sin (E p.1 p.2) *
            (r * (sin τ * (sin p.1 * sin p.2))))) := by
        intro p
        simp only [E]
        have h1 := sin_sq_add_cos_sq p.2
        linear_combination (-(r * sin τ * sin p.1 * cos p.1 *
          sin (r * (sin τ * (sin p.1 * cos p.2) + cos τ * cos p.1)))) * h1
      have c1 : Continuous fun p : ℝ × ℝ => -(cos p.1 * cos p.2 * cos (E p.1 p.2)) + sin p.1 * cos p.2 * (sin (E p.1 p.2) *
            (r * (sin τ * (cos p.1 * cos p.2) - cos τ * sin p.1))) := by fun_prop
      have c2 : Continuous fun p : ℝ × ℝ => cos p.1 * cos p.2 * cos (E p.1 p.2) + cos p.1 * sin p.2 * (sin (E p.1 p.2) *
            (r * (sin τ * (sin p.1 * sin p.2)))) := by fun_prop
      rw [integral_congr_ae (Eventually.of_forall e), integral_add (angles_integrable c1) (angles_integrable c2),
        angles_integral' c1, angles_integral c2]
      have d1 : ∀ φ, ∫ θ in (0)..π, (-(cos θ * cos φ * cos (E θ φ)) + sin θ * cos φ * (sin (E θ φ) *
            (r * (sin τ * (cos θ * cos φ) - cos τ * sin θ)))) = 0 := by
        intro φ
        have hd : ∀ θ, HasDerivAt (fun θ => -(sin θ * cos φ * cos (E θ φ)))
            (-(cos θ * cos φ * cos (E θ φ)) + sin θ * cos φ * (sin (E θ φ) *
              (r * (sin τ * (cos θ * cos φ) - cos τ * sin θ)))) θ := by
          intro θ
          have hE : HasDerivAt (fun θ => E θ φ) (r * (sin τ * (cos θ * cos φ) + cos τ * -sin θ)) θ :=
            ((((hasDerivAt_sin θ).mul_const _).const_mul _).add ((hasDerivAt_cos θ).const_mul _)).const_mul r
          have := (((hasDerivAt_sin θ).mul_const (cos φ)).mul hE.cos).neg
          exact this.congr_deriv (by ring)
        rw [intervalIntegral.integral_eq_sub_of_hasDerivAt (fun θ _ => hd θ) (Continuous.intervalIntegrable (by fun_prop) _ _)]
        simp
      have d2 : ∀ θ, ∫ φ in (0)..(2 * π), (cos θ * cos φ * cos (E θ φ) + cos θ * sin φ * (sin (E θ φ) *
            (r * (sin τ * (sin θ * sin φ))))) = 0 := by
        intro θ
        have hd : ∀ φ, HasDerivAt (fun φ => cos θ * sin φ * cos (E θ φ))
            (cos θ * cos φ * cos (E θ φ) + cos θ * sin φ * (sin (E θ φ) * (r * (sin τ * (sin θ * sin φ))))) φ := by
          intro φ
          have hE : HasDerivAt (fun φ => E θ φ) (r * (sin τ * (sin θ * -sin φ))) φ :=
            ((((hasDerivAt_cos φ).const_mul _).const_mul _).add_const _).const_mul r
          have := ((hasDerivAt_sin φ).const_mul (cos θ)).mul hE.cos
          exact this.congr_deriv (by ring)
        rw [intervalIntegral.integral_eq_sub_of_hasDerivAt (fun φ _ => hd φ) (Continuous.intervalIntegrable (by fun_prop) _ _)]
        simp
      simp only [d1, d2, intervalIntegral.integral_zero, add_zero]
    rw [hz] at key
    exact key
  · refine Eventually.of_forall fun p τ _ => ?_
    rw [norm_neg, norm_mul, norm_mul, norm_mul]
    simp only [Real.norm_eq_abs]
    have h1 := abs_sin_le_one p.1
    have h2 := abs_sin_le_one (r * (sin τ * (sin p.1 * cos p.2) + cos τ * cos p.1))
    have h3 : |cos τ * (sin p.1 * cos p.2) - sin τ * cos p.1| ≤ 2 := by
      have k1 : |cos τ * (sin p.1 * cos p.2)| ≤ 1 := by
        rw [abs_mul, abs_mul]
        exact mul_le_one₀ (abs_cos_le_one _) (by positivity) (mul_le_one₀ (abs_sin_le_one _) (by positivity) (abs_cos_le_one _))
      have k2 : |sin τ * cos p.1| ≤ 1 := by
        rw [abs_mul]
        exact mul_le_one₀ (abs_sin_le_one _) (by positivity) (abs_cos_le_one _)
      have := abs_sub (cos τ * (sin p.1 * cos p.2)) (sin τ * cos p.1)
      linarith
    calc |sin p.1| * (|sin (r * (sin τ * (sin p.1 * cos p.2) + cos τ * cos p.1))| *
          (|r| * |cos τ * (sin p.1 * cos p.2) - sin τ * cos p.1|))
        ≤ 1 * (1 * (|r| * 2)) := by gcongr
      _ = |r| * 2 := by ring
  · refine Eventually.of_forall fun p τ _ => ?_
    have hE : HasDerivAt (fun τ => r * (sin τ * (sin p.1 * cos p.2) + cos τ * cos p.1))
        (r * (cos τ * (sin p.1 * cos p.2) + -sin τ * cos p.1)) τ :=
      (((hasDerivAt_sin τ).mul_const _).add ((hasDerivAt_cos τ).mul_const _)).const_mul r
    have := hE.cos.const_mul (sin p.1)
    exact this.congr_deriv (by ring)

theorem turnedMean_eq (r τ : ℝ) : turnedMean r τ = 4 * π * sinc r := by
  have h := is_const_of_deriv_eq_zero (f := turnedMean r) (fun τ => (turnedMean_deriv r τ).differentiableAt)
    (fun τ => (turnedMean_deriv r τ).deriv) τ 0
  rw [h]
  unfold turnedMean
  rw [angles_integral (by fun_prop)]
  simp only [sin_zero, cos_zero, zero_mul, one_mul, zero_add, intervalIntegral.integral_const, smul_eq_mul, sub_zero]
  rw [intervalIntegral.integral_const_mul]
  have key : ∫ θ in (0)..π, sin θ * cos (r * cos θ) = 2 * sinc r := by
    by_cases hr : r = 0
    · subst hr
      simp
      norm_num
    · have hd : ∀ θ, HasDerivAt (fun θ => -(sin (r * cos θ) / r)) (sin θ * cos (r * cos θ)) θ := by
        intro θ
        have := ((((hasDerivAt_cos θ).const_mul r).sin).div_const r).neg
        exact this.congr_deriv (by field_simp)
      rw [intervalIntegral.integral_eq_sub_of_hasDerivAt (fun θ _ => hd θ) (Continuous.intervalIntegrable (by fun_prop) _ _),
        sinc_of_ne_zero hr]
      simp
      ring
  rw [key]
  ring

/-- The direction with the given angles. -/
noncomputable def direction (p : ℝ × ℝ) : Space3 := WithLp.toLp 2 ![sin p.1 * cos p.2, sin p.1 * sin p.2, cos p.1]

theorem direction_continuous : Continuous direction := by
  unfold direction
  refine (PiLp.continuous_toLp 2 _).comp (continuous_pi fun i => ?_)
  fin_cases i <;> simp <;> fun_prop

theorem inner_direction (x : Space3) (p : ℝ × ℝ) :
    ⟪x, direction p⟫ = x 0 * (sin p.1 * cos p.2) + x 1 * (sin p.1 * sin p.2) + x 2 * cos p.1 := by
  simp [direction, PiLp.inner_apply, Fin.sum_univ_three]
  ring

/-- **The mean of a plane wave over all directions.** -/
theorem wave_mean (x : Space3) : ∫ p, sin p.1 * cos ⟪x, direction p⟫ ∂angles = 4 * π * sinc ‖x‖ := by
  have hcont : Continuous fun p : ℝ × ℝ => sin p.1 * cos ⟪x, direction p⟫ := by
    have := direction_continuous
    fun_prop
  -- polar coordinates
  obtain ⟨a, α, h0, h1, ha⟩ : ∃ a α, x 0 = a * cos α ∧ x 1 = a * sin α ∧ 0 ≤ a := by
    refine ⟨‖(⟨x 0, x 1⟩ : ℂ)‖, Complex.arg ⟨x 0, x 1⟩, ?_, ?_, norm_nonneg _⟩
    · exact (Complex.norm_mul_cos_arg ⟨x 0, x 1⟩).symm
    · exact (Complex.norm_mul_sin_arg ⟨x 0, x 1⟩).symm
  obtain ⟨r, τ, k0, k1, hr⟩ : ∃ r τ, x 2 = r * cos τ ∧ a = r * sin τ ∧ 0 ≤ r := by
    refine ⟨‖(⟨x 2, a⟩ : ℂ)‖, Complex.arg ⟨x 2, a⟩, ?_, ?_, norm_nonneg _⟩
    · exact (Complex.norm_mul_cos_arg ⟨x 2, a⟩).symm
    · exact (Complex.norm_mul_sin_arg ⟨x 2, a⟩).symm
  have hn : ‖x‖ = r := by
    rw [EuclideanSpace.norm_eq, ← Real.sqrt_sq hr]
    congr 1
    simp only [Fin.sum_univ_three, Real.norm_eq_abs, sq_abs]
    rw [h0, h1, k0, k1]
    have e1 := sin_sq_add_cos_sq α
    have e2 := sin_sq_add_cos_sq τ
    linear_combination r ^ 2 * sin τ ^ 2 * e1 + r ^ 2 * e2
  rw [hn, ← turnedMean_eq r τ, turnedMean, angles_integral hcont, angles_integral (by fun_prop)]
  congr 1
  funext θ
  have e : ∀ φ, sin θ * cos ⟪x, direction (θ, φ)⟫ =
      (fun φ => sin θ * cos (r * (sin τ * (sin θ * cos φ) + cos τ * cos θ))) (φ - α) := by
    intro φ
    simp only []
    rw [inner_direction, cos_sub, h0, h1, k0]
    simp only [k1]
    congr 2
    ring
  rw [intervalIntegral.integral_congr fun φ _ => e φ, intervalIntegral.integral_comp_sub_right
    (fun φ => sin θ * cos (r * (sin τ * (sin θ * cos φ) + cos τ * cos θ)))]
  have hp : Function.Periodic (fun φ => sin θ * cos (r * (sin τ * (sin θ * cos φ) + cos τ * cos θ))) (2 * π) := by
    intro φ
    simp only [cos_add_two_pi]
  have := hp.intervalIntegral_add_eq (0 - α) 0
  rw [zero_add] at this
  rw [← this]
  congr 1
  ring

/-! ### The form -/

section
variable {α : Type*} [MeasurableSpace α] {μ : Measure α} {X : α → Space3} {f : α → ℝ}

theorem waveSum_sq_re [SFinite μ] (hX : Measurable X) (hf : Integrable f μ) (v : Space3) :
    ‖waveSum μ X f v‖ ^ 2 = ∫ z, f z.1 * f z.2 * cos ⟪X z.1 - X z.2, v⟫ ∂μ.prod μ := by
  have h := congrArg Complex.re (waveSum_sq (μ := μ) (X := X) (f := f) v)
  rw [Complex.ofReal_re] at h
  rw [h]
  have hint : Integrable (fun z : α × α => ((f z.1 * f z.2 : ℝ) : ℂ) * Complex.exp ((⟪X z.1 - X z.2, v⟫ : ℝ) * Complex.I))
      (μ.prod μ) := by
    refine ((hf.mul_prod hf).ofReal (𝕜 := ℂ)).mul_bdd (c := 1) ?_ (Eventually.of_forall fun z => (wave_norm _ _).le)
    apply Measurable.aestronglyMeasurable
    fun_prop
  have e := integral_re hint
  simp only [RCLike.re_to_complex] at e
  rw [← e]
  refine integral_congr_ae (Eventually.of_forall fun z => ?_)
  simp only [Complex.re_ofReal_mul, Complex.exp_ofReal_mul_I_re]

/-- The quadratic form of the kernel `sin (k r) / (k r)`. -/
noncomputable def sincForm (μ : Measure α) (X : α → Space3) (f : α → ℝ) (k : ℝ) : ℝ :=
  ∫ z, sinc (k * ‖X z.1 - X z.2‖) * (f z.1 * f z.2) ∂μ.prod μ

theorem sincForm_eq [SFinite μ] (hX : Measurable X) (hf : Integrable f μ) (k : ℝ) :
    4 * π * sincForm μ X f k = ∫ p, sin p.1 * ‖waveSum μ X f (k • direction p)‖ ^ 2 ∂angles := by
  have hd := direction_continuous
  have hint : Integrable (Function.uncurry fun (p : ℝ × ℝ) (z : α × α) =>
      sin p.1 * (f z.1 * f z.2 * cos ⟪X z.1 - X z.2, k • direction p⟫)) (angles.prod (μ.prod μ)) := by
    have h1 : Integrable (fun q : (ℝ × ℝ) × (α × α) => sin q.1.1 * (f q.2.1 * f q.2.2)) (angles.prod (μ.prod μ)) :=
      (angles_integrable (g := fun p => sin p.1) (by fun_prop)).mul_prod (hf.mul_prod hf)
    have h2 := h1.mul_bdd (g := fun q => cos ⟪X q.2.1 - X q.2.2, k • direction q.1⟫) (c := 1)
      (by
        have hm := hd.measurable
        apply Measurable.aestronglyMeasurable
        fun_prop)
      (Eventually.of_forall fun q => by rw [Real.norm_eq_abs]; exact abs_cos_le_one _)
    refine h2.congr (Eventually.of_forall fun q => ?_)
    simp only [Function.uncurry]
    ring
  have hs := integral_integral_swap hint
  have l : (fun p : ℝ × ℝ => sin p.1 * ‖waveSum μ X f (k • direction p)‖ ^ 2) = fun p =>
      ∫ z, sin p.1 * (f z.1 * f z.2 * cos ⟪X z.1 - X z.2, k • direction p⟫) ∂μ.prod μ := by
    funext p
    rw [integral_const_mul, ← waveSum_sq_re hX hf]
  rw [l, hs, sincForm, ← integral_const_mul]
  refine integral_congr_ae (Eventually.of_forall fun z => ?_)
  have e : ∀ p : ℝ × ℝ, sin p.1 * (f z.1 * f z.2 * cos ⟪X z.1 - X z.2, k • direction p⟫) =
      f z.1 * f z.2 * (sin p.1 * cos ⟪k • (X z.1 - X z.2), direction p⟫) := fun p => by
    rw [real_inner_smul_right, real_inner_smul_left]
    ring
  simp only [e]
  rw [integral_const_mul, wave_mean, norm_smul, Real.norm_eq_abs]
  have : sinc (|k| * ‖X z.1 - X z.2‖) = sinc (k * ‖X z.1 - X z.2‖) := by
    rcases abs_choice k with h | h <;> rw [h]
    rw [neg_mul, sinc_neg]
  rw [this]
  ring

theorem sin_nonneg_angles : ∀ᵐ p ∂angles, 0 ≤ sin p.1 := by
  rw [angles_eq]
  filter_upwards [ae_restrict_mem (measurableSet_Ioc.prod measurableSet_Ioc)] with p hp
  exact sin_nonneg_of_nonneg_of_le_pi hp.1.1.le hp.1.2

/-- **The kernel `sin (k r) / r` is positive semidefinite.** -/
theorem sincForm_nonneg [SFinite μ] (hX : Measurable X) (hf : Integrable f μ) (k : ℝ) : 0 ≤ sincForm μ X f k := by
  have h := sincForm_eq hX hf k
  have h1 : 0 ≤ ∫ p, sin p.1 * ‖waveSum μ X f (k • direction p)‖ ^ 2 ∂angles := by
    refine integral_nonneg_of_ae ?_
    filter_upwards [sin_nonneg_angles] with p hp
    positivity
  have hp := pi_pos
  rw [← h] at h1
  exact nonneg_of_mul_nonneg_right h1 (by positivity)

/-- If the form is 0, no wave is radiated in any direction. -/
theorem waveSum_zero [SFinite μ] (hX : Measurable X) (hf : Integrable f μ) {k : ℝ} (h0 : sincForm μ X f k = 0)
    {p : ℝ × ℝ} (hp : p ∈ Icc 0 π ×ˢ Icc 0 (2 * π)) : waveSum μ X f (k • direction p) = 0 := by
  have h := sincForm_eq hX hf k
  rw [h0, mul_zero] at h
  have hd := direction_continuous
  have hw := waveSum_continuous hX hf
  have hcont : Continuous fun p : ℝ × ℝ => sin p.1 * ‖waveSum μ X f (k • direction p)‖ ^ 2 := by fun_prop
  have hz := (integral_eq_zero_iff_of_nonneg_ae (μ := angles) (by
    filter_upwards [sin_nonneg_angles] with p hp
    show 0 ≤ sin p.1 * _
    positivity) (angles_integrable hcont)).mp h.symm
  have hz' : (fun p : ℝ × ℝ => sin p.1 * ‖waveSum μ X f (k • direction p)‖ ^ 2)
      =ᵐ[(volume : Measure (ℝ × ℝ)).restrict (Ioo 0 π ×ˢ Ioo 0 (2 * π))] fun _ => 0 := by
    rw [angles_eq] at hz
    exact ae_restrict_of_ae_restrict_of_subset (prod_mono Ioo_subset_Ioc_self Ioo_subset_Ioc_self) hz
  have hopen : ∀ q ∈ Ioo 0 π ×ˢ Ioo 0 (2 * π), waveSum μ X f (k • direction q) = 0 := by
    intro q hq
    have := Measure.eqOn_of_ae_eq hz' hcont.continuousOn continuousOn_const (by
      rw [(isOpen_Ioo.prod isOpen_Ioo).interior_eq]
      exact subset_closure) hq
    have hs : sin q.1 ≠ 0 := (sin_pos_of_mem_Ioo hq.1).ne'
    simpa [hs] using this
  have hcl : IsClosed {q : ℝ × ℝ | waveSum μ X f (k • direction q) = 0} := isClosed_eq (by fun_prop) continuous_const
  refine closure_minimal (fun q hq => hopen q hq) hcl ?_
  rw [closure_prod_eq, closure_Ioo pi_pos.ne, closure_Ioo two_pi_pos.ne]
  exact hp

/-- Integrals of exponential functions are analytic in the exponent. -/
theorem exp_integral_differentiable {g : α → ℂ} {h : α → ℝ} (hg : Integrable g μ) (hh : Measurable h) {C : ℝ}
    (hC : ∀ᵐ p ∂μ, |h p| ≤ C) : Differentiable ℂ fun ζ : ℂ => ∫ p, g p * Complex.exp (ζ * h p * Complex.I) ∂μ := by
  intro ζ
  have hm : ∀ ζ : ℂ, Measurable fun p => Complex.exp (ζ * h p * Complex.I) := fun ζ => by fun_prop
  have hb : ∀ ζ' ∈ Metric.ball ζ 1, ∀ p, |h p| ≤ C → ‖Complex.exp (ζ' * h p * Complex.I)‖ ≤ rexp ((‖ζ‖ + 1) * C) := by
    intro ζ' hζ p hp
    rw [Complex.norm_exp]
    refine exp_le_exp.mpr ((Complex.re_le_norm _).trans ?_)
    rw [norm_mul, norm_mul, Complex.norm_I, mul_one, Complex.norm_real, Real.norm_eq_abs]
    have h1 : ‖ζ'‖ ≤ ‖ζ‖ + 1 := by
      have := norm_le_norm_add_norm_sub ζ ζ'
      rw [Metric.mem_ball, dist_eq_norm, norm_sub_rev] at hζ
      linarith
    exact mul_le_mul h1 hp (abs_nonneg _) (by positivity)
  refine (hasDerivAt_integral_of_dominated_loc_of_deriv_le (μ := μ) (s := Metric.ball ζ 1) (x₀ := ζ)
    (bound := fun p => ‖g p‖ * (rexp ((‖ζ‖ + 1) * C) * |C|))
    (F := fun ζ p => g p * Complex.exp (ζ * h p * Complex.I))
    (F' := fun ζ p => g p * (Complex.exp (ζ * h p * Complex.I) * (h p * Complex.I)))
    (Metric.ball_mem_nhds ζ one_pos) (Eventually.of_forall fun ζ' => hg.aestronglyMeasurable.mul (hm ζ').aestronglyMeasurable)
    ?_ ?_ ?_ (hg.norm.mul_const _) ?_).2.differentiableAt
  · exact hg.mul_bdd (c := rexp ((‖ζ‖ + 1) * C)) (hm ζ).aestronglyMeasurable
      (hC.mono fun p hp => hb ζ (Metric.mem_ball_self one_pos) p hp)
  · refine hg.aestronglyMeasurable.mul (Measurable.aestronglyMeasurable ?_)
    fun_prop
  · refine hC.mono fun p hp ζ' hζ => ?_
    rw [norm_mul, norm_mul, norm_mul, Complex.norm_I, mul_one, Complex.norm_real, Real.norm_eq_abs]
    have h1 := hb ζ' hζ p hp
    have h2 : |h p| ≤ |C| := hp.trans (le_abs_self C)
    gcongr
  · refine Eventually.of_forall fun p ζ' _ => ?_
    have h1 : HasDerivAt (fun ζ : ℂ => ζ * h p * Complex.I) (1 * h p * Complex.I) ζ' :=
      ((hasDerivAt_id ζ').mul_const _).mul_const _
    have := (h1.cexp).const_mul (g p)
    simpa using this

/-- **In a plane the kernel `sin (k r) / r` is definite**: if the form is 0 then the function has mean 0 over the preimage of
every set. -/
theorem sincForm_definite [SFinite μ] (hX : Measurable X) (hfm : Measurable f) (hf : Integrable f μ) {C : ℝ}
    (hC : ∀ᵐ p ∂μ, ‖X p‖ ≤ C) (hplane : ∀ p, X p 2 = 0) {k : ℝ} (hk : k ≠ 0) (h0 : sincForm μ X f k = 0) {B : Set Space3}
    (hB : MeasurableSet B) : ∫ p in X ⁻¹' B, f p ∂μ = 0 := by
  refine integral_preimage_eq_zero hX hfm hf (fun v => ?_) hB
  -- the waves in the plane
  let w : Space3 := WithLp.toLp 2 ![v 0, v 1, 0]
  have hin : ∀ p, ⟪X p, v⟫ = ⟪X p, w⟫ := fun p => by
    simp [w, PiLp.inner_apply, Fin.sum_univ_three, hplane p]
  have hsmall : ∀ s : ℝ, |s| * ‖w‖ < |k| → waveSum μ X f (s • w) = 0 := by
    intro s hs
    have hk' := abs_pos.mpr hk
    let c : ℂ := ⟨s * v 0 / k, s * v 1 / k⟩
    have hc : ‖c‖ ≤ 1 := by
      have h1 : ‖c‖ = |s| * ‖w‖ / |k| := by
        rw [EuclideanSpace.norm_eq, Complex.norm_eq_sqrt_sq_add_sq, ← Real.sqrt_sq_eq_abs, ← Real.sqrt_sq_eq_abs,
          ← Real.sqrt_mul (sq_nonneg s), ← Real.sqrt_div' _ (sq_nonneg k)]
        congr 1
        simp [c, w, Fin.sum_univ_three]
        ring
      rw [h1, div_le_one hk']
      exact hs.le
    obtain ⟨β, hβ, b0, b1⟩ : ∃ β ∈ Icc 0 (2 * π), c.re = ‖c‖ * cos β ∧ c.im = ‖c‖ * sin β := by
      have a1 := Complex.neg_pi_lt_arg c
      have a2 := Complex.arg_le_pi c
      have a3 := pi_pos
      by_cases h : 0 ≤ c.arg
      · exact ⟨c.arg, ⟨h, by linarith⟩, (Complex.norm_mul_cos_arg c).symm, (Complex.norm_mul_sin_arg c).symm⟩
      · refine ⟨c.arg + 2 * π, ⟨by linarith, by linarith⟩, ?_, ?_⟩
        · rw [cos_add_two_pi]
          exact (Complex.norm_mul_cos_arg c).symm
        · rw [sin_add_two_pi]
          exact (Complex.norm_mul_sin_arg c).symm
    have hsin : sin (arcsin ‖c‖) = ‖c‖ := sin_arcsin (by linarith [norm_nonneg c]) hc
    have hw := waveSum_zero hX hf h0 (p := (arcsin ‖c‖, β))
      ⟨⟨arcsin_nonneg.mpr (norm_nonneg c), (arcsin_le_pi_div_two _).trans (by linarith [pi_pos])⟩, hβ⟩
    rw [← hw]
    unfold waveSum
    have e : ∀ p, ⟪X p, s • w⟫ = ⟪X p, k • direction (arcsin ‖c‖, β)⟫ := fun p => by
      rw [real_inner_smul_right, real_inner_smul_right, inner_direction, hplane p]
      simp only [hsin]
      rw [← b0, ← b1]
      simp only [c, w, PiLp.inner_apply, Fin.sum_univ_three, hplane p]
      simp
      field_simp
    simp only [e]
  have hd : Differentiable ℂ fun ζ : ℂ => ∫ p, (f p : ℂ) * Complex.exp (ζ * (⟪X p, w⟫ : ℝ) * Complex.I) ∂μ :=
    exp_integral_differentiable (hf.ofReal (𝕜 := ℂ)) (by fun_prop) (C := C * ‖w‖) (hC.mono fun p hp =>
      (abs_real_inner_le_norm _ _).trans (mul_le_mul_of_nonneg_right hp (norm_nonneg _)))
  have hz : ∀ s : ℝ, waveSum μ X f (s • w) = ∫ p, (f p : ℂ) * Complex.exp ((s : ℂ) * (⟪X p, w⟫ : ℝ) * Complex.I) ∂μ := by
    intro s
    unfold waveSum
    simp only [real_inner_smul_right, Complex.ofReal_mul]
  have han : AnalyticOnNhd ℂ (fun ζ : ℂ => ∫ p, (f p : ℂ) * Complex.exp (ζ * (⟪X p, w⟫ : ℝ) * Complex.I) ∂μ) univ :=
    fun ζ _ => hd.analyticAt ζ
  have hfreq : ∃ᶠ ζ in 𝓝[≠] (0 : ℂ), (∫ p, (f p : ℂ) * Complex.exp (ζ * (⟪X p, w⟫ : ℝ) * Complex.I) ∂μ) = 0 := by
    have ht : Tendsto (fun s : ℝ => (s : ℂ)) (𝓝[≠] 0) (𝓝[≠] 0) := by
      refine tendsto_nhdsWithin_iff.mpr ⟨?_, ?_⟩
      · exact (Complex.continuous_ofReal.tendsto' 0 0 Complex.ofReal_zero).mono_left nhdsWithin_le_nhds
      · filter_upwards [self_mem_nhdsWithin] with s hs
        simpa using hs
    refine ht.frequently (Eventually.frequently ?_)
    have h1 : ∀ᶠ s : ℝ in 𝓝 0, |s| * ‖w‖ < |k| := by
      have : Continuous fun s : ℝ => |s| * ‖w‖ := by fun_prop
      exact (this.tendsto' 0 0 (by simp)).eventually_lt_const (abs_pos.mpr hk)
    filter_upwards [h1.filter_mono nhdsWithin_le_nhds] with s hs
    rw [← hz]
    exact hsmall s hs
  have := han.eqOn_zero_of_preconnected_of_frequently_eq_zero isPreconnected_univ (mem_univ _) hfreq (mem_univ (1 : ℂ))
  have e := hz 1
  rw [one_smul, Complex.ofReal_one] at e
  have e' : waveSum μ X f v = waveSum μ X f w := by
    unfold waveSum
    simp only [hin]
  rw [e', e]
  exact this

/-- The same for a family of functions. -/
theorem family_sinc {β : Type*} [MeasurableSpace β] {ν : Measure β} [SFinite ν] {N : Nat} {X : Fin N → β → Space3}
    (hX : ∀ c, Measurable (X c)) {f : Fin N → β → ℝ}
    (hf : ∀ c, Measurable (f c)) (hi : ∀ c, Integrable (f c) ν) (k : ℝ) :
    0 ≤ ∑ c, ∑ c', ∫ z : β × β, sinc (k * ‖X c z.1 - X c' z.2‖) * (f c z.1 * f c' z.2) ∂ν.prod ν ∧
    ∀ C : ℝ, (∀ c, ∀ᵐ x ∂ν, ‖X c x‖ ≤ C) → (∀ c x, X c x 2 = 0) → k ≠ 0 →
      (∑ c, ∑ c', ∫ z : β × β, sinc (k * ‖X c z.1 - X c' z.2‖) * (f c z.1 * f c' z.2) ∂ν.prod ν = 0 →
      ∀ B : Set Space3, MeasurableSet B → ∑ c, ∫ x in X c ⁻¹' B, f c x ∂ν = 0) := by
  let Y : Fin N × β → Space3 := fun p => X p.1 p.2
  let F : Fin N × β → ℝ := fun p => f p.1 p.2
  have hY : Measurable Y := measurable_from_prod_countable_right hX
  have hF : Measurable F := measurable_from_prod_countable_right hf
  have hsm : Measurable sinc := continuous_sinc.measurable
  have hm : Measurable fun z : (Fin N × β) × (Fin N × β) => sinc (k * ‖Y z.1 - Y z.2‖) * (F z.1 * F z.2) := by fun_prop
  have hint : ∀ c c', Integrable (fun z : β × β => sinc (k * ‖X c z.1 - X c' z.2‖) * (f c z.1 * f c' z.2)) (ν.prod ν) := by
    intro c c'
    have := hX c
    have := hX c'
    exact ((hi c).mul_prod (hi c')).bdd_mul (c := 1) (Measurable.aestronglyMeasurable (by fun_prop))
      (Eventually.of_forall fun z => by rw [Real.norm_eq_abs]; exact abs_sinc_le_one _)
  have hI := copies_integrable (ν := ν) hF hi
  have e := copies_prod_integral (ν := ν) hm hint
  have e' : sincForm (copies N ν) Y F k =
      ∑ c, ∑ c', ∫ z : β × β, sinc (k * ‖X c z.1 - X c' z.2‖) * (f c z.1 * f c' z.2) ∂ν.prod ν := e
  rw [← e']
  refine ⟨sincForm_nonneg hY hI k, fun C hC hp hk h0 B hB => ?_⟩
  have := sincForm_definite hY hF hI (C := C) ?_ (fun p => hp p.1 p.2) hk h0 hB
  · rwa [copies_setIntegral hF hi (hY hB)] at this
  · rw [copies, ae_finsetSum_measure_iff]
    intro c _
    rw [ae_map_iff (by fun_prop) (measurableSet_le (by fun_prop) measurable_const)]
    exact hC c

end
end Bempp
