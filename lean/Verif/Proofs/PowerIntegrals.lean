import Mathlib.Analysis.SpecialFunctions.Integrability.Basic
import Mathlib.MeasureTheory.Measure.Prod
import Mathlib.MeasureTheory.Integral.Prod
import Mathlib.MeasureTheory.Group.LIntegral
import Mathlib.MeasureTheory.Measure.Haar.OfBasis
import Mathlib.MeasureTheory.Measure.Haar.Unique
import Mathlib.MeasureTheory.Measure.Lebesgue.Basic
/-
Integrals of negative powers.
-/
namespace Bempp
open MeasureTheory ENNReal

/-- `|u|^(-s)`, infinite at 0. -/
noncomputable def negPow (s u : ℝ) : ℝ≥0∞ := (ENNReal.ofReal |u|) ^ (-s)

theorem negPow_measurable (s : ℝ) : Measurable (negPow s) := by
  unfold negPow
  fun_prop

theorem negPow_neg (s u : ℝ) : negPow s (-u) = negPow s u := by
  unfold negPow
  rw [abs_neg]

theorem negPow_le_one {s u : ℝ} (hs : 0 ≤ s) (hu : 1 ≤ |u|) : negPow s u ≤ 1 := by
  unfold negPow
  rw [ENNReal.rpow_neg]
  refine ENNReal.inv_le_one.mpr ?_
  have : (1 : ℝ≥0∞) ≤ ENNReal.ofReal |u| := by
    rw [← ENNReal.ofReal_one]
    exact ENNReal.ofReal_le_ofReal hu
  calc (1 : ℝ≥0∞) = 1 ^ s := (ENNReal.one_rpow s).symm
    _ ≤ _ := ENNReal.rpow_le_rpow this hs

/-- Part of the function on the positive half-line near 0. -/
noncomputable def nearPow (s u : ℝ) : ℝ≥0∞ := (Set.Icc (0 : ℝ) 1).indicator (negPow s) u

theorem lintegral_nearPow {s : ℝ} (hs : s < 1) : ∫⁻ u, nearPow s u ≠ ⊤ := by
  unfold nearPow
  rw [lintegral_indicator measurableSet_Icc, ← setLIntegral_congr (Ioc_ae_eq_Icc (μ := volume) (a := (0:ℝ)) (b := 1))]
  have h : IntegrableOn (fun u : ℝ => u ^ (-s)) (Set.Ioc 0 1) := by
    have := intervalIntegral.intervalIntegrable_rpow' (a := 0) (b := 1) (r := -s) (by linarith)
    rwa [intervalIntegrable_iff_integrableOn_Ioc_of_le zero_le_one] at this
  have h2 := h.2
  rw [hasFiniteIntegral_iff_norm] at h2
  refine ne_of_lt (lt_of_le_of_lt (setLIntegral_mono_ae' measurableSet_Ioc (Filter.Eventually.of_forall ?_)) h2)
  intro u hu
  unfold negPow
  rw [abs_of_pos hu.1, ENNReal.ofReal_rpow_of_pos hu.1]
  exact ENNReal.ofReal_le_ofReal (le_abs_self _)

theorem negPow_le {s : ℝ} (hs : 0 ≤ s) (u : ℝ) : negPow s u ≤ 1 + nearPow s u + nearPow s (-u) := by
  by_cases h : 1 ≤ |u|
  · exact (negPow_le_one hs h).trans (by rw [add_assoc]; exact le_self_add)
  · rw [not_le] at h
    rcases le_total 0 u with h0 | h0
    · have : nearPow s u = negPow s u := by
        unfold nearPow
        rw [Set.indicator_of_mem]
        exact ⟨h0, (le_abs_self u).trans h.le⟩
      rw [this]
      exact le_add_right le_add_self
    · have : nearPow s (-u) = negPow s u := by
        unfold nearPow
        rw [Set.indicator_of_mem, negPow_neg]
        exact ⟨by linarith, (neg_le_abs u).trans h.le⟩
      rw [this]
      exact le_add_self

theorem nearPow_measurable (s : ℝ) : Measurable (nearPow s) := (negPow_measurable s).indicator measurableSet_Icc

/-- The bound for the integrals over the unit interval. -/
noncomputable def powBound (s : ℝ) : ℝ≥0∞ := 1 + (∫⁻ u, nearPow s u) + ∫⁻ u, nearPow s u

theorem powBound_ne_top {s : ℝ} (hs : s < 1) : powBound s ≠ ⊤ :=
  ENNReal.add_ne_top.mpr ⟨ENNReal.add_ne_top.mpr ⟨one_ne_top, lintegral_nearPow hs⟩, lintegral_nearPow hs⟩

theorem lintegral_negPow {s : ℝ} (h0 : 0 ≤ s) (a : ℝ) :
    ∫⁻ y in Set.Icc (0 : ℝ) 1, negPow s (y - a) ≤ powBound s := by
  have hm := nearPow_measurable s
  have h1 : Measurable fun y : ℝ => nearPow s (y - a) := hm.comp (measurable_id.sub_const a)
  have h2 : Measurable fun y : ℝ => nearPow s (-(y - a)) := hm.comp (measurable_id.sub_const a).neg
  calc ∫⁻ y in Set.Icc (0 : ℝ) 1, negPow s (y - a)
      ≤ ∫⁻ y in Set.Icc (0 : ℝ) 1, (1 + nearPow s (y - a) + nearPow s (-(y - a))) :=
        lintegral_mono fun y => negPow_le h0 (y - a)
    _ = (∫⁻ _ in Set.Icc (0 : ℝ) 1, 1) + (∫⁻ y in Set.Icc (0 : ℝ) 1, nearPow s (y - a)) +
          ∫⁻ y in Set.Icc (0 : ℝ) 1, nearPow s (-(y - a)) := by
        rw [lintegral_add_right _ h2, lintegral_add_right _ h1]
    _ ≤ 1 + (∫⁻ y, nearPow s (y - a)) + ∫⁻ y, nearPow s (-(y - a)) := by
        refine add_le_add (add_le_add ?_ (setLIntegral_le_lintegral _ _)) (setLIntegral_le_lintegral _ _)
        simp
    _ = powBound s := by
        unfold powBound
        rw [lintegral_sub_right_eq_self (nearPow s) a]
        congr 1
        have : (fun y : ℝ => nearPow s (-(y - a))) = fun y => nearPow s (a - y) := by
          funext y
          rw [neg_sub]
        rw [this, lintegral_sub_left_eq_self (nearPow s) a]

/-- The unit square. -/
def unitSquare : Set (ℝ × ℝ) := Set.Icc (0 : ℝ) 1 ×ˢ Set.Icc (0 : ℝ) 1

theorem lintegral_negPow_mul {s : ℝ} (h0 : 0 ≤ s) {K : Set (ℝ × ℝ)} (hK : K ⊆ unitSquare) (a b : ℝ) :
    ∫⁻ y in K, negPow s (y.1 - a) * negPow s (y.2 - b) ≤ powBound s * powBound s := by
  have m1 : Measurable fun y : ℝ => negPow s (y - a) := (negPow_measurable s).comp (measurable_id.sub_const a)
  have m2 : Measurable fun y : ℝ => negPow s (y - b) := (negPow_measurable s).comp (measurable_id.sub_const b)
  calc ∫⁻ y in K, negPow s (y.1 - a) * negPow s (y.2 - b)
      ≤ ∫⁻ y in unitSquare, negPow s (y.1 - a) * negPow s (y.2 - b) := lintegral_mono_set hK
    _ = (∫⁻ y in Set.Icc (0 : ℝ) 1, negPow s (y - a)) * ∫⁻ y in Set.Icc (0 : ℝ) 1, negPow s (y - b) := by
        unfold unitSquare
        rw [Measure.volume_eq_prod, ← Measure.prod_restrict]
        exact lintegral_prod_mul m1.aemeasurable m2.aemeasurable
    _ ≤ _ := mul_le_mul' (lintegral_negPow h0 a) (lintegral_negPow h0 b)

theorem negPow_mul (s c u : ℝ) : negPow s (c * u) = negPow s c * negPow s u := by
  unfold negPow
  rw [abs_mul, ENNReal.ofReal_mul (abs_nonneg c), ENNReal.mul_rpow_of_ne_top ofReal_ne_top ofReal_ne_top]

theorem negPow_ne_top {s u : ℝ} (hu : u ≠ 0) : negPow s u ≠ ⊤ := by
  unfold negPow
  exact ENNReal.rpow_ne_top_of_ne_zero (by simp [hu]) ofReal_ne_top

/-- Negative powers of affine functions. -/
theorem lintegral_negPow_affine {s : ℝ} (h0 : 0 ≤ s) (h1 : s < 1) {K : Set (ℝ × ℝ)} (hK : K ⊆ unitSquare) (c a b : ℝ)
    (hne : c ≠ 0 ∨ a ≠ 0 ∨ b ≠ 0) : ∫⁻ x in K, negPow s (c + a * x.1 + b * x.2) ≠ ⊤ := by
  refine ne_top_of_le_ne_top ?_ (lintegral_mono_set hK)
  have hm : Measurable fun x : ℝ × ℝ => negPow s (c + a * x.1 + b * x.2) :=
    (negPow_measurable s).comp (by fun_prop)
  have hms : ∀ d : ℝ, Measurable fun y : ℝ => negPow s (y - d) := fun d =>
    (negPow_measurable s).comp (measurable_id.sub_const d)
  have hfin : ∀ u : ℝ, u ≠ 0 → negPow s u * powBound s ≠ ⊤ := fun u hu =>
    ENNReal.mul_ne_top (negPow_ne_top hu) (powBound_ne_top h1)
  unfold unitSquare
  rw [Measure.volume_eq_prod, ← Measure.prod_restrict]
  by_cases ha : a = 0
  · by_cases hb : b = 0
    · subst ha hb
      have hc : c ≠ 0 := by simpa using hne
      simp only [zero_mul, add_zero, lintegral_const]
      exact ENNReal.mul_ne_top (negPow_ne_top hc) (by simp)
    · rw [lintegral_prod _ hm.aemeasurable]
      refine ne_top_of_le_ne_top (hfin b hb) ((lintegral_mono (g := fun _ => negPow s b * powBound s) ?_).trans ?_)
      · intro x
        have e : ∀ y : ℝ, negPow s (c + a * x + b * y) = negPow s b * negPow s (y - -(c + a * x) / b) := by
          intro y
          rw [← negPow_mul]
          congr 1
          field_simp
          ring
        simp only [e]
        rw [lintegral_const_mul _ (hms _)]
        exact mul_le_mul_right (lintegral_negPow h0 _) _
      · simp
  · rw [lintegral_prod_symm _ hm.aemeasurable]
    refine ne_top_of_le_ne_top (hfin a ha) ((lintegral_mono (g := fun _ => negPow s a * powBound s) ?_).trans ?_)
    · intro x
      have e : ∀ y : ℝ, negPow s (c + a * y + b * x) = negPow s a * negPow s (y - -(c + b * x) / a) := by
        intro y
        rw [← negPow_mul]
        congr 1
        field_simp
        ring
      simp only [e]
      rw [lintegral_const_mul _ (hms _)]
      exact mul_le_mul_right (lintegral_negPow h0 _) _
    · simp

end Bempp
