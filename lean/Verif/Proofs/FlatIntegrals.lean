import Verif.Proofs.PowerIntegrals
import Mathlib.Tactic.Linarith
import Mathlib.Tactic.Positivity
import Mathlib.Tactic.FieldSimp
import Mathlib.Analysis.Real.Sqrt
/-
Singular integrals over pairs of flat cells are finite.
-/
namespace Bempp
open MeasureTheory ENNReal

/-- The scalar product. -/
def dot3 (u v : Nat → ℝ) : ℝ := u 0 * v 0 + u 1 * v 1 + u 2 * v 2

/-- The point with reference coordinates `z` of the flat cell at `P` with tangents `A` and `B`. -/
def flatPoint (P A B : Nat → ℝ) (z : ℝ × ℝ) (i : Nat) : ℝ := P i + z.1 * A i + z.2 * B i

/-- The difference of two points. -/
def diff3 (p q : Nat → ℝ) (i : Nat) : ℝ := q i - p i

/-- The distance. -/
noncomputable def dist3 (p q : Nat → ℝ) : ℝ := Real.sqrt (dot3 (diff3 p q) (diff3 p q))

/-- Tangents, normal and dual vectors of a flat cell. -/
structure FlatFrame (A B N U W : Nat → ℝ) : Prop where
  nA : dot3 N A = 0
  nB : dot3 N B = 0
  unit : dot3 N N = 1
  uA : dot3 U A = 1
  uB : dot3 U B = 0
  wA : dot3 W A = 0
  wB : dot3 W B = 1

theorem dot3_self_nonneg (u : Nat → ℝ) : 0 ≤ dot3 u u := by
  unfold dot3
  nlinarith [mul_self_nonneg (u 0), mul_self_nonneg (u 1), mul_self_nonneg (u 2)]

theorem dot3_le (u v : Nat → ℝ) : |dot3 u v| ≤ Real.sqrt (dot3 u u) * Real.sqrt (dot3 v v) := by
  rw [← Real.sqrt_mul (dot3_self_nonneg u), ← Real.sqrt_sq_eq_abs]
  apply Real.sqrt_le_sqrt
  unfold dot3
  nlinarith [mul_self_nonneg (u 0 * v 1 - u 1 * v 0), mul_self_nonneg (u 0 * v 2 - u 2 * v 0),
    mul_self_nonneg (u 1 * v 2 - u 2 * v 1)]

section
variable {A B N U W : Nat → ℝ} (h : FlatFrame A B N U W) (P : Nat → ℝ)
include h

theorem FlatFrame.normal_diff (p : Nat → ℝ) (y : ℝ × ℝ) : dot3 N (diff3 p (flatPoint P A B y)) = dot3 N (diff3 p P) := by
  have h1 := h.nA
  have h2 := h.nB
  simp only [dot3, diff3, flatPoint] at *
  linear_combination y.1 * h1 + y.2 * h2

theorem FlatFrame.first_diff (p : Nat → ℝ) (y : ℝ × ℝ) :
    dot3 U (diff3 p (flatPoint P A B y)) = y.1 - dot3 U (diff3 P p) := by
  have h1 := h.uA
  have h2 := h.uB
  simp only [dot3, diff3, flatPoint] at *
  linear_combination y.1 * h1 + y.2 * h2

theorem FlatFrame.second_diff (p : Nat → ℝ) (y : ℝ × ℝ) :
    dot3 W (diff3 p (flatPoint P A B y)) = y.2 - dot3 W (diff3 P p) := by
  have h1 := h.wA
  have h2 := h.wB
  simp only [dot3, diff3, flatPoint] at *
  linear_combination y.1 * h1 + y.2 * h2

/-- The distance of a point from the points of a flat cell, from below. -/
theorem FlatFrame.dist_first (p : Nat → ℝ) (y : ℝ × ℝ) :
    |y.1 - dot3 U (diff3 P p)| ≤ Real.sqrt (dot3 U U) * dist3 p (flatPoint P A B y) := by
  rw [← h.first_diff P p y]
  exact dot3_le _ _

theorem FlatFrame.dist_second (p : Nat → ℝ) (y : ℝ × ℝ) :
    |y.2 - dot3 W (diff3 P p)| ≤ Real.sqrt (dot3 W W) * dist3 p (flatPoint P A B y) := by
  rw [← h.second_diff P p y]
  exact dot3_le _ _

theorem FlatFrame.dist_normal (p : Nat → ℝ) (y : ℝ × ℝ) :
    |dot3 N (diff3 p P)| ≤ dist3 p (flatPoint P A B y) := by
  rw [← h.normal_diff P p y]
  have := dot3_le N (diff3 p (flatPoint P A B y))
  rwa [h.unit, Real.sqrt_one, one_mul] at this

end

theorem negPow_anti {s u v : ℝ} (hs : 0 ≤ s) (h : |u| ≤ |v|) : negPow s v ≤ negPow s u := by
  unfold negPow
  rw [ENNReal.rpow_neg, ENNReal.rpow_neg]
  exact ENNReal.inv_le_inv' (ENNReal.rpow_le_rpow (ENNReal.ofReal_le_ofReal h) hs)

theorem negPow_add {s s' u : ℝ} (hu : u ≠ 0) : negPow (s + s') u = negPow s u * negPow s' u := by
  unfold negPow
  rw [neg_add, ENNReal.rpow_add _ _ (by simp [hu]) ofReal_ne_top]

/-- A negative power of the distance by a negative power of a difference of coordinates. -/
theorem negPow_first {s c r u : ℝ} (hs : 0 ≤ s) (hr : 0 ≤ r) (hc : 0 < c) (h : |u| ≤ c * r) :
    negPow s r ≤ negPow s (1 / c) * negPow s u := by
  rw [← negPow_mul]
  apply negPow_anti hs
  rw [abs_of_nonneg hr, abs_mul, abs_of_pos (by positivity : 0 < 1 / c), one_div, inv_mul_le_iff₀ hc]
  exact h

theorem ofReal_inv_pow {r : ℝ} (hr : 0 ≤ r) (h0 : r ≠ 0) (k : Nat) : ENNReal.ofReal (1 / r ^ k) = negPow k r := by
  unfold negPow
  have hp : 0 < r := lt_of_le_of_ne hr (Ne.symm h0)
  rw [abs_of_nonneg hr, ENNReal.ofReal_rpow_of_pos hp, Real.rpow_neg hr, Real.rpow_natCast, one_div]

theorem dist3_nonneg (p q : Nat → ℝ) : 0 ≤ dist3 p q := Real.sqrt_nonneg _

theorem sqrt_pos_of_dot {u v : Nat → ℝ} (h : dot3 u v = 1) : 0 < Real.sqrt (dot3 u u) := by
  have := dot3_le u v
  rw [h, abs_one] at this
  rcases lt_or_eq_of_le (Real.sqrt_nonneg (dot3 u u)) with h' | h'
  · exact h'
  · rw [← h', zero_mul] at this
    linarith

theorem unitSquare_volume {K : Set (ℝ × ℝ)} (hK : K ⊆ unitSquare) : volume K ≠ ⊤ := by
  refine ne_top_of_le_ne_top ?_ (measure_mono hK)
  unfold unitSquare
  rw [Measure.volume_eq_prod, Measure.prod_prod]
  simp

section
variable {A B N U W : Nat → ℝ} (h : FlatFrame A B N U W) (P : Nat → ℝ)
include h

/-- The constant in the bounds. -/
noncomputable def frameConst (s : ℝ) (U W : Nat → ℝ) : ℝ≥0∞ :=
  negPow s (1 / Real.sqrt (dot3 U U)) * negPow s (1 / Real.sqrt (dot3 W W))

theorem FlatFrame.const_ne_top (s : ℝ) : frameConst s U W ≠ ⊤ := by
  have h1 := sqrt_pos_of_dot h.uA
  have h2 := sqrt_pos_of_dot h.wB
  exact ENNReal.mul_ne_top (negPow_ne_top (by positivity)) (negPow_ne_top (by positivity))

theorem FlatFrame.pow_le {s : ℝ} (hs : 0 ≤ s) (p : Nat → ℝ) (y : ℝ × ℝ) :
    negPow s (dist3 p (flatPoint P A B y)) * negPow s (dist3 p (flatPoint P A B y)) ≤
      frameConst s U W * (negPow s (y.1 - dot3 U (diff3 P p)) * negPow s (y.2 - dot3 W (diff3 P p))) := by
  have h1 := negPow_first hs (dist3_nonneg _ _) (sqrt_pos_of_dot h.uA) (h.dist_first P p y)
  have h2 := negPow_first hs (dist3_nonneg _ _) (sqrt_pos_of_dot h.wB) (h.dist_second P p y)
  refine (mul_le_mul' h1 h2).trans (le_of_eq ?_)
  unfold frameConst
  rw [mul_mul_mul_comm]

/-- The singularity of the single layer potential. -/
theorem FlatFrame.value_le (p : Nat → ℝ) (y : ℝ × ℝ) :
    ENNReal.ofReal (1 / dist3 p (flatPoint P A B y)) ≤
      frameConst (1 / 2) U W *
        (negPow (1 / 2) (y.1 - dot3 U (diff3 P p)) * negPow (1 / 2) (y.2 - dot3 W (diff3 P p))) := by
  by_cases h0 : dist3 p (flatPoint P A B y) = 0
  · rw [h0, _root_.div_zero, ENNReal.ofReal_zero]
    exact zero_le
  · have := ofReal_inv_pow (dist3_nonneg _ _) h0 1
    rw [pow_one] at this
    rw [this, show ((1 : ℕ) : ℝ) = 1 / 2 + 1 / 2 by norm_num, negPow_add h0]
    exact h.pow_le P (by norm_num) p y

/-- The singularity of the double layer potential. -/
theorem FlatFrame.normal_le (p : Nat → ℝ) (y : ℝ × ℝ) :
    ENNReal.ofReal (|dot3 N (diff3 p P)| / dist3 p (flatPoint P A B y) ^ 3) ≤
      negPow (1 / 2) (dot3 N (diff3 p P)) * (frameConst (3 / 4) U W *
        (negPow (3 / 4) (y.1 - dot3 U (diff3 P p)) * negPow (3 / 4) (y.2 - dot3 W (diff3 P p)))) := by
  by_cases h0 : dist3 p (flatPoint P A B y) = 0
  · rw [h0, zero_pow (by decide), _root_.div_zero, ENNReal.ofReal_zero]
    exact zero_le
  · have hr := dist3_nonneg p (flatPoint P A B y)
    have hp : 0 < dist3 p (flatPoint P A B y) := lt_of_le_of_ne hr (Ne.symm h0)
    have hle := h.dist_normal P p y
    have : |dot3 N (diff3 p P)| / dist3 p (flatPoint P A B y) ^ 3 ≤ 1 / dist3 p (flatPoint P A B y) ^ 2 := by
      rw [div_le_div_iff₀ (by positivity) (by positivity), one_mul, pow_succ _ 2, mul_comm]
      exact mul_le_mul_of_nonneg_left hle (by positivity)
    refine (ENNReal.ofReal_le_ofReal this).trans ?_
    rw [ofReal_inv_pow hr h0 2, show ((2 : ℕ) : ℝ) = 1 / 2 + (3 / 4 + 3 / 4) by norm_num, negPow_add h0, negPow_add h0]
    refine mul_le_mul' (negPow_anti (by norm_num) ?_) (h.pow_le P (by norm_num) p y)
    rwa [abs_of_nonneg hr]

theorem FlatFrame.inner_value {K : Set (ℝ × ℝ)} (hK : K ⊆ unitSquare) (p : Nat → ℝ) :
    ∫⁻ y in K, ENNReal.ofReal (1 / dist3 p (flatPoint P A B y)) ≤
      frameConst (1 / 2) U W * (powBound (1 / 2) * powBound (1 / 2)) := by
  refine (lintegral_mono fun y => h.value_le P p y).trans ?_
  rw [lintegral_const_mul']
  · exact mul_le_mul_right (lintegral_negPow_mul (by norm_num) hK _ _) _
  · exact h.const_ne_top _

theorem FlatFrame.inner_normal {K : Set (ℝ × ℝ)} (hK : K ⊆ unitSquare) (p : Nat → ℝ) :
    ∫⁻ y in K, ENNReal.ofReal (|dot3 N (diff3 p P)| / dist3 p (flatPoint P A B y) ^ 3) ≤
      negPow (1 / 2) (dot3 N (diff3 p P)) * (frameConst (3 / 4) U W * (powBound (3 / 4) * powBound (3 / 4))) := by
  by_cases h0 : dot3 N (diff3 p P) = 0
  · rw [h0]
    simp
  · refine (lintegral_mono fun y => h.normal_le P p y).trans ?_
    rw [lintegral_const_mul' _ _ (negPow_ne_top h0), lintegral_const_mul' _ _ (h.const_ne_top _)]
    exact mul_le_mul_right (mul_le_mul_right (lintegral_negPow_mul (by norm_num) hK _ _) _) _

/-- The single layer potential of a flat cell is integrable over another flat cell. -/
theorem FlatFrame.double_value {K : Set (ℝ × ℝ)} (hK : K ⊆ unitSquare) (p : ℝ × ℝ → Nat → ℝ) :
    ∫⁻ x in K, ∫⁻ y in K, ENNReal.ofReal (1 / dist3 (p x) (flatPoint P A B y)) ≠ ⊤ := by
  refine ne_top_of_le_ne_top ?_ (lintegral_mono fun x => h.inner_value P hK (p x))
  rw [lintegral_const]
  refine ENNReal.mul_ne_top (ENNReal.mul_ne_top (h.const_ne_top _) (ENNReal.mul_ne_top ?_ ?_)) ?_
  · exact powBound_ne_top (by norm_num)
  · exact powBound_ne_top (by norm_num)
  · rw [Measure.restrict_apply_univ]
    exact unitSquare_volume hK

/-- The same for the double layer potential. -/
theorem FlatFrame.double_normal {K : Set (ℝ × ℝ)} (hK : K ⊆ unitSquare) (P' A' B' : Nat → ℝ) :
    ∫⁻ x in K, ∫⁻ y in K, ENNReal.ofReal (|dot3 N (diff3 (flatPoint P' A' B' x) P)| /
      dist3 (flatPoint P' A' B' x) (flatPoint P A B y) ^ 3) ≠ ⊤ := by
  have e : ∀ x : ℝ × ℝ, dot3 N (diff3 (flatPoint P' A' B' x) P) =
      dot3 N (diff3 P' P) + -dot3 N A' * x.1 + -dot3 N B' * x.2 := by
    intro x
    simp only [dot3, diff3, flatPoint]
    ring
  by_cases h0 : dot3 N (diff3 P' P) ≠ 0 ∨ -dot3 N A' ≠ 0 ∨ -dot3 N B' ≠ 0
  · refine ne_top_of_le_ne_top ?_ (lintegral_mono fun x => h.inner_normal P hK (flatPoint P' A' B' x))
    rw [lintegral_mul_const']
    · refine ENNReal.mul_ne_top ?_ ?_
      · simp only [e]
        exact lintegral_negPow_affine (by norm_num) (by norm_num) hK _ _ _ h0
      · exact ENNReal.mul_ne_top (h.const_ne_top _)
          (ENNReal.mul_ne_top (powBound_ne_top (by norm_num)) (powBound_ne_top (by norm_num)))
    · exact ENNReal.mul_ne_top (h.const_ne_top _)
        (ENNReal.mul_ne_top (powBound_ne_top (by norm_num)) (powBound_ne_top (by norm_num)))
  · simp only [not_or, not_not] at h0
    simp only [e, h0.1, h0.2.1, h0.2.2]
    simp

end
end Bempp
