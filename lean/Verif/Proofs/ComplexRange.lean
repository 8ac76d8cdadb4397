import Verif.Spec.Range
import Mathlib.Analysis.Complex.Basic
import Mathlib.Tactic.Positivity
import Mathlib.Tactic.Linarith
import Mathlib.Tactic.FieldSimp
/-
Complex arithmetic made of real operations.
-/
namespace Bempp
open NNReal

section
variable {u : ℝ} {m : ℝ≥0} {Ω : ℝ} (A : Ranged ℝ u m Ω)

/-- A weaker accuracy. -/
def Ranged.weaken {𝕜 : Type} [NormedField 𝕜] {u u' : ℝ} {m m' : ℝ≥0} {Ω Ω' : ℝ} (A : Ranged 𝕜 u m Ω) (h0 : 0 ≤ u)
    (hu : u ≤ u') (hm : m ≤ m') (hΩ : Ω' ≤ Ω) : Ranged 𝕜 u' m' Ω' :=
  { add := A.add
    sub := A.sub
    mul := A.mul
    div := A.div
    divides := A.divides
    divides_ne := A.divides_ne
    add_err := fun x y h => (A.add_err x y (h.trans hΩ)).trans (mul_le_mul_of_nonneg_right hu (norm_nonneg _))
    sub_err := fun x y h => (A.sub_err x y (h.trans hΩ)).trans (mul_le_mul_of_nonneg_right hu (norm_nonneg _))
    mul_err := fun x y h => (A.mul_err x y (h.trans hΩ)).trans
      (mul_le_mul hu (by have : (m : ℝ) ≤ m' := hm; linarith) (by positivity) (by linarith))
    div_err := fun x y hy h => (A.div_err x y hy (h.trans hΩ)).trans
      (mul_le_mul hu (by have : (m : ℝ) ≤ m' := hm; linarith) (by positivity) (by linarith)) }

theorem products_err (h0 : 0 ≤ u) (h1 : u ≤ 1) {a b c d Z : ℝ} (hZ : |a * c| + |b * d| ≤ Z)
    (hΩ : 2 * Z + 2 * m ≤ Ω) {s : ℝ} (e : ℝ)
    (he : |A.mul a c + e * A.mul b d| ≤ Ω → |s - (A.mul a c + e * A.mul b d)| ≤ u * |A.mul a c + e * A.mul b d|)
    (hee : |e| ≤ 1) : |s - (a * c + e * (b * d))| ≤ u * (3 * Z + 4 * m) := by
  have hm : (0 : ℝ) ≤ m := m.coe_nonneg
  have n1 := abs_nonneg (a * c)
  have n2 := abs_nonneg (b * d)
  have p := A.mul_err a c (by rw [Real.norm_eq_abs]; linarith)
  have q := A.mul_err b d (by rw [Real.norm_eq_abs]; linarith)
  simp only [Real.norm_eq_abs] at p q
  generalize A.mul a c = P at *
  generalize A.mul b d = R at *
  have q' : |e * R - e * (b * d)| ≤ u * (|b * d| + m) := by
    rw [← mul_sub, abs_mul]
    calc |e| * |R - b * d| ≤ 1 * (u * (|b * d| + m)) := mul_le_mul hee q (abs_nonneg _) zero_le_one
      _ = _ := one_mul _
  have s1 : |P + e * R - (a * c + e * (b * d))| ≤ u * (Z + 2 * m) := by
    have : P + e * R - (a * c + e * (b * d)) = (P - a * c) + (e * R - e * (b * d)) := by ring
    rw [this]
    have := abs_add_le (P - a * c) (e * R - e * (b * d))
    have := mul_le_mul_of_nonneg_left hZ h0
    linarith
  have s2 : |a * c + e * (b * d)| ≤ Z := by
    refine (abs_add_le _ _).trans (le_trans (add_le_add le_rfl ?_) hZ)
    rw [abs_mul]
    calc |e| * |b * d| ≤ 1 * |b * d| := mul_le_mul_of_nonneg_right hee (abs_nonneg _)
      _ = _ := one_mul _
  have hu1 : u * (Z + 2 * m) ≤ Z + 2 * m := by
    have : 0 ≤ Z + 2 * m := by linarith
    nlinarith
  have s3 : |P + e * R| ≤ 2 * Z + 2 * m := by
    have := abs_add_le (P + e * R - (a * c + e * (b * d))) (a * c + e * (b * d))
    rw [sub_add_cancel] at this
    linarith
  have s4 := he (s3.trans hΩ)
  have s5 : |s - (a * c + e * (b * d))| ≤ |s - (P + e * R)| + |P + e * R - (a * c + e * (b * d))| := by
    have := abs_add_le (s - (P + e * R)) (P + e * R - (a * c + e * (b * d)))
    simpa using this
  have s6 := mul_le_mul_of_nonneg_left s3 h0
  nlinarith

theorem add_products (h0 : 0 ≤ u) (h1 : u ≤ 1) {a b c d Z : ℝ} (hZ : |a * c| + |b * d| ≤ Z)
    (hΩ : 2 * Z + 2 * m ≤ Ω) :
    |A.add (A.mul a c) (A.mul b d) - (a * c + b * d)| ≤ u * (3 * Z + 4 * m) := by
  have := products_err A h0 h1 hZ hΩ (s := A.add (A.mul a c) (A.mul b d)) 1 (by
    rw [one_mul]; exact A.add_err _ _) (by simp)
  rwa [one_mul] at this

theorem sub_products (h0 : 0 ≤ u) (h1 : u ≤ 1) {a b c d Z : ℝ} (hZ : |a * c| + |b * d| ≤ Z)
    (hΩ : 2 * Z + 2 * m ≤ Ω) :
    |A.sub (A.mul a c) (A.mul b d) - (a * c - b * d)| ≤ u * (3 * Z + 4 * m) := by
  have := products_err A h0 h1 hZ hΩ (s := A.sub (A.mul a c) (A.mul b d)) (-1) (by
    rw [neg_one_mul, ← sub_eq_add_neg]; exact A.sub_err _ _) (by simp)
  rwa [neg_one_mul, ← sub_eq_add_neg] at this

theorem norm_le_parts (z : ℂ) {a b : ℝ} (ha : |z.re| ≤ a) (hb : |z.im| ≤ b) : ‖z‖ ≤ a + b :=
  (Complex.norm_le_abs_re_add_abs_im z).trans (add_le_add ha hb)

theorem cauchy (x y : ℂ) : |x.re * y.re| + |x.im * y.im| ≤ ‖x * y‖ ∧ |x.re * y.im| + |x.im * y.re| ≤ ‖x * y‖ := by
  have e : ‖x * y‖ ^ 2 = (x.re ^ 2 + x.im ^ 2) * (y.re ^ 2 + y.im ^ 2) := by
    rw [norm_mul, mul_pow, Complex.sq_norm, Complex.sq_norm, Complex.normSq_apply, Complex.normSq_apply]
    ring
  constructor
  · refine abs_le_of_sq_le_sq' ?_ (norm_nonneg _) |>.2
    rw [e, abs_mul, abs_mul]
    rw [← sq_abs x.re, ← sq_abs x.im, ← sq_abs y.re, ← sq_abs y.im]
    nlinarith [sq_nonneg (|x.re| * |y.im| - |x.im| * |y.re|)]
  · refine abs_le_of_sq_le_sq' ?_ (norm_nonneg _) |>.2
    rw [e, abs_mul, abs_mul]
    rw [← sq_abs x.re, ← sq_abs x.im, ← sq_abs y.re, ← sq_abs y.im]
    nlinarith [sq_nonneg (|x.re| * |y.re| - |x.im| * |y.im|)]

theorem complexMul_err (h0 : 0 ≤ u) (h1 : u ≤ 1) (x y : ℂ) (h : 2 * ‖x * y‖ + 2 * m ≤ Ω) :
    ‖complexMul A x y - x * y‖ ≤ 8 * u * (‖x * y‖ + m) := by
  have r := sub_products A h0 h1 (cauchy x y).1 h
  have i := add_products A h0 h1 (cauchy x y).2 h
  refine (norm_le_parts _ (a := u * (3 * ‖x * y‖ + 4 * m)) (b := u * (3 * ‖x * y‖ + 4 * m)) ?_ ?_).trans ?_
  · rw [Complex.sub_re, Complex.mul_re]; exact r
  · rw [Complex.sub_im, Complex.mul_im]; exact i
  · have := mul_nonneg h0 (norm_nonneg (x * y))
    nlinarith

/-- One part of a quotient. -/
theorem quotient_err (h0 : 0 ≤ u) (h1 : 20 * u ≤ 1) {μ : ℝ} {a c N q : ℝ} (hc : c ≠ 0) (hμ : m ≤ μ) (hμ' : m ≤ μ * c ^ 2)
    (hN : |N - a * c| ≤ u * (3 * |a * c| + 4 * m)) (hq : |q - c ^ 2| ≤ 7 * u * c ^ 2) (hd : A.divides q)
    (hΩ : 2 * |a / c| + μ ≤ Ω) : |A.div N q - a / c| ≤ u * (22 * |a / c| + 10 * μ) := by
  have hm : (0 : ℝ) ≤ m := m.coe_nonneg
  have c2 : 0 < c ^ 2 := by positivity
  have hq2 : c ^ 2 / 2 ≤ q := by
    have := (abs_le.mp hq).1
    nlinarith
  have q0 : 0 < q := by linarith
  have hr : |a * c| = |a / c| * c ^ 2 := by
    rw [abs_div, abs_mul, ← sq_abs c]
    have : |c| ≠ 0 := abs_ne_zero.mpr hc
    field_simp
  have e : N / q - a / c = (N - a * c) / q + (a / c) * ((c ^ 2 - q) / q) := by
    field_simp
    ring
  have hiq : 1 / q ≤ 2 / c ^ 2 := by
    rw [div_le_div_iff₀ q0 c2]
    linarith
  have t1 : |(N - a * c) / q| ≤ u * (6 * |a / c| + 8 * μ) := by
    rw [abs_div, abs_of_pos q0, div_eq_mul_one_div]
    calc |N - a * c| * (1 / q) ≤ (u * (3 * |a * c| + 4 * m)) * (2 / c ^ 2) :=
          mul_le_mul hN hiq (by positivity) (by positivity)
      _ ≤ (u * (3 * (|a / c| * c ^ 2) + 4 * (μ * c ^ 2))) * (2 / c ^ 2) := by
          rw [hr]
          refine mul_le_mul_of_nonneg_right (mul_le_mul_of_nonneg_left (by linarith) h0) (by positivity)
      _ = u * (6 * |a / c| + 8 * μ) := by field_simp; ring
  have t2 : |(a / c) * ((c ^ 2 - q) / q)| ≤ u * (14 * |a / c|) := by
    rw [abs_mul, abs_div (c ^ 2 - q), abs_of_pos q0, div_eq_mul_one_div (|c ^ 2 - q|), abs_sub_comm]
    calc |a / c| * (|q - c ^ 2| * (1 / q)) ≤ |a / c| * ((7 * u * c ^ 2) * (2 / c ^ 2)) :=
          mul_le_mul_of_nonneg_left (mul_le_mul hq hiq (by positivity) (by positivity)) (abs_nonneg _)
      _ = u * (14 * |a / c|) := by field_simp; ring
  have t3 : |N / q - a / c| ≤ u * (20 * |a / c| + 8 * μ) := by
    rw [e]
    have := abs_add_le ((N - a * c) / q) ((a / c) * ((c ^ 2 - q) / q))
    nlinarith
  have r0 := abs_nonneg (a / c)
  have t4 : |N / q| ≤ 2 * |a / c| + μ := by
    have := abs_add_le (N / q - a / c) (a / c)
    rw [sub_add_cancel] at this
    have : u * (20 * |a / c| + 8 * μ) ≤ |a / c| + μ := by nlinarith
    linarith
  have t5 := A.div_err N q hd (by rw [Real.norm_eq_abs]; exact t4.trans hΩ)
  rw [Real.norm_eq_abs, Real.norm_eq_abs] at t5
  have t6 : |A.div N q - a / c| ≤ |A.div N q - N / q| + |N / q - a / c| := by
    have := abs_add_le (A.div N q - N / q) (N / q - a / c)
    simpa using this
  have t7 : u * (|N / q| + m) ≤ u * (2 * |a / c| + μ + μ) := mul_le_mul_of_nonneg_left (by linarith) h0
  nlinarith

/-- Complex arithmetic made of real operations has the same form, with other constants: divisors are real numbers
between `lo` and `hi`, as integration elements are. -/
noncomputable def Ranged.complex (h0 : 0 ≤ u) (h1 : 20 * u ≤ 1) (hA : ∀ y, y ≠ 0 → A.divides y) (lo : ℝ≥0) (hi Ω' : ℝ)
    (hlo : 0 < lo) (hlo1 : lo ≤ 1) (hm : m ≤ lo ^ 2) (hhi : 1 ≤ hi) (hΩ0 : 0 ≤ Ω')
    (hΩ : 8 * hi ^ 2 * Ω' + 8 * (m / lo ^ 2 : ℝ≥0) ≤ Ω) (hΩ2 : 4 * hi ^ 2 ≤ Ω) :
    Ranged ℂ (44 * u) (m / lo ^ 2) Ω' := by
  have hm0 : (0 : ℝ) ≤ m := m.coe_nonneg
  have hlo0 : (0 : ℝ) < lo := hlo
  have hμ : m ≤ m / lo ^ 2 := by
    rw [le_div_iff₀ (by positivity)]
    exact mul_le_of_le_one_right zero_le (pow_le_one₀ zero_le hlo1)
  have hμr : (m : ℝ) ≤ (m / lo ^ 2 : ℝ≥0) := hμ
  have hmr : (m : ℝ) ≤ lo ^ 2 := by exact_mod_cast hm
  have hi2 : 1 ≤ hi ^ 2 := one_le_pow₀ hhi
  have hΩ' : 8 * Ω' + 8 * (m / lo ^ 2 : ℝ≥0) ≤ Ω := by
    have : 8 * Ω' ≤ 8 * hi ^ 2 * Ω' := by nlinarith
    linarith
  have hu1 : u ≤ 1 := by linarith
  have parts : ∀ z : ℂ, ‖z‖ ≤ Ω' → |z.re| ≤ Ω ∧ |z.im| ≤ Ω := fun z hz => by
    have := Complex.abs_re_le_norm z
    have := Complex.abs_im_le_norm z
    constructor <;> linarith
  refine
    { add := complexAdd A
      sub := complexSub A
      mul := complexMul A
      div := complexDiv A
      divides := fun y => y.im = 0 ∧ lo ≤ |y.re| ∧ |y.re| ≤ hi
      divides_ne := fun y hy h => ?_
      add_err := fun x y h => ?_
      sub_err := fun x y h => ?_
      mul_err := fun x y h => ?_
      div_err := fun x y hy h => ?_ }
  · rw [h] at hy
    have := hy.2.1
    simp only [Complex.zero_re, abs_zero] at this
    linarith
  · have r := A.add_err x.re y.re (by rw [Real.norm_eq_abs, ← Complex.add_re]; exact (parts _ h).1)
    have i := A.add_err x.im y.im (by rw [Real.norm_eq_abs, ← Complex.add_im]; exact (parts _ h).2)
    rw [Real.norm_eq_abs, Real.norm_eq_abs, ← Complex.add_re] at r
    rw [Real.norm_eq_abs, Real.norm_eq_abs, ← Complex.add_im] at i
    refine (norm_le_parts _ (a := u * |(x + y).re|) (b := u * |(x + y).im|) (by rw [Complex.sub_re]; exact r)
      (by rw [Complex.sub_im]; exact i)).trans ?_
    have := mul_le_mul_of_nonneg_left (Complex.abs_re_le_norm (x + y)) h0
    have := mul_le_mul_of_nonneg_left (Complex.abs_im_le_norm (x + y)) h0
    have := mul_nonneg h0 (norm_nonneg (x + y))
    linarith
  · have r := A.sub_err x.re y.re (by rw [Real.norm_eq_abs, ← Complex.sub_re]; exact (parts _ h).1)
    have i := A.sub_err x.im y.im (by rw [Real.norm_eq_abs, ← Complex.sub_im]; exact (parts _ h).2)
    rw [Real.norm_eq_abs, Real.norm_eq_abs, ← Complex.sub_re] at r
    rw [Real.norm_eq_abs, Real.norm_eq_abs, ← Complex.sub_im] at i
    refine (norm_le_parts _ (a := u * |(x - y).re|) (b := u * |(x - y).im|) (by rw [Complex.sub_re]; exact r)
      (by rw [Complex.sub_im]; exact i)).trans ?_
    have := mul_le_mul_of_nonneg_left (Complex.abs_re_le_norm (x - y)) h0
    have := mul_le_mul_of_nonneg_left (Complex.abs_im_le_norm (x - y)) h0
    have := mul_nonneg h0 (norm_nonneg (x - y))
    linarith
  · refine (complexMul_err A h0 hu1 x y (by linarith)).trans ?_
    have n := norm_nonneg (x * y)
    exact mul_le_mul (by linarith) (by linarith) (by linarith) (by linarith)
  · obtain ⟨y0, y1, y2⟩ := hy
    have hc : y.re ≠ 0 := by
      intro h
      rw [h, abs_zero] at y1
      linarith
    obtain ⟨c, d⟩ := y
    simp only at y0 y1 y2 hc
    subst y0
    have hq : x / (⟨c, 0⟩ : ℂ) = ⟨x.re / c, x.im / c⟩ := by
      have : (⟨c, 0⟩ : ℂ) = (c : ℂ) := rfl
      rw [this]
      apply Complex.ext
      · rw [Complex.div_ofReal_re]
      · rw [Complex.div_ofReal_im]
    rw [hq] at h ⊢
    generalize hw : (⟨x.re / c, x.im / c⟩ : ℂ) = w at h ⊢
    have hre : |x.re / c| ≤ ‖w‖ := by rw [← hw]; exact Complex.abs_re_le_norm ⟨x.re / c, x.im / c⟩
    have him : |x.im / c| ≤ ‖w‖ := by rw [← hw]; exact Complex.abs_im_le_norm ⟨x.re / c, x.im / c⟩
    have c1 : (lo : ℝ) ^ 2 ≤ c ^ 2 := by rw [← sq_abs c]; exact pow_le_pow_left₀ hlo0.le y1 2
    have c2 : c ^ 2 ≤ hi ^ 2 := by rw [← sq_abs c]; exact pow_le_pow_left₀ (abs_nonneg c) y2 2
    have c0 : 0 < c ^ 2 := by positivity
    have hμc : (m : ℝ) ≤ (m / lo ^ 2 : ℝ≥0) * c ^ 2 := by
      push_cast
      rw [div_mul_eq_mul_div, le_div_iff₀ (by positivity)]
      exact mul_le_mul_of_nonneg_left c1 hm0
    have cc : |c * c| = c ^ 2 := by rw [← pow_two, abs_of_pos c0]
    have nq : |A.add (A.mul c c) (A.mul 0 0) - c ^ 2| ≤ 7 * u * c ^ 2 := by
      have := add_products A h0 hu1 (a := c) (b := 0) (c := c) (d := 0) (Z := c ^ 2) (by rw [cc]; simp) (by linarith)
      rw [mul_zero, add_zero, ← pow_two] at this
      nlinarith
    have nd : A.divides (A.add (A.mul c c) (A.mul 0 0)) := by
      refine hA _ fun hz => ?_
      rw [hz, zero_sub, abs_neg, abs_of_pos c0] at nq
      nlinarith
    have num : ∀ a : ℝ, |a / c| ≤ ‖w‖ → 2 * |a * c| + 2 * m ≤ Ω := by
      intro a ha
      have hr : |a * c| = |a / c| * c ^ 2 := by
        rw [abs_div, abs_mul, ← sq_abs c]
        have : |c| ≠ 0 := abs_ne_zero.mpr hc
        field_simp
      rw [hr]
      have : |a / c| * c ^ 2 ≤ Ω' * hi ^ 2 := mul_le_mul (ha.trans h) c2 (by positivity) hΩ0
      have : 0 ≤ hi ^ 2 * Ω' := by positivity
      linarith
    have nre := add_products A h0 hu1 (a := x.re) (b := x.im) (c := c) (d := 0) (Z := |x.re * c|) (by simp)
      (num _ hre)
    have nim := sub_products A h0 hu1 (a := x.im) (b := x.re) (c := c) (d := 0) (Z := |x.im * c|) (by simp)
      (num _ him)
    rw [mul_zero, add_zero] at nre
    rw [mul_zero, sub_zero] at nim
    have kre := quotient_err A h0 h1 hc hμr hμc nre nq nd (by linarith)
    have kim := quotient_err A h0 h1 hc hμr hμc nim nq nd (by linarith)
    refine (norm_le_parts _ (a := u * (22 * |x.re / c| + 10 * (m / lo ^ 2 : ℝ≥0)))
      (b := u * (22 * |x.im / c| + 10 * (m / lo ^ 2 : ℝ≥0))) (by rw [Complex.sub_re, ← hw]; exact kre)
      (by rw [Complex.sub_im, ← hw]; exact kim)).trans ?_
    have n := norm_nonneg w
    have hμ0 : (0 : ℝ) ≤ (m / lo ^ 2 : ℝ≥0) := NNReal.coe_nonneg _
    have := mul_le_mul_of_nonneg_left hre h0
    have := mul_le_mul_of_nonneg_left him h0
    have := mul_nonneg h0 hμ0
    nlinarith

end
end Bempp
