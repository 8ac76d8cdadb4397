import Verif.Spec.ShapeRounding
import Verif.Proofs.SphereWidth
import Mathlib.Tactic.Linarith
import Mathlib.Tactic.Positivity
import Mathlib.Tactic.Ring
import Mathlib.Tactic.FieldSimp
/-
Error analysis of the points of `regular_sphere`.
-/
set_option linter.unusedSectionVars false

namespace Bempp

/-- The coordinates as real numbers. -/
noncomputable def realVec {u : ℝ} {A : Arith ℝ u} (p : Fl A × Fl A × Fl A) : Vec := (p.1.val, p.2.1.val, p.2.2.val)

section
variable {u : ℝ}

theorem factor_of_err {s v e : ℝ} (he : 0 ≤ e) (h : |s - v| ≤ e * |v|) : ∃ t, |t - 1| ≤ e ∧ s = t * v := by
  by_cases hv : v = 0
  · subst hv
    refine ⟨1, by simpa using he, ?_⟩
    have : |s - 0| ≤ 0 := by simpa using h
    have := abs_nonpos_iff.mp this
    linarith
  · refine ⟨s / v, ?_, by field_simp⟩
    have e1 : s / v - 1 = (s - v) / v := by field_simp
    rw [e1, abs_div, div_le_iff₀ (abs_pos.mpr hv)]
    exact h

theorem factor_mul {s t α β : ℝ} (hs : |s - 1| ≤ α) (ht : |t - 1| ≤ β) : |s * t - 1| ≤ (1 + α) * (1 + β) - 1 := by
  have e : s * t - 1 = (s - 1) * (t - 1) + (s - 1) + (t - 1) := by ring
  have a := abs_add_le ((s - 1) * (t - 1) + (s - 1)) (t - 1)
  have b := abs_add_le ((s - 1) * (t - 1)) (s - 1)
  have c : |(s - 1) * (t - 1)| ≤ α * β := by
    rw [abs_mul]
    exact mul_le_mul hs ht (abs_nonneg _) ((abs_nonneg _).trans hs)
  rw [e]
  nlinarith

theorem factor_bounds {t e : ℝ} (h : |t - 1| ≤ e) : 1 - e ≤ t ∧ t ≤ 1 + e := by
  obtain ⟨a, b⟩ := abs_le.mp h
  constructor <;> linarith

/-- `s` is the nonnegative number `v` up to `k` roundings. -/
def Near (u : ℝ) (k : Nat) (s v : ℝ) : Prop := (1 - u) ^ k * v ≤ s ∧ s ≤ (1 + u) ^ k * v

theorem Near.mono (h0 : 0 ≤ u) (h1 : u ≤ 1) {j k : Nat} (hjk : j ≤ k) {s v : ℝ} (hv : 0 ≤ v) (h : Near u j s v) :
    Near u k s v := by
  constructor
  · refine le_trans ?_ h.1
    exact mul_le_mul_of_nonneg_right (pow_le_pow_of_le_one (by linarith) (by linarith) hjk) hv
  · refine h.2.trans ?_
    exact mul_le_mul_of_nonneg_right (pow_le_pow_right₀ (by linarith) hjk) hv

theorem Near.round (h0 : 0 ≤ u) (h1 : u ≤ 1) {k : Nat} {s s' v : ℝ} (hv : 0 ≤ v) (h : Near u k s v)
    (he : |s' - s| ≤ u * |s|) : Near u (k + 1) s' v := by
  have hs : 0 ≤ s := le_trans (mul_nonneg (pow_nonneg (by linarith) k) hv) h.1
  rw [abs_of_nonneg hs] at he
  obtain ⟨a, b⟩ := abs_le.mp he
  constructor
  · rw [pow_succ]
    have : (1 - u) * ((1 - u) ^ k * v) ≤ (1 - u) * s := mul_le_mul_of_nonneg_left h.1 (by linarith)
    nlinarith
  · rw [pow_succ]
    have : (1 + u) * s ≤ (1 + u) * ((1 + u) ^ k * v) := mul_le_mul_of_nonneg_left h.2 (by linarith)
    nlinarith

theorem Near.add {k : Nat} {s s' v v' : ℝ} (h : Near u k s v) (h' : Near u k s' v') : Near u k (s + s') (v + v') := by
  obtain ⟨a, b⟩ := h
  obtain ⟨a', b'⟩ := h'
  constructor
  · rw [mul_add]; linarith
  · rw [mul_add]; linarith

theorem Near.sqrt (h0 : 0 ≤ u) (h1 : u ≤ 1) {k : Nat} {s v : ℝ} (h : Near u (2 * k) s v) :
    Near u k (Real.sqrt s) (Real.sqrt v) := by
  have e : ∀ x : ℝ, 0 ≤ x → x ^ k * Real.sqrt v = Real.sqrt (x ^ (2 * k) * v) := by
    intro x hx
    rw [Real.sqrt_mul (pow_nonneg hx _), pow_mul', Real.sqrt_sq (pow_nonneg hx _)]
  constructor
  · rw [e _ (by linarith)]
    exact Real.sqrt_le_sqrt h.1
  · rw [e _ (by linarith)]
    exact Real.sqrt_le_sqrt h.2

variable {A : Arith ℝ u} {sqrt : Fl A → Fl A}

/-- The computed middle of two points, before it is moved to the sphere. -/
structure Middle (u : ℝ) (a b x : Vec) : Prop where
  fst : ∃ t, |t - 1| ≤ (1 + u) ^ 2 - 1 ∧ x.1 = t * (1 / 2 * (a.1 + b.1))
  snd : ∃ t, |t - 1| ≤ (1 + u) ^ 2 - 1 ∧ x.2.1 = t * (1 / 2 * (a.2.1 + b.2.1))
  trd : ∃ t, |t - 1| ≤ (1 + u) ^ 2 - 1 ∧ x.2.2 = t * (1 / 2 * (a.2.2 + b.2.2))

/-- The computed point on the sphere from the computed middle. -/
structure Normed (u : ℝ) (x p : Vec) (size : ℝ) : Prop where
  len : Near u 3 size (Real.sqrt (Vec.dot x x))
  fst : ∃ t, |t - 1| ≤ u ∧ p.1 = t * (x.1 / size)
  snd : ∃ t, |t - 1| ≤ u ∧ p.2.1 = t * (x.2.1 / size)
  trd : ∃ t, |t - 1| ≤ u ∧ p.2.2 = t * (x.2.2 / size)

theorem half_add (h0 : 0 ≤ u) (a b : Fl A) :
    ∃ t, |t - 1| ≤ (1 + u) ^ 2 - 1 ∧ (halfFl * (a + b) : Fl A).val = t * (1 / 2 * (a.val + b.val)) := by
  have e1 := A.mul_err (1 / 2 : ℝ) (A.add a b)
  have e2 := A.add_err a b
  rw [Real.norm_eq_abs, Real.norm_eq_abs] at e1 e2
  obtain ⟨t, ht, hs⟩ := factor_of_err h0 e1
  obtain ⟨t', ht', hs'⟩ := factor_of_err h0 e2
  refine ⟨t * t', ?_, ?_⟩
  · have := factor_mul ht ht'
    calc _ ≤ _ := this
      _ = _ := by ring
  · show A.mul (1 / 2 : ℝ) (A.add a b) = _
    rw [hs, hs']
    show t * (1 / 2 * (t' * (a.val + b.val))) = _
    ring

theorem newPoint_middle (h0 : 0 ≤ u) (h1 : u < 1) (hs : RoundedSqrt A sqrt) (a b : Fl A × Fl A × Fl A)
    (hne : realVec a + realVec b ≠ 0) :
    ∃ x size, 0 < size ∧ Middle u (realVec a) (realVec b) x ∧ x ≠ 0 ∧
      Normed u x (realVec (newPoint halfFl sqrt a b)) size := by
  obtain ⟨t1, ht1, e1⟩ := half_add h0 a.1 b.1
  obtain ⟨t2, ht2, e2⟩ := half_add h0 a.2.1 b.2.1
  obtain ⟨t3, ht3, e3⟩ := half_add h0 a.2.2 b.2.2
  set x : Fl A := halfFl * (a.1 + b.1) with hx
  set y : Fl A := halfFl * (a.2.1 + b.2.1) with hy
  set z : Fl A := halfFl * (a.2.2 + b.2.2) with hz
  have sq : ∀ w : Fl A, Near u 1 (w * w : Fl A).val (w.val * w.val) := by
    intro w
    have : |(w * w : Fl A).val - w.val * w.val| ≤ u * |w.val * w.val| := A.mul_err w w
    exact Near.round (u := u) h0 h1.le (k := 0) (mul_self_nonneg w.val)
      ⟨by rw [pow_zero, one_mul], by rw [pow_zero, one_mul]⟩ this
  have add : ∀ (k : Nat) (s s' : Fl A) (v v' : ℝ), 0 ≤ v → 0 ≤ v' → Near u k s.val v → Near u k s'.val v' →
      Near u (k + 1) (s + s' : Fl A).val (v + v') := by
    intro k s s' v v' hv hv' h h'
    have : |(s + s' : Fl A).val - (s.val + s'.val)| ≤ u * |s.val + s'.val| := A.add_err s s'
    exact (h.add h').round h0 h1.le (by linarith) this
  have hX := mul_self_nonneg x.val
  have hY := mul_self_nonneg y.val
  have hZ := mul_self_nonneg z.val
  have z0 : Near u 1 (0 : Fl A).val 0 := by
    have e : (0 : Fl A).val = 0 := rfl
    rw [e]
    constructor <;> simp
  have n1 := add 1 0 (x * x) 0 _ le_rfl hX z0 (sq x)
  have n2 := add 2 _ _ _ _ (by linarith) hY n1 ((sq y).mono h0 h1.le (by omega) hY)
  have n3 := add 3 _ _ _ _ (by linarith) hZ n2 ((sq z).mono h0 h1.le (by omega) hZ)
  have n3' : Near u (2 * 2) (0 + x * x + y * y + z * z : Fl A).val
      (Vec.dot (x.val, y.val, z.val) (x.val, y.val, z.val)) := by
    have e : Vec.dot (x.val, y.val, z.val) (x.val, y.val, z.val) =
        0 + x.val * x.val + y.val * y.val + z.val * z.val := by simp [Vec.dot]
    rw [e]
    exact n3
  have hS : 0 ≤ (0 + x * x + y * y + z * z : Fl A).val := by
    refine le_trans ?_ n3'.1
    refine mul_nonneg (pow_nonneg (by linarith) _) ?_
    simp only [Vec.dot]
    linarith
  have n4 := n3'.sqrt h0 h1.le
  have e4 := hs.err _ hS
  have n5 : Near u 3 (sqrt (0 + x * x + y * y + z * z)).val _ :=
    n4.round h0 h1.le (Real.sqrt_nonneg _) (by rwa [abs_of_nonneg (Real.sqrt_nonneg _)])
  have fac : ∀ (c d : Fl A), c.val + d.val ≠ 0 → (halfFl * (c + d) : Fl A).val ≠ 0 := by
    intro c d hcd
    have e1 := A.mul_err (1 / 2 : ℝ) (A.add c d)
    have e2 := A.add_err c d
    rw [Real.norm_eq_abs, Real.norm_eq_abs] at e1 e2
    obtain ⟨t, ht, hs⟩ := factor_of_err h0 e1
    obtain ⟨t', ht', hs'⟩ := factor_of_err h0 e2
    have p := (factor_bounds ht).1
    have p' := (factor_bounds ht').1
    show A.mul (1 / 2 : ℝ) (A.add c d) ≠ 0
    rw [hs, hs']
    have q : (0 : ℝ) < t := by linarith
    have q' : (0 : ℝ) < t' := by linarith
    exact mul_ne_zero q.ne' (mul_ne_zero (by norm_num) (mul_ne_zero q'.ne' hcd))
  have hne' : (x.val, y.val, z.val) ≠ (0 : Vec) := by
    intro h
    apply hne
    have h1 : x.val = 0 := congrArg Prod.fst h
    have h2 : y.val = 0 := congrArg (fun v : Vec => v.2.1) h
    have h3 : z.val = 0 := congrArg (fun v : Vec => v.2.2) h
    have g1 : a.1.val + b.1.val = 0 := by
      by_contra hc
      exact fac _ _ hc h1
    have g2 : a.2.1.val + b.2.1.val = 0 := by
      by_contra hc
      exact fac _ _ hc h2
    have g3 : a.2.2.val + b.2.2.val = 0 := by
      by_contra hc
      exact fac _ _ hc h3
    show (_, _, _) = (0 : Vec)
    simp only [realVec, Prod.mk_eq_zero, g1, g2, g3, and_self]
  have hdot : 0 < Vec.dot (x.val, y.val, z.val) (x.val, y.val, z.val) := vec_sq_pos hne'
  have hsize : 0 < (sqrt (0 + x * x + y * y + z * z)).val := by
    refine lt_of_lt_of_le ?_ n5.1
    exact mul_pos (pow_pos (by linarith) _) (Real.sqrt_pos.mpr hdot)
  refine ⟨(x.val, y.val, z.val), _, hsize, ⟨⟨t1, ht1, e1⟩, ⟨t2, ht2, e2⟩, ⟨t3, ht3, e3⟩⟩, hne', n5, ?_, ?_, ?_⟩
  · have := A.div_err x (sqrt (0 + x * x + y * y + z * z)) hsize.ne'
    rw [Real.norm_eq_abs, Real.norm_eq_abs] at this
    exact factor_of_err h0 this
  · have := A.div_err y (sqrt (0 + x * x + y * y + z * z)) hsize.ne'
    rw [Real.norm_eq_abs, Real.norm_eq_abs] at this
    exact factor_of_err h0 this
  · have := A.div_err z (sqrt (0 + x * x + y * y + z * z)) hsize.ne'
    rw [Real.norm_eq_abs, Real.norm_eq_abs] at this
    exact factor_of_err h0 this

/-! ### Norms and angles at all levels -/

theorem sum3_lower {w1 w2 w3 x1 x2 x3 r h : ℝ} (hr : 0 ≤ r) (h1 : |w1 - 1| ≤ r) (h2 : |w2 - 1| ≤ r) (h3 : |w3 - 1| ≤ r)
    (hh : |x1| + |x2| + |x3| ≤ h) : x1 + x2 + x3 - r * h ≤ w1 * x1 + w2 * x2 + w3 * x3 := by
  have key : ∀ w x : ℝ, |w - 1| ≤ r → x - r * |x| ≤ w * x := by
    intro w x hw
    have : |(w - 1) * x| ≤ r * |x| := by
      rw [abs_mul]
      exact mul_le_mul_of_nonneg_right hw (abs_nonneg x)
    have := (abs_le.mp this).1
    nlinarith
  have a := key _ x1 h1
  have b := key _ x2 h2
  have c := key _ x3 h3
  have d : r * (|x1| + |x2| + |x3|) ≤ r * h := mul_le_mul_of_nonneg_left hh hr
  nlinarith

/-- The bounds for the squares of the norms. -/
noncomputable def lowSq (u : ℝ) : ℝ := ((1 - u) / (1 + u) ^ 3) ^ 2
noncomputable def highSq (u : ℝ) : ℝ := ((1 + u) / (1 - u) ^ 3) ^ 2

theorem Normed.bounds (h0 : 0 ≤ u) (h1 : u < 1) {x p : Vec} {size : ℝ} (hs : 0 < size) (h : Normed u x p size) :
    lowSq u ≤ Vec.dot p p ∧ Vec.dot p p ≤ highSq u := by
  obtain ⟨⟨l, r⟩, ⟨t1, k1, e1⟩, ⟨t2, k2, e2⟩, ⟨t3, k3, e3⟩⟩ := h
  set X := Vec.dot x x with hX
  have hX0 : 0 ≤ X := by
    rw [hX]
    simp only [Vec.dot]
    nlinarith [mul_self_nonneg x.1, mul_self_nonneg x.2.1, mul_self_nonneg x.2.2]
  have hsq := Real.mul_self_sqrt hX0
  have hr0 := Real.sqrt_nonneg X
  have up : (0 : ℝ) < 1 - u := by linarith
  have up' : (0 : ℝ) < 1 + u := by linarith
  have l2 : ((1 - u) ^ 3) ^ 2 * X ≤ size ^ 2 := by
    have := pow_le_pow_left₀ (mul_nonneg (pow_nonneg up.le 3) hr0) l 2
    rw [mul_pow, pow_two (Real.sqrt X), hsq] at this
    exact this
  have r2 : size ^ 2 ≤ ((1 + u) ^ 3) ^ 2 * X := by
    have := pow_le_pow_left₀ hs.le r 2
    rw [mul_pow ((1 + u) ^ 3), pow_two (Real.sqrt X), hsq] at this
    exact this
  have ep : Vec.dot p p * size ^ 2 = t1 ^ 2 * x.1 ^ 2 + t2 ^ 2 * x.2.1 ^ 2 + t3 ^ 2 * x.2.2 ^ 2 := by
    simp only [Vec.dot, e1, e2, e3]
    field_simp
  have tb : ∀ t, |t - 1| ≤ u → (1 - u) ^ 2 ≤ t ^ 2 ∧ t ^ 2 ≤ (1 + u) ^ 2 := by
    intro t ht
    obtain ⟨a, b⟩ := factor_bounds ht
    exact ⟨pow_le_pow_left₀ up.le a 2, pow_le_pow_left₀ (by linarith) b 2⟩
  obtain ⟨a1, b1⟩ := tb _ k1
  obtain ⟨a2, b2⟩ := tb _ k2
  obtain ⟨a3, b3⟩ := tb _ k3
  have eX : X = x.1 ^ 2 + x.2.1 ^ 2 + x.2.2 ^ 2 := by
    rw [hX]
    simp only [Vec.dot]
    ring
  have lo : (1 - u) ^ 2 * X ≤ Vec.dot p p * size ^ 2 := by
    rw [ep, eX]
    have := mul_le_mul_of_nonneg_right a1 (sq_nonneg x.1)
    have := mul_le_mul_of_nonneg_right a2 (sq_nonneg x.2.1)
    have := mul_le_mul_of_nonneg_right a3 (sq_nonneg x.2.2)
    linarith
  have hi : Vec.dot p p * size ^ 2 ≤ (1 + u) ^ 2 * X := by
    rw [ep, eX]
    have := mul_le_mul_of_nonneg_right b1 (sq_nonneg x.1)
    have := mul_le_mul_of_nonneg_right b2 (sq_nonneg x.2.1)
    have := mul_le_mul_of_nonneg_right b3 (sq_nonneg x.2.2)
    linarith
  have hs2 : 0 < size ^ 2 := pow_pos hs 2
  have hXp : 0 < X := by
    rcases hX0.eq_or_lt with h | h
    · rw [← h, mul_zero] at r2
      linarith
    · exact h
  have hP : 0 ≤ Vec.dot p p := by
    simp only [Vec.dot]
    nlinarith [mul_self_nonneg p.1, mul_self_nonneg p.2.1, mul_self_nonneg p.2.2]
  constructor
  · unfold lowSq
    rw [div_pow, div_le_iff₀ (by positivity)]
    have : (1 - u) ^ 2 * X ≤ Vec.dot p p * ((1 + u) ^ 3) ^ 2 * X := by
      calc _ ≤ _ := lo
        _ ≤ Vec.dot p p * (((1 + u) ^ 3) ^ 2 * X) := mul_le_mul_of_nonneg_left r2 hP
        _ = _ := by ring
    exact le_of_mul_le_mul_right this hXp
  · unfold highSq
    rw [div_pow, le_div_iff₀ (by positivity)]
    have : Vec.dot p p * ((1 - u) ^ 3) ^ 2 * X ≤ (1 + u) ^ 2 * X := by
      calc _ = Vec.dot p p * (((1 - u) ^ 3) ^ 2 * X) := by ring
        _ ≤ Vec.dot p p * size ^ 2 := mul_le_mul_of_nonneg_left l2 hP
        _ ≤ _ := hi
    exact le_of_mul_le_mul_right this hXp

/-- A new point is the sum of the ends with three roundings in every coordinate, times a positive number. -/
structure SumUpTo (r : ℝ) (a b p : Vec) : Prop where
  ex : ∃ c t1 t2 t3 : ℝ, 0 < c ∧ |t1 - 1| ≤ r ∧ |t2 - 1| ≤ r ∧ |t3 - 1| ≤ r ∧
    p = (c * (t1 * (a.1 + b.1)), c * (t2 * (a.2.1 + b.2.1)), c * (t3 * (a.2.2 + b.2.2)))

theorem Normed.sum {a b x p : Vec} {size : ℝ} (hs : 0 < size) (hm : Middle u a b x)
    (h : Normed u x p size) : SumUpTo ((1 + u) ^ 3 - 1) a b p := by
  obtain ⟨-, ⟨t1, k1, e1⟩, ⟨t2, k2, e2⟩, ⟨t3, k3, e3⟩⟩ := h
  obtain ⟨⟨s1, j1, f1⟩, ⟨s2, j2, f2⟩, ⟨s3, j3, f3⟩⟩ := hm
  have key : ∀ t s : ℝ, |t - 1| ≤ u → |s - 1| ≤ (1 + u) ^ 2 - 1 → |t * s - 1| ≤ (1 + u) ^ 3 - 1 := by
    intro t s ht hs
    calc _ ≤ _ := factor_mul ht hs
      _ = _ := by ring
  refine ⟨1 / 2 / size, t1 * s1, t2 * s2, t3 * s3, by positivity, key _ _ k1 j1, key _ _ k2 j2, key _ _ k3 j3, ?_⟩
  ext
  · simp only [e1, f1]; ring
  · simp only [e2, f2]; ring
  · simp only [e3, f3]; ring

/-- What is needed of the bounds. -/
structure Enough (r l h : ℝ) : Prop where
  r0 : 0 ≤ r
  h0 : 0 ≤ h
  le : 4 * ((1 + r) * (1 + r) - 1) * h ≤ l

theorem abs_mul_le_half (x y : ℝ) : |x * y| ≤ (x * x + y * y) / 2 := by
  rw [abs_le]
  constructor <;> nlinarith [mul_self_nonneg (x + y), mul_self_nonneg (x - y)]

theorem abs_sum_mul (a b d : Vec) {h : ℝ} (ha : Vec.dot a a ≤ h) (hb : Vec.dot b b ≤ h) (hd : Vec.dot d d ≤ h) :
    |(a.1 + b.1) * (a.1 + d.1)| + |(a.2.1 + b.2.1) * (a.2.1 + d.2.1)| + |(a.2.2 + b.2.2) * (a.2.2 + d.2.2)| ≤
      4 * h := by
  have key : ∀ x y z : ℝ, |(x + y) * (x + z)| ≤ 2 * (x * x) + (y * y + z * z) := by
    intro x y z
    have := abs_mul_le_half (x + y) (x + z)
    nlinarith [mul_self_nonneg (x - y), mul_self_nonneg (x - z)]
  have k1 := key a.1 b.1 d.1
  have k2 := key a.2.1 b.2.1 d.2.1
  have k3 := key a.2.2 b.2.2 d.2.2
  simp only [Vec.dot] at ha hb hd
  linarith

theorem abs_mul_sum (a b : Vec) {h : ℝ} (ha : Vec.dot a a ≤ h) (hb : Vec.dot b b ≤ h) :
    |a.1 * (a.1 + b.1)| + |a.2.1 * (a.2.1 + b.2.1)| + |a.2.2 * (a.2.2 + b.2.2)| ≤ 2 * h := by
  have key : ∀ x y : ℝ, |x * (x + y)| ≤ 3 / 2 * (x * x) + 1 / 2 * (y * y) := by
    intro x y
    rw [abs_le]
    constructor <;> nlinarith [mul_self_nonneg (x + y), mul_self_nonneg (x - y), mul_self_nonneg x]
  have k1 := key a.1 b.1
  have k2 := key a.2.1 b.2.1
  have k3 := key a.2.2 b.2.2
  simp only [Vec.dot] at ha hb
  linarith

theorem SumUpTo.dot_corner {r l h : ℝ} (he : Enough r l h) {a b p : Vec} (hp : SumUpTo r a b p)
    (la : l ≤ Vec.dot a a) (ha : Vec.dot a a ≤ h) (hb : Vec.dot b b ≤ h) (hab : 0 ≤ Vec.dot a b) :
    0 ≤ Vec.dot a p := by
  obtain ⟨c, t1, t2, t3, hc, k1, k2, k3, rfl⟩ := hp
  have := sum3_lower he.r0 k1 k2 k3 (abs_mul_sum a b ha hb)
  have e : Vec.dot a (c * (t1 * (a.1 + b.1)), c * (t2 * (a.2.1 + b.2.1)), c * (t3 * (a.2.2 + b.2.2))) =
      c * (t1 * (a.1 * (a.1 + b.1)) + t2 * (a.2.1 * (a.2.1 + b.2.1)) + t3 * (a.2.2 * (a.2.2 + b.2.2))) := by
    simp only [Vec.dot]
    ring
  rw [e]
  refine mul_nonneg hc.le (le_trans ?_ this)
  have e2 : a.1 * (a.1 + b.1) + a.2.1 * (a.2.1 + b.2.1) + a.2.2 * (a.2.2 + b.2.2) = Vec.dot a a + Vec.dot a b := by
    simp only [Vec.dot]
    ring
  rw [e2]
  have := he.le
  have := mul_nonneg he.r0 he.h0
  have := mul_nonneg (mul_nonneg he.r0 he.r0) he.h0
  nlinarith

theorem SumUpTo.dot_middle {r l h : ℝ} (he : Enough r l h) {a b d p q : Vec} (hp : SumUpTo r a b p)
    (hq : SumUpTo r a d q) (la : l ≤ Vec.dot a a) (ha : Vec.dot a a ≤ h) (hb : Vec.dot b b ≤ h)
    (hd : Vec.dot d d ≤ h) (hab : 0 ≤ Vec.dot a b) (had : 0 ≤ Vec.dot a d) (hbd : 0 ≤ Vec.dot b d) :
    0 ≤ Vec.dot p q := by
  obtain ⟨c, t1, t2, t3, hc, k1, k2, k3, rfl⟩ := hp
  obtain ⟨c', s1, s2, s3, hc', j1, j2, j3, rfl⟩ := hq
  have := sum3_lower (by nlinarith [he.r0] : 0 ≤ (1 + r) * (1 + r) - 1) (factor_mul k1 j1) (factor_mul k2 j2)
    (factor_mul k3 j3) (abs_sum_mul a b d ha hb hd)
  have e : Vec.dot (c * (t1 * (a.1 + b.1)), c * (t2 * (a.2.1 + b.2.1)), c * (t3 * (a.2.2 + b.2.2)))
      (c' * (s1 * (a.1 + d.1)), c' * (s2 * (a.2.1 + d.2.1)), c' * (s3 * (a.2.2 + d.2.2))) =
      c * c' * (t1 * s1 * ((a.1 + b.1) * (a.1 + d.1)) + t2 * s2 * ((a.2.1 + b.2.1) * (a.2.1 + d.2.1)) +
        t3 * s3 * ((a.2.2 + b.2.2) * (a.2.2 + d.2.2))) := by
    simp only [Vec.dot]
    ring
  rw [e]
  refine mul_nonneg (mul_pos hc hc').le (le_trans ?_ this)
  have e2 : (a.1 + b.1) * (a.1 + d.1) + (a.2.1 + b.2.1) * (a.2.1 + d.2.1) + (a.2.2 + b.2.2) * (a.2.2 + d.2.2) =
      Vec.dot a a + Vec.dot a d + Vec.dot a b + Vec.dot b d := by
    simp only [Vec.dot]
    ring
  rw [e2]
  have := he.le
  nlinarith

theorem SumUpTo.comm {r : ℝ} {a b p : Vec} (h : SumUpTo r a b p) : SumUpTo r b a p := by
  obtain ⟨c, t1, t2, t3, hc, k1, k2, k3, rfl⟩ := h
  exact ⟨c, t1, t2, t3, hc, k1, k2, k3, by rw [add_comm a.1, add_comm a.2.1, add_comm a.2.2]⟩

/-- Norms within bounds and no obtuse angle at the origin. -/
structure Acute (N : Nat) (cs : List Tri) (l h : ℝ) (pos : Nat → Vec) : Prop where
  low : ∀ i, i < N → l ≤ Vec.dot (pos i) (pos i)
  high : ∀ i, i < N → Vec.dot (pos i) (pos i) ≤ h
  dot : ∀ t ∈ cs, 0 ≤ Vec.dot (pos t.p0) (pos t.p1) ∧ 0 ≤ Vec.dot (pos t.p1) (pos t.p2) ∧
    0 ≤ Vec.dot (pos t.p0) (pos t.p2)

theorem Acute.edge {N : Nat} {cs : List Tri} {l h : ℝ} {pos : Nat → Vec} (ha : Acute N cs l h pos) {d : Nat × Nat}
    (hd : d ∈ edgesOf cs) : 0 ≤ Vec.dot (pos d.1) (pos d.2) := by
  obtain ⟨t, ht, h⟩ := mem_edgesOf.mp hd
  obtain ⟨k1, k2, k3⟩ := ha.dot t ht
  simp only [Tri.edges, List.mem_cons, List.not_mem_nil, or_false] at h
  rcases h with rfl | rfl | rfl
  · exact k1
  · exact k2
  · rw [dot_comm]
    exact k3

theorem sum_ne_of_dot {a b : Vec} (ha : 0 < Vec.dot a a) (h : 0 ≤ Vec.dot a b) : a + b ≠ 0 := by
  intro e
  have : b = -a := by
    rw [add_comm] at e
    exact eq_neg_of_add_eq_zero_left e
  rw [this] at h
  simp only [Vec.dot, Prod.fst_neg, Prod.snd_neg] at h ha
  nlinarith

/-- The points after one round in floating point arithmetic. -/
structure RefinedFl (u : ℝ) (N : Nat) (cs : List Tri) (e : Nat → Nat → Nat) (pos pos' : Nat → Vec) : Prop where
  old : ∀ i, i < N → pos' i = pos i
  new : ∀ d ∈ edgesOf cs, pos d.1 + pos d.2 ≠ 0 → ∃ x size, 0 < size ∧ Middle u (pos d.1) (pos d.2) x ∧ x ≠ 0 ∧
    Normed u x (pos' (e d.1 d.2)) size

theorem Acute.refine (h0 : 0 ≤ u) (h1 : u < 1) {N N' : Nat} {cs : List Tri} {e : Nat → Nat → Nat}
    {pos pos' : Nat → Vec} (hen : Enough ((1 + u) ^ 3 - 1) (lowSq u) (highSq u)) (hg : GoodMesh N cs)
    (hn : EdgeNumbers N N' cs e) (hr : RefinedFl u N cs e pos pos') (ha : Acute N cs (lowSq u) (highSq u) pos) :
    Acute N' (cs.flatMap (subdivide e)) (lowSq u) (highSq u) pos' := by
  have lpos : 0 < lowSq u := by
    unfold lowSq
    have : 0 < 1 - u := by linarith
    positivity
  have ne : ∀ d ∈ edgesOf cs, pos d.1 + pos d.2 ≠ 0 := by
    intro d hd
    exact sum_ne_of_dot (lt_of_lt_of_le lpos (ha.low _ (hg.edge_lt hd).1)) (ha.edge hd)
  have bounds : ∀ i, i < N' → lowSq u ≤ Vec.dot (pos' i) (pos' i) ∧ Vec.dot (pos' i) (pos' i) ≤ highSq u := by
    intro i hi
    by_cases h : i < N
    · rw [hr.old i h]
      exact ⟨ha.low i h, ha.high i h⟩
    · obtain ⟨d, hd, rfl⟩ := hn.surj i (by omega) hi
      obtain ⟨x, size, hs, -, -, k⟩ := hr.new d hd (ne d hd)
      exact k.bounds h0 h1 hs
  have sum : ∀ d ∈ edgesOf cs, SumUpTo ((1 + u) ^ 3 - 1) (pos d.1) (pos d.2) (pos' (e d.1 d.2)) := by
    intro d hd
    obtain ⟨x, size, hs, hm, -, k⟩ := hr.new d hd (ne d hd)
    exact k.sum hs hm
  refine ⟨fun i hi => (bounds i hi).1, fun i hi => (bounds i hi).2, ?_⟩
  intro y hy
  obtain ⟨t, ht, hy⟩ := List.mem_flatMap.mp hy
  obtain ⟨d01, d12, d02, d10, d21, d20⟩ := hg.tri_edges ht
  obtain ⟨l0, l1, l2⟩ := hg.lt t ht
  obtain ⟨a01, a12, a02⟩ := ha.dot t ht
  have a10 := a01
  have a21 := a12
  have a20 := a02
  rw [dot_comm] at a10 a21 a20
  have s01 := sum _ d01
  have s12 := sum _ d12
  have s02 := sum _ d02
  have s10 := s01.comm
  have s21 := s12.comm
  have s20 := s02.comm
  simp only at s01 s12 s02 s10 s21 s20
  simp only [subdivide, List.mem_cons, List.not_mem_nil, or_false] at hy
  have m0 := s01.dot_middle hen s02 (ha.low _ l0) (ha.high _ l0) (ha.high _ l1) (ha.high _ l2) a01 a02 a12
  have m1 := s12.dot_middle hen s10 (ha.low _ l1) (ha.high _ l1) (ha.high _ l2) (ha.high _ l0) a12 a10 a20
  have m2 := s20.dot_middle hen s21 (ha.low _ l2) (ha.high _ l2) (ha.high _ l0) (ha.high _ l1) a20 a21 a01
  have m0' := m0
  have m1' := m1
  have m2' := m2
  rw [dot_comm] at m0' m1' m2'
  rcases hy with rfl | rfl | rfl | rfl
  · simp only
    rw [hr.old _ l0]
    exact ⟨s01.dot_corner hen (ha.low _ l0) (ha.high _ l0) (ha.high _ l1) a01, m0,
      s02.dot_corner hen (ha.low _ l0) (ha.high _ l0) (ha.high _ l2) a02⟩
  · simp only
    rw [hr.old _ l1]
    exact ⟨s12.dot_corner hen (ha.low _ l1) (ha.high _ l1) (ha.high _ l2) a12, m1,
      s10.dot_corner hen (ha.low _ l1) (ha.high _ l1) (ha.high _ l0) a10⟩
  · simp only
    rw [hr.old _ l2]
    exact ⟨s20.dot_corner hen (ha.low _ l2) (ha.high _ l2) (ha.high _ l0) a20, m2,
      s21.dot_corner hen (ha.low _ l2) (ha.high _ l2) (ha.high _ l1) a21⟩
  · exact ⟨m2', m0', m1⟩

theorem enough_of_small (h0 : 0 ≤ u) (h1 : u ≤ 1 / 64) : Enough ((1 + u) ^ 3 - 1) (lowSq u) (highSq u) := by
  have k3 : (1 + u) ^ 3 ≤ (65 / 64) ^ 3 := pow_le_pow_left₀ (by linarith) (by linarith) 3
  have j3 : (63 / 64) ^ 3 ≤ (1 - u) ^ 3 := pow_le_pow_left₀ (by norm_num) (by linarith) 3
  have o3 : 1 ≤ (1 + u) ^ 3 := one_le_pow₀ (by linarith)
  have hh : highSq u ≤ 114 / 100 := by
    unfold highSq
    have : (1 + u) / (1 - u) ^ 3 ≤ (65 / 64) / (63 / 64) ^ 3 :=
      div_le_div₀ (by norm_num) (by linarith) (by norm_num) j3
    have := pow_le_pow_left₀ (by
      have : 0 < 1 - u := by linarith
      positivity) this 2
    refine this.trans (by norm_num)
  have hl : 88 / 100 ≤ lowSq u := by
    unfold lowSq
    have : (63 / 64 : ℝ) / (65 / 64) ^ 3 ≤ (1 - u) / (1 + u) ^ 3 :=
      div_le_div₀ (by linarith) (by linarith) (by linarith) k3
    have := pow_le_pow_left₀ (by norm_num) this 2
    refine le_trans (by norm_num) this
  have hh0 : 0 ≤ highSq u := by unfold highSq; positivity
  refine ⟨by linarith, hh0, ?_⟩
  set w := (1 + u) ^ 3
  have hw : (1 + (w - 1)) * (1 + (w - 1)) - 1 ≤ 1 / 10 := by
    have : w ≤ 1.0477 := k3.trans (by norm_num)
    nlinarith
  have hw0 : 0 ≤ (1 + (w - 1)) * (1 + (w - 1)) - 1 := by nlinarith
  calc _ ≤ 4 * (1 / 10) * (114 / 100 : ℝ) := by
        have := mul_le_mul hw hh hh0 (by norm_num)
        nlinarith
    _ ≤ _ := by linarith

end
end Bempp
