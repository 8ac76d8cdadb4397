import Verif.Spec.Range
import Verif.Proofs.Rounding
/-
Error analysis with a bounded range of exponents.
-/
set_option linter.unusedSectionVars false

namespace Bempp
open NNReal

namespace Scale
variable {m : ℝ≥0}

theorem size_le_top (x : Scale m) : x.size ≤ x.top := le_max_left _ _
theorem peak_le_top (x : Scale m) : x.peak ≤ x.top := le_max_right _ _
theorem add_size (x y : Scale m) : (x + y).size = x.size + y.size := rfl
theorem add_peak (x y : Scale m) : (x + y).peak = max x.peak y.peak := rfl
theorem sub_eq (x y : Scale m) : x - y = x + y := rfl
theorem neg_eq (x : Scale m) : -x = x := rfl
theorem mul_size (x y : Scale m) : (x * y).size = x.size * y.size + m := rfl
theorem mul_peak (x y : Scale m) : (x * y).peak = max x.top y.top := rfl
theorem div_size (x y : Scale m) : (x / y).size = x.size / y.size + m := rfl
theorem div_peak (x y : Scale m) : (x / y).peak = max x.top y.top := rfl
theorem zero_size : (0 : Scale m).size = 0 := rfl
theorem zero_peak : (0 : Scale m).peak = 0 := rfl

theorem top_add_left (x y : Scale m) : x.top ≤ (x + y).top := by
  refine max_le (le_trans ?_ (size_le_top _)) ((le_max_left x.peak y.peak).trans (peak_le_top (x + y)))
  rw [add_size]
  exact le_self_add

theorem top_add_right (x y : Scale m) : y.top ≤ (x + y).top := by
  rw [add_comm x y]
  exact top_add_left y x

theorem top_mul_left (x y : Scale m) : x.top ≤ (x * y).top := (le_max_left x.top y.top).trans (peak_le_top (x * y))
theorem top_mul_right (x y : Scale m) : y.top ≤ (x * y).top := (le_max_right x.top y.top).trans (peak_le_top (x * y))
theorem top_div_left (x y : Scale m) : x.top ≤ (x / y).top := (le_max_left x.top y.top).trans (peak_le_top (x / y))

theorem sum_size (l : List (Scale m)) : l.sum.size = (l.map size).sum := by
  induction l with
  | nil => rfl
  | cons x l ih => rw [List.sum_cons, add_size, ih]; rfl

theorem le_sum (l : List (Scale m)) {x : Scale m} (h : x ∈ l) : x.top ≤ l.sum.top := by
  induction l with
  | nil => simp at h
  | cons y l ih =>
    rw [List.sum_cons]
    rcases List.mem_cons.mp h with rfl | h
    · exact top_add_left _ _
    · exact (ih h).trans (top_add_right _ _)

theorem sum_peak (l : List (Scale m)) (h : ∀ x ∈ l, x.peak = 0) : l.sum.peak = 0 := by
  induction l with
  | nil => rfl
  | cons x l ih =>
    rw [List.sum_cons, add_peak, h x (by simp), ih fun y hy => h y (by simp [hy]), max_self]

end Scale

section
variable {𝕜 : Type} [NormedField 𝕜] {u : ℝ} {m : ℝ≥0} {Ω : ℝ} {B : Ranged 𝕜 u m Ω}

/-- `y` is at most the size of `S`; and if nothing overflows, `x` is `y` up to `n` roundings. -/
def InNear (B : Ranged 𝕜 u m Ω) (n : Nat) (x : Rg B) (y : 𝕜) (S : Scale m) : Prop :=
  ‖y‖ ≤ S.size ∧ ((1 + u) ^ n * S.top ≤ Ω → ‖(show 𝕜 from x) - y‖ ≤ ((1 + u) ^ n - 1) * S.size)

theorem fits {n n' : Nat} {S S' : Scale m} (hu : 0 ≤ u) (h : (1 + u) ^ n' * S'.top ≤ Ω) (hn : n ≤ n')
    (hS : S.top ≤ S'.top) : (1 + u) ^ n * S.top ≤ Ω := by
  refine le_trans ?_ h
  have h1 : (1 + u) ^ n ≤ (1 + u) ^ n' := pow_le_pow_right₀ (by linarith) hn
  exact mul_le_mul h1 (by exact_mod_cast hS) (by positivity) (by positivity)

theorem fits_size {n : Nat} {S : Scale m} (hu : 0 ≤ u) (h : (1 + u) ^ n * S.top ≤ Ω) : (1 + u) ^ n * S.size ≤ Ω := by
  refine le_trans ?_ h
  exact mul_le_mul_of_nonneg_left (by exact_mod_cast S.size_le_top) (by positivity)

theorem InNear.size {n : Nat} {x : Rg B} {y : 𝕜} {S : Scale m} (h : InNear B n x y S) (hf : (1 + u) ^ n * S.top ≤ Ω) :
    ‖(show 𝕜 from x)‖ ≤ (1 + u) ^ n * S.size := by
  have h0 : ∀ z : 𝕜, ‖z‖ ≤ ‖z - y‖ + ‖y‖ := fun z => by simpa using norm_add_le (z - y) y
  have h1 := h0 x
  have := h.2 hf
  have := h.1
  linarith

theorem InNear.exact (x : 𝕜) : InNear B 0 x x (.of x) := by
  refine ⟨le_rfl, fun _ => ?_⟩
  show ‖x - x‖ ≤ _
  simp

theorem InNear.zero : InNear B 0 (0 : 𝕜) 0 0 := by
  refine ⟨by simp [Scale.zero_size], fun _ => ?_⟩
  show ‖(0 : 𝕜) - 0‖ ≤ _
  simp

theorem InNear.mono (hu : 0 ≤ u) {n n' : Nat} {x : Rg B} {y : 𝕜} {S : Scale m} (h : InNear B n x y S) (hn : n ≤ n') :
    InNear B n' x y S := by
  refine ⟨h.1, fun hf => (h.2 (fits hu hf hn le_rfl)).trans ?_⟩
  have : (1 + u) ^ n ≤ (1 + u) ^ n' := pow_le_pow_right₀ (by linarith) hn
  exact mul_le_mul_of_nonneg_right (by linarith) (by positivity)

theorem InNear.neg {n : Nat} {x : Rg B} {y : 𝕜} {S : Scale m} (h : InNear B n x y S) : InNear B n (-x) (-y) (-S) := by
  refine ⟨by rw [norm_neg]; exact h.1, fun hf => ?_⟩
  show ‖(-(show 𝕜 from x)) - -y‖ ≤ _
  rw [← neg_sub', norm_neg]
  exact h.2 hf

theorem InNear.mul (hu : 0 ≤ u) {n n' : Nat} {x x' : Rg B} {y y' : 𝕜} {S S' : Scale m} (h : InNear B n x y S)
    (h' : InNear B n' x' y' S') : InNear B (n + n' + 1) (x * x') (y * y') (S * S') := by
  have hm : (0 : ℝ) ≤ m := m.coe_nonneg
  refine ⟨?_, fun hf => ?_⟩
  · rw [Scale.mul_size, norm_mul]
    push_cast
    have := mul_le_mul h.1 h'.1 (norm_nonneg _) S.size.coe_nonneg
    linarith
  · have f := fits hu hf (by omega : n ≤ n + n' + 1) (Scale.top_mul_left S S')
    have f' := fits hu hf (by omega : n' ≤ n + n' + 1) (Scale.top_mul_right S S')
    have s := h.size f
    have s' := h'.size f'
    have a1 := h.2 f
    have b1 := h'.2 f'
    have a2 := h.1
    show ‖B.mul x x' - y * y'‖ ≤ _
    generalize (show 𝕜 from x) = x at a1 s ⊢
    generalize (show 𝕜 from x') = x' at b1 s' ⊢
    have hs := fits_size hu hf
    rw [Scale.mul_size] at hs ⊢
    push_cast at hs ⊢
    have m0 : (0 : ℝ) ≤ S.size := S.size.coe_nonneg
    have m0' : (0 : ℝ) ≤ S'.size := S'.size.coe_nonneg
    generalize (S.size : ℝ) = s1 at *
    generalize (S'.size : ℝ) = s2 at *
    have e1 := B.mul_err x x'
    generalize (m : ℝ) = μ at *
    have p := one_le_pow_u hu n
    have p' := one_le_pow_u hu n'
    have e2 : ‖x * x'‖ ≤ ((1 + u) ^ n * s1) * ((1 + u) ^ n' * s2) := by
      rw [norm_mul]
      exact mul_le_mul s s' (norm_nonneg _) (by positivity)
    have q : (1 + u) ^ (n + n') ≤ (1 + u) ^ (n + n' + 1) := pow_le_pow_right₀ (by linarith) (by omega)
    have e7 : ((1 + u) ^ n * s1) * ((1 + u) ^ n' * s2) = (1 + u) ^ (n + n') * (s1 * s2) := by rw [pow_add]; ring
    have e8 : (1 + u) ^ (n + n') * (s1 * s2) ≤ (1 + u) ^ (n + n' + 1) * (s1 * s2 + μ) :=
      mul_le_mul q (by linarith) (by positivity) (by positivity)
    have e1 := e1 (by linarith)
    have e3 : ‖x * x' - y * y'‖ ≤ (((1 + u) ^ n - 1) * s1) * ((1 + u) ^ n' * s2) + s1 * (((1 + u) ^ n' - 1) * s2) := by
      have : x * x' - y * y' = (x - y) * x' + y * (x' - y') := by ring
      rw [this]
      refine (norm_add_le _ _).trans (add_le_add ?_ ?_)
      · rw [norm_mul]
        exact mul_le_mul a1 s' (norm_nonneg _) (mul_nonneg (by linarith) m0)
      · rw [norm_mul]
        exact mul_le_mul a2 b1 (norm_nonneg _) m0
    have e4 : ‖B.mul x x' - y * y'‖ ≤ ‖B.mul x x' - x * x'‖ + ‖x * x' - y * y'‖ := by
      have := norm_add_le (B.mul x x' - x * x') (x * x' - y * y')
      simpa using this
    have e5 := mul_le_mul_of_nonneg_left e2 hu
    have e6 : ((1 + u) ^ (n + n' + 1) - 1) * (s1 * s2 + μ) =
        u * (((1 + u) ^ n * s1) * ((1 + u) ^ n' * s2)) +
        ((((1 + u) ^ n - 1) * s1) * ((1 + u) ^ n' * s2) + s1 * (((1 + u) ^ n' - 1) * s2)) +
        ((1 + u) ^ (n + n' + 1) - 1) * μ := by
      rw [pow_succ, pow_add]; ring
    have e9 : u * μ ≤ ((1 + u) ^ (n + n' + 1) - 1) * μ := by
      refine mul_le_mul_of_nonneg_right ?_ hm
      have := one_le_pow_u hu (n + n')
      rw [pow_succ]
      nlinarith
    rw [e6]
    rw [mul_add] at e1
    linarith

theorem near_sum (hu : 0 ≤ u) {n n' : Nat} {x x' y y' z : 𝕜} {S S' : Scale m}
    (hf : (1 + u) ^ (max n n' + 1) * (S + S').top ≤ Ω)
    (a : (1 + u) ^ n * S.top ≤ Ω → ‖x - y‖ ≤ ((1 + u) ^ n - 1) * S.size)
    (b : (1 + u) ^ n' * S'.top ≤ Ω → ‖x' - y'‖ ≤ ((1 + u) ^ n' - 1) * S'.size) (a2 : ‖y‖ ≤ S.size)
    (b2 : ‖y'‖ ≤ S'.size) (e : ‖x + x'‖ ≤ Ω → ‖z - (x + x')‖ ≤ u * ‖x + x'‖) :
    ‖z - (y + y')‖ ≤ ((1 + u) ^ (max n n' + 1) - 1) * (S + S').size := by
  have a1 := a (fits hu hf (by omega) (Scale.top_add_left S S'))
  have b1 := b (fits hu hf (by omega) (Scale.top_add_right S S'))
  rw [Scale.add_size]
  push_cast
  refine apx_sum hu a1 b1 a2 b2 (e ?_)
  have hs := fits_size hu hf
  rw [Scale.add_size] at hs
  push_cast at hs
  have m0 : (0 : ℝ) ≤ S.size := S.size.coe_nonneg
  have m0' : (0 : ℝ) ≤ S'.size := S'.size.coe_nonneg
  generalize (S.size : ℝ) = s1 at *
  generalize (S'.size : ℝ) = s2 at *
  have q : (1 + u) ^ n ≤ (1 + u) ^ (max n n' + 1) := pow_le_pow_right₀ (by linarith) (by omega)
  have q' : (1 + u) ^ n' ≤ (1 + u) ^ (max n n' + 1) := pow_le_pow_right₀ (by linarith) (by omega)
  have h0 : ∀ z y : 𝕜, ‖z‖ ≤ ‖z - y‖ + ‖y‖ := fun z y => by simpa using norm_add_le (z - y) y
  have h1 := h0 x y
  have h2 := h0 x' y'
  have h3 := norm_add_le x x'
  have h4 := mul_le_mul_of_nonneg_right q m0
  have h5 := mul_le_mul_of_nonneg_right q' m0'
  linarith

theorem InNear.add (hu : 0 ≤ u) {n n' : Nat} {x x' : Rg B} {y y' : 𝕜} {S S' : Scale m} (h : InNear B n x y S)
    (h' : InNear B n' x' y' S') : InNear B (max n n' + 1) (x + x') (y + y') (S + S') := by
  refine ⟨?_, fun hf => near_sum hu hf h.2 h'.2 h.1 h'.1 (B.add_err x x')⟩
  rw [Scale.add_size]
  push_cast
  exact (norm_add_le _ _).trans (add_le_add h.1 h'.1)

theorem InNear.sub (hu : 0 ≤ u) {n n' : Nat} {x x' : Rg B} {y y' : 𝕜} {S S' : Scale m} (h : InNear B n x y S)
    (h' : InNear B n' x' y' S') : InNear B (max n n' + 1) (x - x') (y - y') (S - S') := by
  have hn := h'.neg
  rw [Scale.sub_eq]
  refine ⟨?_, fun hf => ?_⟩
  · rw [Scale.add_size]
    push_cast
    exact (norm_sub_le _ _).trans (add_le_add h.1 h'.1)
  · have e := B.sub_err x x'
    rw [sub_eq_add_neg y]
    refine near_sum hu hf h.2 hn.2 h.1 hn.1 ?_
    show ‖(show 𝕜 from x) + -(show 𝕜 from x')‖ ≤ Ω →
      ‖B.sub x x' - ((show 𝕜 from x) + -(show 𝕜 from x'))‖ ≤ u * ‖(show 𝕜 from x) + -(show 𝕜 from x')‖
    rw [← sub_eq_add_neg]
    exact e

theorem InNear.div (hu : 0 ≤ u) {n : Nat} {x : Rg B} {y : 𝕜} {S : Scale m} {d : 𝕜} (h : InNear B n x y S)
    (hd : B.divides d) : InNear B (n + 1) (x / (show Rg B from d)) (y / d) (S / .of d) := by
  have hm : (0 : ℝ) ≤ m := m.coe_nonneg
  have hd' : 0 < ‖d‖ := norm_pos_iff.mpr (B.divides_ne d hd)
  have i0 : 0 ≤ ‖d‖⁻¹ := by positivity
  have hsz : ((S / (.of d : Scale m)).size : ℝ) = S.size * ‖d‖⁻¹ + m := by
    rw [Scale.div_size]
    push_cast
    rw [div_eq_mul_inv]
    rfl
  refine ⟨?_, fun hf => ?_⟩
  · rw [hsz, norm_div, div_eq_mul_inv]
    have := mul_le_mul_of_nonneg_right h.1 i0
    linarith
  · have f := fits hu hf (by omega : n ≤ n + 1) (Scale.top_div_left S (.of d))
    have s := h.size f
    have a1 := h.2 f
    have hs := fits_size hu hf
    rw [hsz] at hs ⊢
    show ‖B.div x d - y / d‖ ≤ _
    have e1 := B.div_err x d hd
    generalize (show 𝕜 from x) = x at a1 s e1 ⊢
    have m0 : (0 : ℝ) ≤ S.size := S.size.coe_nonneg
    generalize (S.size : ℝ) = s1 at *
    generalize (m : ℝ) = μ at *
    have e2 : ‖x / d‖ ≤ (1 + u) ^ n * s1 * ‖d‖⁻¹ := by
      rw [norm_div, div_eq_mul_inv]
      exact mul_le_mul_of_nonneg_right s i0
    have q : (1 + u) ^ n ≤ (1 + u) ^ (n + 1) := pow_le_pow_right₀ (by linarith) (by omega)
    have e8 : (1 + u) ^ n * (s1 * ‖d‖⁻¹) ≤ (1 + u) ^ (n + 1) * (s1 * ‖d‖⁻¹ + μ) :=
      mul_le_mul q (by linarith) (by positivity) (by positivity)
    have e1 := e1 (by rw [mul_assoc] at e2; linarith)
    have e3 : ‖x / d - y / d‖ ≤ ((1 + u) ^ n - 1) * s1 * ‖d‖⁻¹ := by
      rw [show x / d - y / d = (x - y) / d from (sub_div x y d).symm, norm_div, div_eq_mul_inv]
      exact mul_le_mul_of_nonneg_right a1 i0
    have e4 : ‖B.div x d - y / d‖ ≤ ‖B.div x d - x / d‖ + ‖x / d - y / d‖ := by
      have := norm_add_le (B.div x d - x / d) (x / d - y / d)
      simpa using this
    have e5 := mul_le_mul_of_nonneg_left e2 hu
    have e6 : ((1 + u) ^ (n + 1) - 1) * (s1 * ‖d‖⁻¹ + μ) =
        u * ((1 + u) ^ n * s1 * ‖d‖⁻¹) + ((1 + u) ^ n - 1) * s1 * ‖d‖⁻¹ + ((1 + u) ^ (n + 1) - 1) * μ := by
      rw [pow_succ]; ring
    have e9 : u * μ ≤ ((1 + u) ^ (n + 1) - 1) * μ := by
      refine mul_le_mul_of_nonneg_right ?_ hm
      have := one_le_pow_u hu n
      rw [pow_succ]
      nlinarith
    rw [e6]
    rw [mul_add] at e1
    linarith

/-- Accumulation of terms. -/
theorem InNear.fold (hu : 0 ≤ u) {α : Type} (l : List α) (f : α → Rg B) (g : α → 𝕜) (w : α → Scale m) {k : Nat}
    (hl : ∀ p ∈ l, ∀ j, k ≤ j → InNear B j (f p) (g p) (w p)) {s : Rg B} {s' : 𝕜} {S : Scale m} (h : InNear B k s s' S) :
    InNear B (k + l.length) (l.foldl (fun s p => s + f p) s) (l.foldl (fun s p => s + g p) s') (S + (l.map w).sum) := by
  induction l generalizing k s s' S with
  | nil => simpa using h
  | cons p l ih =>
    have h1 := h.add hu (hl p (by simp) k le_rfl)
    rw [max_self] at h1
    have := ih (fun q hq j hj => hl q (by simp [hq]) j (by omega)) h1
    rw [List.length_cons, show k + (l.length + 1) = k + 1 + l.length by omega, List.map_cons, List.sum_cons, ← add_assoc]
    exact this

/-- Accumulation in two nested loops. -/
theorem InNear.fold2 (hu : 0 ≤ u) {α β : Type} (l : List α) (l' : List β) (f : α → β → Rg B) (g : α → β → 𝕜)
    (w : α → β → Scale m) {k : Nat} (hl : ∀ p ∈ l, ∀ q ∈ l', ∀ j, k ≤ j → InNear B j (f p q) (g p q) (w p q)) {s : Rg B}
    {s' : 𝕜} {S : Scale m} (h : InNear B k s s' S) :
    InNear B (k + l.length * l'.length) (l.foldl (fun s p => l'.foldl (fun s q => s + f p q) s) s)
      (l.foldl (fun s p => l'.foldl (fun s q => s + g p q) s) s') (S + (l.map fun p => (l'.map (w p)).sum).sum) := by
  induction l generalizing k s s' S with
  | nil => simpa using h
  | cons p l ih =>
    have h1 := InNear.fold hu l' (f p) (g p) (w p) (fun q hq => hl p (by simp) q hq) h
    have := ih (fun p' hp q hq j hj => hl p' (by simp [hp]) q hq j (by omega)) h1
    rw [List.length_cons, Nat.add_mul, one_mul, show k + (l.length * l'.length + l'.length) =
      k + l'.length + l.length * l'.length by omega, List.map_cons, List.sum_cons, ← add_assoc]
    exact this

end

/-! ### The formulas -/

section
variable {𝕜 : Type} [NormedField 𝕜] [NormedAlgebra ℝ 𝕜] {u : ℝ} {m : ℝ≥0} {Ω : ℝ} {A : Ranged ℝ u m Ω}
  {B : Ranged 𝕜 u m Ω}

/-- `S` has the sizes of the normal, the Jacobian and the integration element in `P`. -/
structure PointData.ScaleOf (B : Ranged 𝕜 u m Ω) (P : PointData 𝕜) (S : PointData (Scale m)) : Prop where
  normal : ∀ i, S.normal i = .of (P.normal i)
  jacobian : ∀ i, S.jacobian i = .of (P.jacobian i)
  jdet : S.jdet = .of P.jdet
  divides : B.divides P.jdet

theorem surfaceCurl_ranged (hu : 0 ≤ u) (U : Nat → 𝕜) {P : PointData 𝕜} {S : PointData (Scale m)} (h : P.ScaleOf B S)
    (i : Nat) : InNear B 2 (surfaceCurl (T := Rg B) P U i) (surfaceCurl P U i) (surfaceCurl S (fun i => .of (U i)) i) := by
  unfold surfaceCurl
  rw [h.jacobian, h.jacobian]
  exact ((InNear.exact _).mul hu (InNear.exact _)).sub hu ((InNear.exact _).mul hu (InNear.exact _))

theorem curlCurl_ranged (hu : 0 ≤ u) (K U V : Nat → 𝕜) {P P' : PointData 𝕜} {S S' : PointData (Scale m)}
    (h : P.ScaleOf B S) (h' : P'.ScaleOf B S') :
    InNear B 10 (curlCurlF (T := Rg B) K U V P P') (curlCurlF K U V P P')
      (curlCurlF (fun i => .of (K i)) (fun i => .of (U i)) (fun i => .of (V i)) S S') := by
  unfold curlCurlF
  rw [h.jdet, h'.jdet]
  have c : ∀ i, InNear B 5 (surfaceCurl (T := Rg B) P U i * surfaceCurl (T := Rg B) P' V i)
      (surfaceCurl P U i * surfaceCurl P' V i)
      (surfaceCurl S (fun i => .of (U i)) i * surfaceCurl S' (fun i => .of (V i)) i) := fun i =>
    (surfaceCurl_ranged hu U h i).mul hu (surfaceCurl_ranged hu V h' i)
  exact (((InNear.exact _).mul hu (((c 0).add hu (c 1)).add hu (c 2))).div hu h.divides).div hu h'.divides

theorem normalNormal_ranged (hu : 0 ≤ u) (K U V : Nat → 𝕜) {P P' : PointData 𝕜} {S S' : PointData (Scale m)}
    (h : P.ScaleOf B S) (h' : P'.ScaleOf B S') :
    InNear B 6 (normalNormalF (T := Rg B) K U V P P') (normalNormalF K U V P P')
      (normalNormalF (fun i => .of (K i)) (fun i => .of (U i)) (fun i => .of (V i)) S S') := by
  unfold normalNormalF
  simp only [h.normal, h'.normal]
  have c : ∀ i, InNear B 1 (show Rg B from (show Rg B from P'.normal i) * (show Rg B from P.normal i))
      (P'.normal i * P.normal i) (.of (P'.normal i) * .of (P.normal i)) := fun i =>
    (InNear.exact _).mul hu (InNear.exact _)
  exact ((((InNear.exact _).mul hu (((c 0).add hu (c 1)).add hu (c 2)))).mul hu (InNear.exact _)).mul hu (InNear.exact _)

theorem InNear.cast {n : Nat} {x : Rg A} {y : ℝ} {S : Scale m} (h : InNear A n x y S) :
    InNear B n (algebraMap ℝ 𝕜 x : 𝕜) (algebraMap ℝ 𝕜 y) S := by
  obtain ⟨h1, h2⟩ := h
  refine ⟨by rw [norm_algebraMap']; exact h1, fun hf => ?_⟩
  have e : ∀ z : ℝ, ‖algebraMap ℝ 𝕜 z - algebraMap ℝ 𝕜 y‖ = ‖z - y‖ := fun z => by
    rw [← map_sub, norm_algebraMap']
  exact (e x).trans_le (h2 hf)

/-- Every formula is evaluated with the stated number of roundings. -/
theorem InRange.near (hu : 0 ≤ u) {F : MathIntegrand (Rg B)} {F' : MathIntegrand 𝕜} {W : MathIntegrand (Scale m)}
    {n : Nat} (hF : InRange A B F F' W n) (K U V : Nat → 𝕜) {P P' : PointData 𝕜} {S S' : PointData (Scale m)}
    (h : P.ScaleOf B S) (h' : P'.ScaleOf B S') :
    InNear B n (F K U V P P') (F' K U V P P')
      (W (fun i => .of (K i)) (fun i => .of (U i)) (fun i => .of (V i)) S S') := by
  cases hF with
  | singleLayer => exact (((InNear.exact _).mul hu (InNear.exact _)).mul hu (InNear.exact _))
  | doubleLayer =>
    unfold dlF
    simp only [h'.normal]
    have c : ∀ j i, InNear B 1 (show Rg B from (show Rg B from K j) * (show Rg B from P'.normal i))
        (K j * P'.normal i) (.of (K j) * .of (P'.normal i)) := fun j i => (InNear.exact _).mul hu (InNear.exact _)
    exact ((((c 1 0).add hu (c 2 1)).add hu (c 3 2)).mul hu (InNear.exact _)).mul hu (InNear.exact _)
  | adjointDoubleLayer =>
    unfold adlF
    simp only [h.normal]
    have c : ∀ j i, InNear B 1 (show Rg B from (show Rg B from K j) * (show Rg B from P.normal i))
        (K j * P.normal i) (.of (K j) * .of (P.normal i)) := fun j i => (InNear.exact _).mul hu (InNear.exact _)
    exact (((((c 1 0).add hu (c 2 1)).add hu (c 3 2)).neg).mul hu (InNear.exact _)).mul hu (InNear.exact _)
  | hypersingular => exact curlCurl_ranged hu K U V h h'
  | helmholtzHypersingular w =>
    unfold helmholtzHypF
    have e : InNear A 1 (show Rg A from -(show Rg A from (show Rg A from w) * (show Rg A from w))) (-(w * w))
        (-((.of w : Scale m) * .of w)) := ((InNear.exact w).mul hu (InNear.exact w)).neg
    have hw := e.cast (B := B)
    exact (curlCurl_ranged hu K U V h h').add hu (hw.mul hu (normalNormal_ranged hu K U V h h'))

/-! ### The quadrature values -/

theorem data_scaleOf (G : Geometry ℝ) (c : Nat) (x : List ℝ) (h : B.divides (algebraMap ℝ 𝕜 (G.jdet c x))) :
    (G.data (algebraMap ℝ 𝕜) c x).ScaleOf B (G.data .of c x) := by
  have e : ∀ r : ℝ, (.of r : Scale m) = .of (algebraMap ℝ 𝕜 r) := fun r =>
    Scale.ext (by show ‖r‖₊ = ‖algebraMap ℝ 𝕜 r‖₊; rw [nnnorm_algebraMap']) rfl
  exact ⟨fun i => e _, fun i => e _, e _, h⟩

variable {F : MathIntegrand (Rg B)} {F' : MathIntegrand 𝕜} {W : MathIntegrand (Scale m)} {n : Nat} {K : MathKernel ℝ 𝕜}
  {GT GR : Geometry ℝ} {BT BR : Basis ℝ 𝕜} {Q : Quadrature ℝ}

theorem regularValue_near (hu : 0 ≤ u) (hF : InRange A B F F' W n) {c c' : Nat} (tt rt : CellType)
    (hc : ∀ p ∈ Q.regular tt, B.divides (algebraMap ℝ 𝕜 (GT.jdet c p.1)))
    (hc' : ∀ p ∈ Q.regular rt, B.divides (algebraMap ℝ 𝕜 (GR.jdet c' p.1))) (a b : Nat) :
    InNear B (n + 4 + (Q.regular tt).length * (Q.regular rt).length)
      (regularValue (R := Rg A) (T := Rg B) castRg F K GT GR BT BR Q tt rt c c' a b)
      (regularValue (algebraMap ℝ 𝕜) F' K GT GR BT BR Q tt rt c c' a b)
      (((Q.regular tt).map fun p => ((Q.regular rt).map fun q =>
        integrandScale m K GT GR BT BR W tt rt c c' a b p.1 q.1 *
          (.of q.2 * .of (GR.jdet c' q.1)) * (.of p.2 * .of (GT.jdet c p.1))).sum).sum) := by
  unfold regularValue
  have key := InNear.fold2 hu (Q.regular tt) (Q.regular rt) (k := n + 4)
    (fun p q => (show Rg B from F (K (GT.coords c p.1) (GR.coords c' q.1)) (fun i => BT tt a i p.1)
        (fun i => BR rt b i q.1) (GT.data (algebraMap ℝ 𝕜) c p.1) (GR.data (algebraMap ℝ 𝕜) c' q.1)) *
      (show Rg B from algebraMap ℝ 𝕜 (A.mul q.2 (GR.jdet c' q.1))) *
      (show Rg B from algebraMap ℝ 𝕜 (A.mul p.2 (GT.jdet c p.1))))
    (fun p q => F' (K (GT.coords c p.1) (GR.coords c' q.1)) (fun i => BT tt a i p.1)
        (fun i => BR rt b i q.1) (GT.data (algebraMap ℝ 𝕜) c p.1) (GR.data (algebraMap ℝ 𝕜) c' q.1) *
      algebraMap ℝ 𝕜 (q.2 * GR.jdet c' q.1) * algebraMap ℝ 𝕜 (p.2 * GT.jdet c p.1))
    (fun p q => integrandScale m K GT GR BT BR W tt rt c c' a b p.1 q.1 *
          (.of q.2 * .of (GR.jdet c' q.1)) * (.of p.2 * .of (GT.jdet c p.1)))
    (fun p hp q hq j hj => by
      have f := hF.near hu (K (GT.coords c p.1) (GR.coords c' q.1)) (fun i => BT tt a i p.1) (fun i => BR rt b i q.1)
        (data_scaleOf GT c p.1 (hc p hp)) (data_scaleOf GR c' q.1 (hc' q hq))
      have w : ∀ x y : ℝ, InNear B 1 (algebraMap ℝ 𝕜 (A.mul x y) : 𝕜) (algebraMap ℝ 𝕜 (x * y)) (.of x * .of y) :=
        fun x y => InNear.cast (x := show Rg A from A.mul x y) ((InNear.exact (B := A) x).mul hu (InNear.exact y))
      exact ((f.mul hu (w q.2 (GR.jdet c' q.1))).mul hu (w p.2 (GT.jdet c p.1))).mono hu hj)
    (InNear.zero.mono hu (Nat.zero_le _))
  rw [zero_add] at key
  exact key

theorem singularValue_near (hu : 0 ≤ u) (hF : InRange A B F F' W n) {c c' : Nat} (tt rt : CellType)
    (con : Connectivity) (hc : ∀ p ∈ Q.singular tt rt con, B.divides (algebraMap ℝ 𝕜 (GT.jdet c p.1)))
    (hc' : ∀ p ∈ Q.singular tt rt con, B.divides (algebraMap ℝ 𝕜 (GR.jdet c' p.2.1))) (a b : Nat) :
    InNear B (n + 3 + (Q.singular tt rt con).length)
      (singularValue (R := Rg A) (T := Rg B) castRg F K GT GR BT BR Q tt rt con c c' a b)
      (singularValue (algebraMap ℝ 𝕜) F' K GT GR BT BR Q tt rt con c c' a b)
      (((Q.singular tt rt con).map fun p => integrandScale m K GT GR BT BR W tt rt c c' a b p.1 p.2.1 *
        (.of p.2.2 * (.of (GT.jdet c p.1) * .of (GR.jdet c' p.2.1)))).sum) := by
  unfold singularValue
  have key := InNear.fold hu (Q.singular tt rt con) (k := n + 3)
    (fun p => (show Rg B from F (K (GT.coords c p.1) (GR.coords c' p.2.1)) (fun i => BT tt a i p.1)
        (fun i => BR rt b i p.2.1) (GT.data (algebraMap ℝ 𝕜) c p.1) (GR.data (algebraMap ℝ 𝕜) c' p.2.1)) *
      (show Rg B from algebraMap ℝ 𝕜 (A.mul p.2.2 (A.mul (GT.jdet c p.1) (GR.jdet c' p.2.1)))))
    (fun p => F' (K (GT.coords c p.1) (GR.coords c' p.2.1)) (fun i => BT tt a i p.1)
        (fun i => BR rt b i p.2.1) (GT.data (algebraMap ℝ 𝕜) c p.1) (GR.data (algebraMap ℝ 𝕜) c' p.2.1) *
      algebraMap ℝ 𝕜 (p.2.2 * (GT.jdet c p.1 * GR.jdet c' p.2.1)))
    (fun p => integrandScale m K GT GR BT BR W tt rt c c' a b p.1 p.2.1 *
        (.of p.2.2 * (.of (GT.jdet c p.1) * .of (GR.jdet c' p.2.1))))
    (fun p hp j hj => by
      have f := hF.near hu (K (GT.coords c p.1) (GR.coords c' p.2.1)) (fun i => BT tt a i p.1)
        (fun i => BR rt b i p.2.1) (data_scaleOf GT c p.1 (hc p hp)) (data_scaleOf GR c' p.2.1 (hc' p hp))
      have w : ∀ x y z : ℝ, InNear B 2 (algebraMap ℝ 𝕜 (A.mul x (A.mul y z)) : 𝕜) (algebraMap ℝ 𝕜 (x * (y * z)))
          (.of x * (.of y * .of z)) := fun x y z =>
        InNear.cast (x := show Rg A from A.mul x (A.mul y z)) ((InNear.exact (B := A) x).mul hu
          ((InNear.exact (B := A) y).mul hu (InNear.exact z)))
      exact (f.mul hu (w p.2.2 (GT.jdet c p.1) (GR.jdet c' p.2.1))).mono hu hj)
    (InNear.zero.mono hu (Nat.zero_le _))
  rw [zero_add] at key
  exact key

/-! ### Accumulation in the matrix -/

theorem InNear.ops (hu : 0 ≤ u) (ops : List (AddOp (Rg B))) (a : Nat) {k : Nat} {s : Rg B} {s' : 𝕜} {S : Scale m}
    (h : InNear B k s s' S) :
    InNear B (k + contribTo (fun _ => 1) ops a) (ops.foldl (fun s o => if o.addr = a then s + o.val else s) s)
      (s' + contribTo (S := Rg B) Rg.val ops a) (S + contribTo (fun x : Rg B => .of x.val) ops a) := by
  induction ops generalizing k s s' S with
  | nil => simpa [contribTo] using h
  | cons o ops ih =>
    by_cases e : o.addr = a
    · have h1 := h.add hu ((show InNear B 0 o.val o.val.val (.of o.val.val) from InNear.exact (B := B) o.val).mono hu
        (Nat.zero_le k))
      rw [max_self] at h1
      have := ih h1
      simp only [contribTo, List.map_cons, List.foldl_cons, List.sum_cons, if_pos e] at this ⊢
      rw [← add_assoc, ← add_assoc, ← add_assoc]
      exact this
    · have := ih h
      simp only [contribTo, List.map_cons, List.foldl_cons, List.sum_cons, if_neg e, zero_add] at this ⊢
      exact this

/-- `value c c' a b` is one of the terms of entry `(i, j)`. -/
def IsTerm (test trial : FunctionSpace) (i j : Nat) (c c' : Entity) (a b : Nat) : Prop :=
  c ∈ test.grid.entityIter 2 ∧ c' ∈ trial.grid.entityIter 2 ∧ (i, a) ∈ ((test.cellDofs c.localIndex).getD []).zipIdx ∧
    (j, b) ∈ ((trial.cellDofs c'.localIndex).getD []).zipIdx

theorem doubleSum_bound_terms {test trial : FunctionSpace} {i j : Nat} (f g : Entity → Entity → Nat → Nat → 𝕜)
    (h : Entity → Entity → Nat → Nat → ℝ)
    (hl : ∀ c c' a b, IsTerm test trial i j c c' a b → ‖f c c' a b - g c c' a b‖ ≤ h c c' a b) :
    ‖doubleSum test trial f i j - doubleSum test trial g i j‖ ≤ doubleSum test trial h i j := by
  unfold doubleSum
  refine list_sum_bound _ _ _ _ fun c hc => list_sum_bound _ _ _ _ fun c' hc' => list_sum_bound _ _ _ _ fun x hx =>
    list_sum_bound _ _ _ _ fun y hy => ?_
  split
  · rename_i hxy
    exact hl c c' _ _ ⟨hc, hc', by rw [← hxy.1]; exact hx, by rw [← hxy.2]; exact hy⟩
  · simp

theorem doubleSum_size {test trial : FunctionSpace} (f : Entity → Entity → Nat → Nat → Scale m) (i j : Nat) :
    ((doubleSum test trial f i j).size : ℝ) = doubleSum test trial (fun c c' a b => ((f c c' a b).size : ℝ)) i j := by
  unfold doubleSum
  have e : ∀ (p : Prop) [Decidable p] (x : Scale m), (((if p then x else 0 : Scale m).size : ℝ≥0) : ℝ) =
      if p then (x.size : ℝ) else 0 := by
    intro p _ x; split <;> rfl
  simp only [Scale.sum_size, List.map_map, NNReal.coe_list_sum, Function.comp_def, e]

theorem doubleSum_of_peak {test trial : FunctionSpace} (f : Entity → Entity → Nat → Nat → 𝕜) (i j : Nat) :
    (doubleSum test trial (fun c c' a b => (.of (f c c' a b) : Scale m)) i j).peak = 0 := by
  unfold doubleSum
  refine Scale.sum_peak _ fun x hx => ?_
  obtain ⟨_, _, rfl⟩ := List.mem_map.mp hx
  refine Scale.sum_peak _ fun x hx => ?_
  obtain ⟨_, _, rfl⟩ := List.mem_map.mp hx
  refine Scale.sum_peak _ fun x hx => ?_
  obtain ⟨_, _, rfl⟩ := List.mem_map.mp hx
  refine Scale.sum_peak _ fun x hx => ?_
  obtain ⟨_, _, rfl⟩ := List.mem_map.mp hx
  split <;> rfl

theorem doubleSum_top {test trial : FunctionSpace} (f : Entity → Entity → Nat → Nat → Scale m) {i j : Nat} {c c' : Entity}
    {a b : Nat} (h : IsTerm test trial i j c c' a b) : (f c c' a b).top ≤ (doubleSum test trial f i j).top := by
  obtain ⟨h1, h2, h3, h4⟩ := h
  unfold doubleSum
  refine le_trans ?_ (Scale.le_sum _ (List.mem_map.mpr ⟨c, h1, rfl⟩))
  refine le_trans ?_ (Scale.le_sum _ (List.mem_map.mpr ⟨c', h2, rfl⟩))
  refine le_trans ?_ (Scale.le_sum _ (List.mem_map.mpr ⟨_, h3, rfl⟩))
  refine le_trans ?_ (Scale.le_sum _ (List.mem_map.mpr ⟨_, h4, rfl⟩))
  rw [if_pos ⟨rfl, rfl⟩]

end
end Bempp
