import Verif.Spec.Rounding
import Verif.Proofs.Galerkin
import Verif.Proofs.Values
import Mathlib.Tactic.Linarith
import Mathlib.Tactic.Positivity
import Mathlib.Tactic.Ring
/-
Error analysis of the quadrature values and of the accumulation.
-/
set_option linter.unusedSectionVars false

namespace Bempp

section
variable {𝕜 : Type} [NormedField 𝕜] {u : ℝ} {B : Arith 𝕜 u}

/-- `x` is `y` up to `n` roundings; `m` bounds the absolute values in `y`. -/
def Apx (B : Arith 𝕜 u) (n : Nat) (x : Fl B) (y : 𝕜) (m : ℝ) : Prop :=
  ‖(show 𝕜 from x) - y‖ ≤ ((1 + u) ^ n - 1) * m ∧ ‖y‖ ≤ m

theorem Apx.nonneg {n : Nat} {x : Fl B} {y : 𝕜} {m : ℝ} (h : Apx B n x y m) : 0 ≤ m :=
  (norm_nonneg y).trans h.2

theorem Apx.size {n : Nat} {x : Fl B} {y : 𝕜} {m : ℝ} (h : Apx B n x y m) :
    ‖(show 𝕜 from x)‖ ≤ (1 + u) ^ n * m := by
  have h0 : ∀ z : 𝕜, ‖z‖ ≤ ‖z - y‖ + ‖y‖ := fun z => by simpa using norm_add_le (z - y) y
  have h1 := h0 x
  have := h.1
  have := h.2
  linarith

theorem Apx.exact (x : 𝕜) : Apx B 0 x x ‖x‖ := by
  constructor
  · show ‖x - x‖ ≤ _
    simp
  · exact le_rfl

theorem one_le_pow_u (hu : 0 ≤ u) (n : Nat) : 1 ≤ (1 + u) ^ n := one_le_pow₀ (by linarith)

theorem Apx.mono (hu : 0 ≤ u) {n n' : Nat} {x : Fl B} {y : 𝕜} {m : ℝ} (h : Apx B n x y m) (hn : n ≤ n') :
    Apx B n' x y m := by
  refine ⟨h.1.trans ?_, h.2⟩
  have : (1 + u) ^ n ≤ (1 + u) ^ n' := pow_le_pow_right₀ (by linarith) hn
  exact mul_le_mul_of_nonneg_right (by linarith) h.nonneg

theorem Apx.neg {n : Nat} {x : Fl B} {y : 𝕜} {m : ℝ} (h : Apx B n x y m) : Apx B n (-x) (-y) m := by
  constructor
  · show ‖(-(show 𝕜 from x)) - -y‖ ≤ _
    rw [← neg_sub', norm_neg]
    exact h.1
  · rw [norm_neg]; exact h.2

theorem Apx.mul (hu : 0 ≤ u) {n n' : Nat} {x x' : Fl B} {y y' : 𝕜} {m m' : ℝ} (h : Apx B n x y m)
    (h' : Apx B n' x' y' m') : Apx B (n + n' + 1) (x * x') (y * y') (m * m') := by
  have s := h.size
  have s' := h'.size
  obtain ⟨a1, a2⟩ := h
  obtain ⟨b1, b2⟩ := h'
  have m0 : 0 ≤ m := (norm_nonneg y).trans a2
  have m0' : 0 ≤ m' := (norm_nonneg y').trans b2
  constructor
  · show ‖B.mul x x' - y * y'‖ ≤ _
    generalize (show 𝕜 from x) = x at a1 s ⊢
    generalize (show 𝕜 from x') = x' at b1 s' ⊢
    have p := one_le_pow_u hu n
    have p' := one_le_pow_u hu n'
    have e1 := B.mul_err x x'
    have e2 : ‖x * x'‖ ≤ ((1 + u) ^ n * m) * ((1 + u) ^ n' * m') := by
      rw [norm_mul]
      exact mul_le_mul s s' (norm_nonneg _) (by positivity)
    have e3 : ‖x * x' - y * y'‖ ≤ (((1 + u) ^ n - 1) * m) * ((1 + u) ^ n' * m') + m * (((1 + u) ^ n' - 1) * m') := by
      have : x * x' - y * y' = (x - y) * x' + y * (x' - y') := by ring
      rw [this]
      refine (norm_add_le _ _).trans (add_le_add ?_ ?_)
      · rw [norm_mul]
        exact mul_le_mul a1 s' (norm_nonneg _) (mul_nonneg (by linarith) m0)
      · rw [norm_mul]
        exact mul_le_mul a2 b1 (norm_nonneg _) m0
    have e4 : ‖B.mul x x' - y * y'‖ ≤ ‖B.mul x x' - x * x'‖ + ‖x * x' - y * y'‖ := by
      have := norm_add_le (B.mul x x' - x * x') (x * x' - y * y')
      simpa using this
    have e5 := mul_le_mul_of_nonneg_left e2 hu
    have e6 : ((1 + u) ^ (n + n' + 1) - 1) * (m * m') =
        u * (((1 + u) ^ n * m) * ((1 + u) ^ n' * m')) +
        ((((1 + u) ^ n - 1) * m) * ((1 + u) ^ n' * m') + m * (((1 + u) ^ n' - 1) * m')) := by
      rw [pow_succ, pow_add]; ring
    rw [e6]
    linarith
  · rw [norm_mul]
    exact mul_le_mul a2 b2 (norm_nonneg _) m0

theorem apx_sum (hu : 0 ≤ u) {n n' : Nat} {x x' y y' z : 𝕜} {m m' : ℝ} (a1 : ‖x - y‖ ≤ ((1 + u) ^ n - 1) * m)
    (b1 : ‖x' - y'‖ ≤ ((1 + u) ^ n' - 1) * m') (a2 : ‖y‖ ≤ m) (b2 : ‖y'‖ ≤ m')
    (e : ‖z - (x + x')‖ ≤ u * ‖x + x'‖) :
    ‖z - (y + y')‖ ≤ ((1 + u) ^ (max n n' + 1) - 1) * (m + m') := by
  have m0 : 0 ≤ m := (norm_nonneg y).trans a2
  have m0' : 0 ≤ m' := (norm_nonneg y').trans b2
  have q : (1 + u) ^ n ≤ (1 + u) ^ (max n n') := pow_le_pow_right₀ (by linarith) (le_max_left _ _)
  have q' : (1 + u) ^ n' ≤ (1 + u) ^ (max n n') := pow_le_pow_right₀ (by linarith) (le_max_right _ _)
  have c1 : ‖x - y‖ ≤ ((1 + u) ^ (max n n') - 1) * m := a1.trans (mul_le_mul_of_nonneg_right (by linarith) m0)
  have c2 : ‖x' - y'‖ ≤ ((1 + u) ^ (max n n') - 1) * m' := b1.trans (mul_le_mul_of_nonneg_right (by linarith) m0')
  have c3 : ‖x + x' - (y + y')‖ ≤ ((1 + u) ^ (max n n') - 1) * (m + m') := by
    have : x + x' - (y + y') = (x - y) + (x' - y') := by ring
    rw [this, mul_add]
    exact (norm_add_le _ _).trans (add_le_add c1 c2)
  have c4 : ‖x + x'‖ ≤ (1 + u) ^ (max n n') * (m + m') := by
    have h1 : ‖x + x'‖ ≤ ‖x + x' - (y + y')‖ + ‖y + y'‖ := by
      have := norm_add_le (x + x' - (y + y')) (y + y')
      simpa using this
    have h2 := norm_add_le y y'
    linarith
  have c5 : ‖z - (y + y')‖ ≤ ‖z - (x + x')‖ + ‖x + x' - (y + y')‖ := by
    have := norm_add_le (z - (x + x')) (x + x' - (y + y'))
    simpa using this
  have c6 := mul_le_mul_of_nonneg_left c4 hu
  have c7 : ((1 + u) ^ (max n n' + 1) - 1) * (m + m') =
      u * ((1 + u) ^ (max n n') * (m + m')) + ((1 + u) ^ (max n n') - 1) * (m + m') := by
    rw [pow_succ]; ring
  rw [c7]
  linarith

theorem Apx.add (hu : 0 ≤ u) {n n' : Nat} {x x' : Fl B} {y y' : 𝕜} {m m' : ℝ} (h : Apx B n x y m)
    (h' : Apx B n' x' y' m') : Apx B (max n n' + 1) (x + x') (y + y') (m + m') :=
  ⟨apx_sum hu h.1 h'.1 h.2 h'.2 (B.add_err x x'), (norm_add_le _ _).trans (add_le_add h.2 h'.2)⟩

theorem Apx.sub (hu : 0 ≤ u) {n n' : Nat} {x x' : Fl B} {y y' : 𝕜} {m m' : ℝ} (h : Apx B n x y m)
    (h' : Apx B n' x' y' m') : Apx B (max n n' + 1) (x - x') (y - y') (m + m') := by
  have e := B.sub_err x x'
  have hn := h'.neg
  refine ⟨?_, (norm_sub_le _ _).trans (add_le_add h.2 h'.2)⟩
  rw [sub_eq_add_neg y]
  refine apx_sum hu h.1 hn.1 h.2 hn.2 ?_
  show ‖B.sub x x' - ((show 𝕜 from x) + -(show 𝕜 from x'))‖ ≤ u * ‖(show 𝕜 from x) + -(show 𝕜 from x')‖
  rw [← sub_eq_add_neg]
  exact e

theorem Apx.div (hu : 0 ≤ u) {n : Nat} {x : Fl B} {y : 𝕜} {m : ℝ} {d : 𝕜} (h : Apx B n x y m) (hd : d ≠ 0) :
    Apx B (n + 1) (x / (show Fl B from d)) (y / d) (m / ‖d‖) := by
  have s := h.size
  obtain ⟨a1, a2⟩ := h
  have hd' : 0 < ‖d‖ := norm_pos_iff.mpr hd
  have i0 : 0 ≤ ‖d‖⁻¹ := by positivity
  constructor
  · show ‖B.div x d - y / d‖ ≤ _
    have e1 := B.div_err x d hd
    generalize (show 𝕜 from x) = x at a1 s e1 ⊢
    have e2 : ‖x / d‖ ≤ (1 + u) ^ n * m * ‖d‖⁻¹ := by
      rw [norm_div, div_eq_mul_inv]
      exact mul_le_mul_of_nonneg_right s i0
    have e3 : ‖x / d - y / d‖ ≤ ((1 + u) ^ n - 1) * m * ‖d‖⁻¹ := by
      rw [← sub_div, norm_div, div_eq_mul_inv]
      exact mul_le_mul_of_nonneg_right a1 i0
    have e4 : ‖B.div x d - y / d‖ ≤ ‖B.div x d - x / d‖ + ‖x / d - y / d‖ := by
      have := norm_add_le (B.div x d - x / d) (x / d - y / d)
      simpa using this
    have e5 := mul_le_mul_of_nonneg_left e2 hu
    have e6 : ((1 + u) ^ (n + 1) - 1) * (m / ‖d‖) =
        u * ((1 + u) ^ n * m * ‖d‖⁻¹) + ((1 + u) ^ n - 1) * m * ‖d‖⁻¹ := by
      rw [pow_succ, div_eq_mul_inv]; ring
    rw [e6]
    linarith
  · rw [norm_div]
    exact div_le_div_of_nonneg_right a2 hd'.le

/-- Accumulation of terms. -/
theorem Apx.fold (hu : 0 ≤ u) {α : Type} (l : List α) (f : α → Fl B) (g : α → 𝕜) (w : α → ℝ) {k : Nat}
    (hl : ∀ p ∈ l, ∀ j, k ≤ j → Apx B j (f p) (g p) (w p)) {s : Fl B} {s' : 𝕜} {m : ℝ} (h : Apx B k s s' m) :
    Apx B (k + l.length) (l.foldl (fun s p => s + f p) s) (l.foldl (fun s p => s + g p) s')
      (l.foldl (fun s p => s + w p) m) := by
  induction l generalizing k s s' m with
  | nil => exact h
  | cons p l ih =>
    have h1 := h.add hu (hl p (by simp) k le_rfl)
    rw [max_self] at h1
    have := ih (fun q hq j hj => hl q (by simp [hq]) j (by omega)) h1
    rw [List.length_cons, show k + (l.length + 1) = k + 1 + l.length by omega]
    exact this

/-- Accumulation in two nested loops. -/
theorem Apx.fold2 (hu : 0 ≤ u) {α β : Type} (l : List α) (l' : List β) (f : α → β → Fl B) (g : α → β → 𝕜)
    (w : α → β → ℝ) {k : Nat} (hl : ∀ p ∈ l, ∀ q ∈ l', ∀ j, k ≤ j → Apx B j (f p q) (g p q) (w p q)) {s : Fl B}
    {s' : 𝕜} {m : ℝ} (h : Apx B k s s' m) :
    Apx B (k + l.length * l'.length) (l.foldl (fun s p => l'.foldl (fun s q => s + f p q) s) s)
      (l.foldl (fun s p => l'.foldl (fun s q => s + g p q) s) s')
      (l.foldl (fun s p => l'.foldl (fun s q => s + w p q) s) m) := by
  induction l generalizing k s s' m with
  | nil => simpa using h
  | cons p l ih =>
    have h1 := Apx.fold hu l' (f p) (g p) (w p) (fun q hq => hl p (by simp) q hq) h
    have := ih (fun p' hp q hq j hj => hl p' (by simp [hp]) q hq j (by omega)) h1
    rw [List.length_cons, Nat.add_mul, one_mul, show k + (l.length * l'.length + l'.length) =
      k + l'.length + l.length * l'.length by omega]
    exact this

end

/-! ### The formulas -/

section
variable {𝕜 : Type} [NormedField 𝕜] [NormedAlgebra ℝ 𝕜] {u : ℝ} {A : Arith ℝ u} {B : Arith 𝕜 u}

/-- `S` has the absolute values of the normal, the Jacobian and the integration element in `P`. -/
structure PointData.AbsOf (P : PointData 𝕜) (S : PointData ℝ) : Prop where
  normal : ∀ i, S.normal i = ‖P.normal i‖
  jacobian : ∀ i, S.jacobian i = ‖P.jacobian i‖
  jdet : S.jdet = ‖P.jdet‖
  pos : P.jdet ≠ 0

theorem surfaceCurl_apx (hu : 0 ≤ u) (U : Nat → 𝕜) {P : PointData 𝕜} {S : PointData ℝ} (h : P.AbsOf S) (i : Nat) :
    Apx B 2 (surfaceCurl (T := Fl B) P U i) (surfaceCurl P U i) (surfaceCurlAbs S (fun i => ‖U i‖) i) := by
  unfold surfaceCurl surfaceCurlAbs
  rw [h.jacobian, h.jacobian]
  exact ((Apx.exact _).mul hu (Apx.exact _)).sub hu ((Apx.exact _).mul hu (Apx.exact _))

theorem curlCurl_apx (hu : 0 ≤ u) (K U V : Nat → 𝕜) {P P' : PointData 𝕜} {S S' : PointData ℝ} (h : P.AbsOf S)
    (h' : P'.AbsOf S') :
    Apx B 10 (curlCurlF (T := Fl B) K U V P P') (curlCurlF K U V P P')
      (curlCurlAbsF (fun i => ‖K i‖) (fun i => ‖U i‖) (fun i => ‖V i‖) S S') := by
  unfold curlCurlF curlCurlAbsF
  rw [h.jdet, h'.jdet]
  have c : ∀ i, Apx B 5 (surfaceCurl (T := Fl B) P U i * surfaceCurl (T := Fl B) P' V i)
      (surfaceCurl P U i * surfaceCurl P' V i)
      (surfaceCurlAbs S (fun i => ‖U i‖) i * surfaceCurlAbs S' (fun i => ‖V i‖) i) := fun i =>
    (surfaceCurl_apx hu U h i).mul hu (surfaceCurl_apx hu V h' i)
  exact (((Apx.exact _).mul hu (((c 0).add hu (c 1)).add hu (c 2))).div hu h.pos).div hu h'.pos

theorem normalNormal_apx (hu : 0 ≤ u) (K U V : Nat → 𝕜) {P P' : PointData 𝕜} {S S' : PointData ℝ} (h : P.AbsOf S)
    (h' : P'.AbsOf S') :
    Apx B 6 (normalNormalF (T := Fl B) K U V P P') (normalNormalF K U V P P')
      (normalNormalF (fun i => ‖K i‖) (fun i => ‖U i‖) (fun i => ‖V i‖) S S') := by
  unfold normalNormalF
  simp only [h.normal, h'.normal]
  have c : ∀ i, Apx B 1 (show Fl B from (show Fl B from P'.normal i) * (show Fl B from P.normal i))
      (P'.normal i * P.normal i) (‖P'.normal i‖ * ‖P.normal i‖) := fun i =>
    (Apx.exact _).mul hu (Apx.exact _)
  exact ((((Apx.exact _).mul hu (((c 0).add hu (c 1)).add hu (c 2)))).mul hu (Apx.exact _)).mul hu (Apx.exact _)

/-- Every formula is evaluated with the stated number of roundings. -/
theorem Rounded.apx (hu : 0 ≤ u) {F : MathIntegrand (Fl B)} {F' : MathIntegrand 𝕜} {W : MathIntegrand ℝ} {n : Nat}
    (hF : Rounded A B F F' W n) (K U V : Nat → 𝕜) {P P' : PointData 𝕜} {S S' : PointData ℝ} (h : P.AbsOf S)
    (h' : P'.AbsOf S') :
    Apx B n (F K U V P P') (F' K U V P P') (W (fun i => ‖K i‖) (fun i => ‖U i‖) (fun i => ‖V i‖) S S') := by
  cases hF with
  | singleLayer => exact (((Apx.exact _).mul hu (Apx.exact _)).mul hu (Apx.exact _))
  | doubleLayer =>
    unfold dlF
    simp only [h'.normal]
    have c : ∀ j i, Apx B 1 (show Fl B from (show Fl B from K j) * (show Fl B from P'.normal i))
        (K j * P'.normal i) (‖K j‖ * ‖P'.normal i‖) := fun j i => (Apx.exact _).mul hu (Apx.exact _)
    exact ((((c 1 0).add hu (c 2 1)).add hu (c 3 2)).mul hu (Apx.exact _)).mul hu (Apx.exact _)
  | adjointDoubleLayer =>
    unfold adlF adlAbsF
    simp only [h.normal]
    have c : ∀ j i, Apx B 1 (show Fl B from (show Fl B from K j) * (show Fl B from P.normal i))
        (K j * P.normal i) (‖K j‖ * ‖P.normal i‖) := fun j i => (Apx.exact _).mul hu (Apx.exact _)
    exact (((((c 1 0).add hu (c 2 1)).add hu (c 3 2)).neg).mul hu (Apx.exact _)).mul hu (Apx.exact _)
  | hypersingular => exact curlCurl_apx hu K U V h h'
  | helmholtzHypersingular w =>
    unfold helmholtzHypF helmholtzHypAbsF
    have hw : Apx B 1 (algebraMap ℝ 𝕜 (-(A.mul w w)) : 𝕜) (algebraMap ℝ 𝕜 (-(w * w))) (w * w) := by
      have e : Apx A 1 (show Fl A from A.mul w w) (w * w) (‖w‖ * ‖w‖) := (Apx.exact w).mul hu (Apx.exact w)
      have e' : ‖w‖ * ‖w‖ = w * w := by rw [Real.norm_eq_abs, abs_mul_abs_self]
      rw [e'] at e
      constructor
      · show ‖algebraMap ℝ 𝕜 (-(A.mul w w)) - algebraMap ℝ 𝕜 (-(w * w))‖ ≤ _
        rw [← map_sub, norm_algebraMap', ← neg_sub', norm_neg]
        exact e.1
      · rw [norm_algebraMap', norm_neg]
        exact e.2
    exact (curlCurl_apx hu K U V h h').add hu (hw.mul hu (normalNormal_apx hu K U V h h'))

/-! ### The quadrature values -/

theorem data_absOf (G : Geometry ℝ) (c : Nat) (x : List ℝ) (h : G.jdet c x ≠ 0) :
    (G.data (algebraMap ℝ 𝕜) c x).AbsOf (G.abs.data id c x) where
  normal := fun i => by
    show |G.normal c x i| = ‖algebraMap ℝ 𝕜 (G.normal c x i)‖
    rw [norm_algebraMap', Real.norm_eq_abs]
  jacobian := fun i => by
    show |G.jacobian c x i| = ‖algebraMap ℝ 𝕜 (G.jacobian c x i)‖
    rw [norm_algebraMap', Real.norm_eq_abs]
  jdet := by
    show |G.jdet c x| = ‖algebraMap ℝ 𝕜 (G.jdet c x)‖
    rw [norm_algebraMap', Real.norm_eq_abs]
  pos := by
    show algebraMap ℝ 𝕜 (G.jdet c x) ≠ 0
    intro e
    apply h
    have := congrArg norm e
    rwa [norm_algebraMap', norm_zero, norm_eq_zero] at this

theorem Apx.cast {n : Nat} {x : Fl A} {y m : ℝ} (h : Apx A n x y m) :
    Apx B n (algebraMap ℝ 𝕜 x : 𝕜) (algebraMap ℝ 𝕜 y) m := by
  obtain ⟨h1, h2⟩ := h
  constructor
  · have e : ∀ z : ℝ, ‖algebraMap ℝ 𝕜 z - algebraMap ℝ 𝕜 y‖ = ‖z - y‖ := fun z => by
      rw [← map_sub, norm_algebraMap']
    exact (e x).trans_le h1
  · rw [norm_algebraMap']
    exact h2

variable {F : MathIntegrand (Fl B)} {F' : MathIntegrand 𝕜} {W : MathIntegrand ℝ} {n : Nat} {K : MathKernel ℝ 𝕜}
  {GT GR : Geometry ℝ} {BT BR : Basis ℝ 𝕜} {Q : Quadrature ℝ}

theorem regularValue_apx (hu : 0 ≤ u) (hF : Rounded A B F F' W n) {c c' : Nat} (tt rt : CellType)
    (hc : ∀ p ∈ Q.regular tt, GT.jdet c p.1 ≠ 0) (hc' : ∀ p ∈ Q.regular rt, GR.jdet c' p.1 ≠ 0) (a b : Nat) :
    Apx B (n + 4 + (Q.regular tt).length * (Q.regular rt).length)
      (regularValue (R := Fl A) (T := Fl B) castFl F K GT GR BT BR Q tt rt c c' a b)
      (regularValue (algebraMap ℝ 𝕜) F' K GT GR BT BR Q tt rt c c' a b)
      (regularValue id W (fun x y i => ‖K x y i‖) GT.abs GR.abs (fun t a d x => ‖BT t a d x‖)
        (fun t a d x => ‖BR t a d x‖) Q.abs tt rt c c' a b) := by
  unfold regularValue
  have e : Q.abs.regular = fun t => (Q.regular t).map fun p => (p.1, |p.2|) := rfl
  simp only [e, List.foldl_map]
  have z : Apx B (n + 4) (0 : 𝕜) (0 : 𝕜) 0 := by
    have := (Apx.exact (B := B) (0 : 𝕜)).mono hu (Nat.zero_le (n + 4))
    rwa [norm_zero] at this
  refine Apx.fold2 hu (Q.regular tt) (Q.regular rt) _ _ _ (fun p hp q hq j hj => ?_) z
  have f := hF.apx hu (K (GT.coords c p.1) (GR.coords c' q.1)) (fun i => BT tt a i p.1) (fun i => BR rt b i q.1)
    (data_absOf GT c p.1 (hc p hp)) (data_absOf GR c' q.1 (hc' q hq))
  have w : ∀ x y : ℝ, Apx B 1 (algebraMap ℝ 𝕜 (A.mul x y) : 𝕜) (algebraMap ℝ 𝕜 (x * y)) (|x| * |y|) := fun x y =>
    Apx.cast (x := show Fl A from A.mul x y) ((Apx.exact (B := A) x).mul hu (Apx.exact y))
  exact ((f.mul hu (w q.2 (GR.jdet c' q.1))).mul hu (w p.2 (GT.jdet c p.1))).mono hu hj

theorem singularValue_apx (hu : 0 ≤ u) (hF : Rounded A B F F' W n) {c c' : Nat} (tt rt : CellType)
    (con : Connectivity) (hc : ∀ p ∈ Q.singular tt rt con, GT.jdet c p.1 ≠ 0)
    (hc' : ∀ p ∈ Q.singular tt rt con, GR.jdet c' p.2.1 ≠ 0) (a b : Nat) :
    Apx B (n + 3 + (Q.singular tt rt con).length)
      (singularValue (R := Fl A) (T := Fl B) castFl F K GT GR BT BR Q tt rt con c c' a b)
      (singularValue (algebraMap ℝ 𝕜) F' K GT GR BT BR Q tt rt con c c' a b)
      (singularValue id W (fun x y i => ‖K x y i‖) GT.abs GR.abs (fun t a d x => ‖BT t a d x‖)
        (fun t a d x => ‖BR t a d x‖) Q.abs tt rt con c c' a b) := by
  unfold singularValue
  have e : Q.abs.singular = fun t t' con => (Q.singular t t' con).map fun p => (p.1, p.2.1, |p.2.2|) := rfl
  simp only [e, List.foldl_map]
  have z : Apx B (n + 3) (0 : 𝕜) (0 : 𝕜) 0 := by
    have := (Apx.exact (B := B) (0 : 𝕜)).mono hu (Nat.zero_le (n + 3))
    rwa [norm_zero] at this
  refine Apx.fold hu (Q.singular tt rt con) _ _ _ (fun p hp j hj => ?_) z
  have f := hF.apx hu (K (GT.coords c p.1) (GR.coords c' p.2.1)) (fun i => BT tt a i p.1)
    (fun i => BR rt b i p.2.1) (data_absOf GT c p.1 (hc p hp)) (data_absOf GR c' p.2.1 (hc' p hp))
  have w : ∀ x y z : ℝ, Apx B 2 (algebraMap ℝ 𝕜 (A.mul x (A.mul y z)) : 𝕜) (algebraMap ℝ 𝕜 (x * (y * z)))
      (|x| * (|y| * |z|)) := fun x y z =>
    Apx.cast (x := show Fl A from A.mul x (A.mul y z)) ((Apx.exact (B := A) x).mul hu
      ((Apx.exact (B := A) y).mul hu (Apx.exact z)))
  exact (f.mul hu (w p.2.2 (GT.jdet c p.1) (GR.jdet c' p.2.1))).mono hu hj

/-! ### Accumulation in the matrix -/

/-- What a list of additions does to position `a`, for every arithmetic. -/
theorem applyOps_fold {S : Type} [Add S] (ops : List (AddOp S)) (mem : List S) (a : Nat) :
    (applyOps ops mem)[a]? = (mem[a]?).map fun x => ops.foldl (fun s o => if o.addr = a then s + o.val else s) x := by
  induction ops generalizing mem with
  | nil => simp [applyOps]
  | cons o ops ih =>
    unfold applyOps at ih ⊢
    rw [List.foldl_cons, ih, AddOp.apply_get]
    by_cases h : a = o.addr
    · rw [if_pos h, Option.map_map]
      congr 1
      funext x
      simp [h]
    · rw [if_neg h]
      congr 1
      funext x
      rw [List.foldl_cons, if_neg (fun e => h e.symm)]

theorem Apx.ops (hu : 0 ≤ u) (ops : List (AddOp (Fl B))) (a : Nat) {k : Nat} {s : Fl B} {s' : 𝕜} {m : ℝ}
    (h : Apx B k s s' m) :
    Apx B (k + contribTo (fun _ => 1) ops a) (ops.foldl (fun s o => if o.addr = a then s + o.val else s) s)
      (s' + contribTo (S := Fl B) Fl.val ops a) (m + contribTo (fun x : Fl B => ‖x.val‖) ops a) := by
  induction ops generalizing k s s' m with
  | nil => simpa [contribTo] using h
  | cons o ops ih =>
    by_cases e : o.addr = a
    · have h1 := h.add hu ((show Apx B 0 o.val o.val.val ‖o.val.val‖ from Apx.exact (B := B) o.val).mono hu (Nat.zero_le k))
      rw [max_self] at h1
      have := ih h1
      simp only [contribTo, List.map_cons, List.foldl_cons, List.sum_cons, if_pos e] at this ⊢
      rw [← add_assoc, ← add_assoc, ← add_assoc]
      exact this
    · have := ih h
      simp only [contribTo, List.map_cons, List.foldl_cons, List.sum_cons, if_neg e, zero_add] at this ⊢
      exact this

theorem list_sum_bound {α : Type} (l : List α) (f g : α → 𝕜) (h : α → ℝ) (hl : ∀ x ∈ l, ‖f x - g x‖ ≤ h x) :
    ‖(l.map f).sum - (l.map g).sum‖ ≤ (l.map h).sum := by
  induction l with
  | nil => simp
  | cons x l ih =>
    simp only [List.map_cons, List.sum_cons]
    have : f x + (l.map f).sum - (g x + (l.map g).sum) = (f x - g x) + ((l.map f).sum - (l.map g).sum) := by ring
    rw [this]
    exact (norm_add_le _ _).trans (add_le_add (hl x (by simp)) (ih fun y hy => hl y (by simp [hy])))

theorem doubleSum_bound (test trial : FunctionSpace) (f g : Entity → Entity → Nat → Nat → 𝕜)
    (h : Entity → Entity → Nat → Nat → ℝ)
    (hl : ∀ c ∈ test.grid.entityIter 2, ∀ c' ∈ trial.grid.entityIter 2, ∀ a b, ‖f c c' a b - g c c' a b‖ ≤ h c c' a b)
    (i j : Nat) : ‖doubleSum test trial f i j - doubleSum test trial g i j‖ ≤ doubleSum test trial h i j := by
  unfold doubleSum
  refine list_sum_bound _ _ _ _ fun c hc => list_sum_bound _ _ _ _ fun c' hc' => list_sum_bound _ _ _ _ fun x _ =>
    list_sum_bound _ _ _ _ fun y _ => ?_
  split
  · exact hl c hc c' hc' _ _
  · simp

theorem doubleSum_const_mul (test trial : FunctionSpace) (k : ℝ) (h : Entity → Entity → Nat → Nat → ℝ) (i j : Nat) :
    doubleSum test trial (fun c c' a b => k * h c c' a b) i j = k * doubleSum test trial h i j := by
  unfold doubleSum
  have e : ∀ (p : Prop) [Decidable p] (x : ℝ), (if p then k * x else 0) = k * (if p then x else 0) := by
    intro p _ x; split <;> simp
  simp only [e, List.sum_map_mul_left]

end

end Bempp
