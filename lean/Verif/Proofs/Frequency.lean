import Verif.Spec.Frequency
import Verif.Proofs.Decay
import Mathlib.Analysis.SpecialFunctions.Trigonometric.Bounds
import Mathlib.Analysis.Calculus.MeanValue
/-
Lemmas for C108.
-/
namespace Bempp

/-! ### The kernel -/

/-- `(1 - i s) e^(i s)`. -/
noncomputable def waveFactor (s : ℝ) : ℂ := (1 - Complex.I * s) * Complex.exp (Complex.I * s)

theorem waveFactor_deriv (s : ℝ) : HasDerivAt waveFactor (s * Complex.exp (Complex.I * s)) s := by
  have h1 : HasDerivAt (fun s : ℝ => (s : ℂ)) 1 s := Complex.ofRealCLM.hasDerivAt
  have h2 : HasDerivAt (fun s : ℝ => Complex.I * (s : ℂ)) (Complex.I * 1) s := h1.const_mul Complex.I
  have h3 : HasDerivAt (fun s : ℝ => 1 - Complex.I * (s : ℂ)) (-(Complex.I * 1)) s := h2.const_sub 1
  have h4 := h3.mul h2.cexp
  refine h4.congr_deriv ?_
  have : Complex.I * Complex.I = -1 := Complex.I_mul_I
  linear_combination (-(s : ℂ) * Complex.exp (Complex.I * s)) * this

theorem waveFactor_le {a b : ℝ} (ha : 0 ≤ a) (hab : a ≤ b) : ‖waveFactor b - waveFactor a‖ ≤ (b ^ 2 - a ^ 2) / 2 := by
  have := image_norm_le_of_norm_deriv_right_le_deriv_boundary (a := a) (b := b)
    (f := fun s => waveFactor s - waveFactor a) (f' := fun s => s * Complex.exp (Complex.I * s))
    (B := fun s => (s ^ 2 - a ^ 2) / 2) (B' := fun s => s)
    (fun s _ => ((waveFactor_deriv s).continuousAt.sub continuousAt_const).continuousWithinAt)
    (fun s _ => ((waveFactor_deriv s).sub_const _).hasDerivWithinAt) (by simp)
    (fun s => by
      have := (((hasDerivAt_id s).pow 2).sub_const (a ^ 2)).div_const 2
      refine this.congr_deriv ?_
      simp) (fun s hs => by
      rw [norm_mul, mul_comm Complex.I, Complex.norm_exp_ofReal_mul_I, mul_one, Complex.norm_real,
        Real.norm_of_nonneg (ha.trans hs.1)])
  exact this ⟨hab, le_refl b⟩

theorem waveFactor_neg (s : ℝ) : waveFactor (-s) = (starRingEnd ℂ) (waveFactor s) := by
  simp only [waveFactor, map_mul, map_sub, map_one, ← Complex.exp_conj, Complex.conj_I, Complex.conj_ofReal,
    Complex.ofReal_neg]
  ring_nf

theorem waveFactor_lipschitz (a b : ℝ) : ‖waveFactor a - waveFactor b‖ ≤ |a * |a| - b * (|b|)| / 2 := by
  have main : ∀ a b : ℝ, a ≤ b → ‖waveFactor b - waveFactor a‖ ≤ (b * |b| - a * |a|) / 2 := by
    intro a b h
    have hneg : ∀ a b : ℝ, b ≤ 0 → a ≤ b → ‖waveFactor b - waveFactor a‖ ≤ (a ^ 2 - b ^ 2) / 2 := by
      intro a b hb hab
      have := waveFactor_le (a := -b) (b := -a) (by linarith) (by linarith)
      rw [waveFactor_neg, waveFactor_neg, ← map_sub, RCLike.norm_conj, norm_sub_rev] at this
      simpa using this
    rcases le_total 0 a with h0 | h0
    · have := waveFactor_le h0 h
      rw [abs_of_nonneg h0, abs_of_nonneg (h0.trans h)]
      nlinarith
    · rcases le_total b 0 with h1 | h1
      · have := hneg a b h1 h
        rw [abs_of_nonpos h0, abs_of_nonpos h1]
        nlinarith
      · have e1 := waveFactor_le (le_refl (0 : ℝ)) h1
        have e2 := hneg a 0 (le_refl _) h0
        have e3 := norm_sub_le_norm_sub_add_norm_sub (waveFactor b) (waveFactor 0) (waveFactor a)
        rw [abs_of_nonpos h0, abs_of_nonneg h1]
        nlinarith
  rcases le_total a b with h | h
  · rw [norm_sub_rev]
    refine (main a b h).trans ?_
    rw [abs_sub_comm]
    gcongr
    exact le_abs_self _
  · refine (main b a h).trans ?_
    gcongr
    exact le_abs_self _

/-- The two kernels differ by at most `k₀`, their gradients by at most `k₁`. -/
def NearKernels (K K' : MathKernel ℝ ℂ) (k₀ k₁ : ℝ) : Prop := ∀ x y, ‖K x y 0 - K' x y 0‖ ≤ k₀ ∧
  ∃ g : ℂ, (∀ j, K x y (j + 1) - K' x y (j + 1) = g * (pointDiff x y j : ℂ)) ∧ ‖g‖ * pointDist x y ≤ k₁

theorem pointDist_nonneg' (x y : List ℝ) : 0 ≤ pointDist x y := Real.sqrt_nonneg _

theorem helmholtz_near (k k' : ℝ) : NearKernels (helmholtzGreen k) (helmholtzGreen k') (|k - k'| / (4 * Real.pi))
    (|k * |k| - k' * (|k'|)| / (8 * Real.pi)) := by
  intro x y
  have hp := Real.pi_pos
  have hr := pointDist_nonneg' x y
  refine ⟨?_, (waveFactor (k * pointDist x y) - waveFactor (k' * pointDist x y)) / (4 * Real.pi * pointDist x y ^ 3),
    fun j => ?_, ?_⟩
  · simp only [helmholtzGreen]
    generalize pointDist x y = r at *
    rw [← sub_div, norm_div]
    have e : ‖Complex.exp (Complex.I * k * r) - Complex.exp (Complex.I * k' * r)‖ ≤ |k - k'| * r := by
      have e1 : Complex.exp (Complex.I * k * r) - Complex.exp (Complex.I * k' * r) =
          Complex.exp (((k' * r : ℝ) : ℂ) * Complex.I) * (Complex.exp (Complex.I * (((k - k') * r : ℝ) : ℂ)) - 1) := by
        rw [mul_sub, ← Complex.exp_add, mul_one]
        congr 2
        · push_cast; ring
        · push_cast; ring
      rw [e1, norm_mul, Complex.norm_exp_ofReal_mul_I, one_mul]
      refine Real.norm_exp_I_mul_ofReal_sub_one_le.trans ?_
      rw [Real.norm_eq_abs, abs_mul, abs_of_nonneg hr]
    have e2 : ‖(4 * Real.pi * r : ℂ)‖ = 4 * Real.pi * r := by
      rw [show (4 * Real.pi * r : ℂ) = ((4 * Real.pi * r : ℝ) : ℂ) by push_cast; rfl, Complex.norm_real,
        Real.norm_of_nonneg (by positivity)]
    rw [e2]
    rcases hr.eq_or_lt with h0 | h0
    · rw [← h0]; simp only [mul_zero, div_zero]; positivity
    · rw [div_le_div_iff₀ (by positivity) (by positivity)]
      nlinarith
  · simp only [helmholtzGreen, waveFactor]
    push_cast
    ring_nf
  · rw [norm_div]
    generalize pointDist x y = r at *
    have e2 : ‖(4 * Real.pi * r ^ 3 : ℂ)‖ = 4 * Real.pi * r ^ 3 := by
      rw [show (4 * Real.pi * r ^ 3 : ℂ) = ((4 * Real.pi * r ^ 3 : ℝ) : ℂ) by push_cast; rfl, Complex.norm_real,
        Real.norm_of_nonneg (by positivity)]
    rw [e2]
    have e := waveFactor_lipschitz (k * r) (k' * r)
    rw [abs_mul, abs_mul, abs_of_nonneg hr, show k * r * (|k| * r) - k' * r * (|k'| * r) = (k * |k| - k' * |k'|) * r ^ 2 by ring,
      abs_mul, abs_of_nonneg (sq_nonneg r)] at e
    rcases hr.eq_or_lt with h0 | h0
    · rw [← h0]; simp only [mul_zero]; positivity
    · rw [div_mul_eq_mul_div, div_le_div_iff₀ (by positivity) (by positivity)]
      have : 0 ≤ |k * |k| - k' * (|k'|)| := abs_nonneg _
      calc _ ≤ |k * |k| - k' * (|k'|)| * r ^ 2 / 2 * r * (8 * Real.pi) := by gcongr
        _ = _ := by ring

/-! ### Differences of entries -/

section
variable {F F' : MathIntegrand ℂ} {K K' : MathKernel ℝ ℂ} {GT GR : Geometry ℝ} {BT BR : Basis ℝ ℂ} {Q : Quadrature ℝ}
  {test trial : FunctionSpace}

theorem sum_sub_list {α : Type} (l : List α) (f g : α → ℂ) :
    (l.map f).sum - (l.map g).sum = (l.map fun x => f x - g x).sum := by
  induction l with
  | nil => simp
  | cons x l ih =>
    simp only [List.map_cons, List.sum_cons, ← ih]
    ring

theorem doubleSum_sub (v v' : Entity → Entity → Nat → Nat → ℂ) (i j : Nat) :
    doubleSum test trial v i j - doubleSum test trial v' i j =
      doubleSum test trial (fun c c' a b => v c c' a b - v' c c' a b) i j := by
  unfold doubleSum
  simp only [sum_sub_list]
  congr! 12
  split <;> simp

/-- Integrands that differ by at most `k₁ s₁ + k₂ s₂ + k₃ s₃` everywhere give entries that differ by the quadrature of that. -/
theorem near_bound {k₁ k₂ k₃ : ℝ} {s₁ s₂ s₃ : Entity → Entity → Nat → Nat → List ℝ → List ℝ → ℝ} (i j : Nat)
    (h : ∀ (c c' : Entity) a b x y,
      ‖F (K (GT.coords c.localIndex x) (GR.coords c'.localIndex y)) (fun i => BT c.entityType a i x)
        (fun i => BR c'.entityType b i y) (GT.data Complex.ofReal c.localIndex x) (GR.data Complex.ofReal c'.localIndex y) -
      F' (K' (GT.coords c.localIndex x) (GR.coords c'.localIndex y)) (fun i => BT c.entityType a i x)
        (fun i => BR c'.entityType b i y) (GT.data Complex.ofReal c.localIndex x) (GR.data Complex.ofReal c'.localIndex y)‖ ≤
      k₁ * s₁ c c' a b x y + k₂ * s₂ c c' a b x y + k₃ * s₃ c c' a b x y) :
    ‖doubleSum test trial (cellPairValue Complex.ofReal F K GT GR BT BR Q test trial) i j -
      doubleSum test trial (cellPairValue Complex.ofReal F' K' GT GR BT BR Q test trial) i j‖ ≤
      k₁ * doubleSum test trial (absPairValue GT GR Q test trial s₁) i j +
      k₂ * doubleSum test trial (absPairValue GT GR Q test trial s₂) i j +
      k₃ * doubleSum test trial (absPairValue GT GR Q test trial s₃) i j := by
  rw [doubleSum_sub, ← doubleSum_mul, ← doubleSum_mul, ← doubleSum_mul, ← doubleSum_add, ← doubleSum_add]
  refine doubleSum_norm_le_dofs fun c _ c' _ _ _ a b => ?_
  unfold cellPairValue absPairValue
  split
  · rw [singularValue_eq, singularValue_eq, sum_sub_list]
    simp only [← List.sum_map_mul_left, ← List.sum_map_add]
    refine norm_sum_le_list _ _ _ fun p _ => ?_
    unfold singularTerm
    rw [← sub_mul, norm_mul, Complex.norm_real, Real.norm_eq_abs]
    refine (mul_le_mul_of_nonneg_right (h c c' a b p.1 p.2.1) (abs_nonneg _)).trans (le_of_eq ?_)
    ring
  · rw [regularValue_eq, regularValue_eq, sum_sub_list]
    simp only [sum_sub_list, ← List.sum_map_mul_left, ← List.sum_map_add]
    refine norm_sum_le_list _ _ _ fun p _ => norm_sum_le_list _ _ _ fun q _ => ?_
    unfold regularTerm
    rw [← sub_mul, ← sub_mul, norm_mul, norm_mul, Complex.norm_real, Complex.norm_real, Real.norm_eq_abs, Real.norm_eq_abs]
    refine (mul_le_mul_of_nonneg_right (mul_le_mul_of_nonneg_right (h c c' a b p.1 q.1) (abs_nonneg _))
      (abs_nonneg _)).trans (le_of_eq ?_)
    ring

end

/-! ### Integrands -/

section
variable {K K' : MathKernel ℝ ℂ} {k₀ k₁ : ℝ} {GT GR : Geometry ℝ}

theorem slF_near (hK : NearKernels K K' k₀ k₁) (x y : List ℝ) (U V : Nat → ℂ) (TG RG : PointData ℂ) :
    ‖slF (K x y) U V TG RG - slF (K' x y) U V TG RG‖ ≤ k₀ * (‖U 0‖ * ‖V 0‖) := by
  unfold slF
  rw [← sub_mul, ← sub_mul, norm_mul, norm_mul, mul_assoc]
  exact mul_le_mul_of_nonneg_right (hK _ _).1 (by positivity)

theorem dlF_near (hK : NearKernels K K' k₀ k₁) (hn : UnitNormals GR) (c' : Nat) (x y z : List ℝ) (U V : Nat → ℂ)
    (TG : PointData ℂ) :
    ‖dlF (K x y) U V TG (GR.data Complex.ofReal c' z) - dlF (K' x y) U V TG (GR.data Complex.ofReal c' z)‖ ≤
      k₁ * (‖U 0‖ * ‖V 0‖) := by
  unfold dlF
  rw [← sub_mul, ← sub_mul, norm_mul, norm_mul, mul_assoc]
  obtain ⟨_, g, h1, h2⟩ := hK x y
  refine mul_le_mul_of_nonneg_right (le_trans (le_of_eq ?_) ((gradient_norm_le g x y _ (hn c' z)).trans h2)) (by positivity)
  congr 1
  have e0 := h1 0
  have e1 := h1 1
  have e2 := h1 2
  simp only [Geometry.data, Complex.coe_algebraMap, zero_add, Nat.reduceAdd] at *
  linear_combination (GR.normal c' z 0 : ℂ) * e0 + (GR.normal c' z 1 : ℂ) * e1 + (GR.normal c' z 2 : ℂ) * e2

theorem adlF_near (hK : NearKernels K K' k₀ k₁) (hn : UnitNormals GT) (c : Nat) (x y z : List ℝ) (U V : Nat → ℂ)
    (RG : PointData ℂ) :
    ‖adlF (K x y) U V (GT.data Complex.ofReal c z) RG - adlF (K' x y) U V (GT.data Complex.ofReal c z) RG‖ ≤
      k₁ * (‖U 0‖ * ‖V 0‖) := by
  unfold adlF
  rw [← sub_mul, ← sub_mul, norm_mul, norm_mul, mul_assoc, ← neg_sub_neg, neg_neg, neg_neg]
  obtain ⟨_, g, h1, h2⟩ := hK x y
  refine mul_le_mul_of_nonneg_right (le_trans (le_of_eq ?_) ((gradient_norm_le g x y _ (hn c z)).trans h2)) (by positivity)
  rw [← norm_neg]
  congr 1
  have e0 := h1 0
  have e1 := h1 1
  have e2 := h1 2
  simp only [Geometry.data, Complex.coe_algebraMap, zero_add, Nat.reduceAdd] at *
  linear_combination (GT.normal c z 0 : ℂ) * e0 + (GT.normal c z 1 : ℂ) * e1 + (GT.normal c z 2 : ℂ) * e2

theorem curlCurlF_near (hK : NearKernels K K' k₀ k₁) (t t' : CellType) (c c' a b : Nat) (x y u v : List ℝ)
    (BT BR : Basis ℝ ℂ) :
    ‖curlCurlF (K x y) (fun i => BT t a i u) (fun i => BR t' b i v) (GT.data Complex.ofReal c u)
        (GR.data Complex.ofReal c' v) -
      curlCurlF (K' x y) (fun i => BT t a i u) (fun i => BR t' b i v) (GT.data Complex.ofReal c u)
        (GR.data Complex.ofReal c' v)‖ ≤ k₀ * (curlSize GT BT t c a u * curlSize GR BR t' c' b v) := by
  unfold curlCurlF curlSize
  rw [← sub_div, ← sub_div, ← sub_mul, norm_div, norm_div, norm_mul]
  have e1 : ‖(GT.data Complex.ofReal c u).jdet‖ = |GT.jdet c u| := Complex.norm_real _
  have e2 : ‖(GR.data Complex.ofReal c' v).jdet‖ = |GR.jdet c' v| := Complex.norm_real _
  rw [e1, e2, div_div, div_mul_div_comm, ← mul_div_assoc]
  refine div_le_div_of_nonneg_right ?_ (by positivity)
  exact mul_le_mul (hK _ _).1 (cauchy3 _ _) (norm_nonneg _) ((norm_nonneg _).trans (hK [] []).1)

theorem hypF_near (w w' : ℝ) (hT : UnitNormals GT) (hR : UnitNormals GR) (t t' : CellType) (c c' a b : Nat)
    (x y u v : List ℝ) (BT BR : Basis ℝ ℂ) :
    ‖helmholtzHypF Complex.ofReal w (helmholtzGreen w x y) (fun i => BT t a i u) (fun i => BR t' b i v)
        (GT.data Complex.ofReal c u) (GR.data Complex.ofReal c' v) -
      helmholtzHypF Complex.ofReal w' (helmholtzGreen w' x y) (fun i => BT t a i u) (fun i => BR t' b i v)
        (GT.data Complex.ofReal c u) (GR.data Complex.ofReal c' v)‖ ≤
      |w - w'| / (4 * Real.pi) * (curlSize GT BT t c a u * curlSize GR BR t' c' b v) +
        w ^ 2 * (|w - w'| / (4 * Real.pi)) * (‖BT t a 0 u‖ * ‖BR t' b 0 v‖) +
        |w ^ 2 - w' ^ 2| * (laplaceGreen x y 0 * (‖BT t a 0 u‖ * ‖BR t' b 0 v‖)) := by
  unfold helmholtzHypF
  have h1 := curlCurlF_near (helmholtz_near w w') t t' c c' a b x y u v BT BR (GT := GT) (GR := GR)
  rw [add_sub_add_comm, add_assoc]
  refine (norm_add_le _ _).trans (add_le_add h1 ?_)
  unfold normalNormalF
  generalize hN : (GR.data Complex.ofReal c' v).normal 0 * (GT.data Complex.ofReal c u).normal 0 +
      (GR.data Complex.ofReal c' v).normal 1 * (GT.data Complex.ofReal c u).normal 1 +
      (GR.data Complex.ofReal c' v).normal 2 * (GT.data Complex.ofReal c u).normal 2 = N
  have n1 : ‖N‖ ≤ 1 := by
    rw [← hN]
    exact cauchy3_unit (𝕜 := ℂ) (fun k => GR.normal c' v k) (fun k => GT.normal c u k) (hR c' v) (hT c u)
  have e : ((-(w * w) : ℝ) : ℂ) * (helmholtzGreen w x y 0 * N * BT t a 0 u * BR t' b 0 v) -
      ((-(w' * w') : ℝ) : ℂ) * (helmholtzGreen w' x y 0 * N * BT t a 0 u * BR t' b 0 v) =
      (((-(w ^ 2) : ℝ) : ℂ) * (helmholtzGreen w x y 0 - helmholtzGreen w' x y 0) +
        ((-(w ^ 2 - w' ^ 2) : ℝ) : ℂ) * helmholtzGreen w' x y 0) * N * (BT t a 0 u * BR t' b 0 v) := by
    push_cast; ring
  rw [e, norm_mul, norm_mul, norm_mul (BT t a 0 u), show w ^ 2 * (|w - w'| / (4 * Real.pi)) * (‖BT t a 0 u‖ * ‖BR t' b 0 v‖) +
        |w ^ 2 - w' ^ 2| * (laplaceGreen x y 0 * (‖BT t a 0 u‖ * ‖BR t' b 0 v‖)) =
      (w ^ 2 * (|w - w'| / (4 * Real.pi)) + |w ^ 2 - w' ^ 2| * laplaceGreen x y 0) * 1 * (‖BT t a 0 u‖ * ‖BR t' b 0 v‖) by ring]
  have g0 := laplaceGreen_nonneg x y
  refine mul_le_mul_of_nonneg_right (mul_le_mul ?_ n1 (norm_nonneg _) (by have := Real.pi_pos; positivity)) (by positivity)
  refine (norm_add_le _ _).trans (add_le_add ?_ ?_)
  · rw [norm_mul, Complex.norm_real, norm_neg, Real.norm_of_nonneg (sq_nonneg w)]
    exact mul_le_mul_of_nonneg_left (helmholtz_near w w' x y).1 (sq_nonneg w)
  · rw [norm_mul, Complex.norm_real, norm_neg, Real.norm_eq_abs, helmholtzGreen_norm]

end
end Bempp
