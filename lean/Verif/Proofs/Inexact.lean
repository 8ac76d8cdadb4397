import Verif.Spec.Inexact
import Verif.Proofs.Rounding
/-
How errors of kernel, geometry and basis functions change the entries in exact arithmetic.
-/
set_option linter.unusedSectionVars false

namespace Bempp

section
variable {𝕜 : Type} [NormedField 𝕜] {e : ℝ}

/-- `x` is `y` up to `n` factors with a relative error of `e`; `s` is a bound for `y`. -/
def Factored (e : ℝ) (n : Nat) (x y : 𝕜) (s : ℝ) : Prop := ‖x - y‖ ≤ ((1 + e) ^ n - 1) * s ∧ ‖y‖ ≤ s

theorem Within.near {x y : 𝕜} {s : ℝ} (h : Within e x y s) : Factored e 1 x y s := by
  refine ⟨h.1.trans (le_of_eq ?_), h.2⟩
  ring

theorem Factored.same (x : 𝕜) : Factored e 0 x x ‖x‖ := by
  constructor
  · simp
  · exact le_rfl

theorem Factored.nonneg {n : Nat} {x y : 𝕜} {s : ℝ} (h : Factored e n x y s) : 0 ≤ s := (norm_nonneg y).trans h.2

theorem Factored.size {n : Nat} {x y : 𝕜} {s : ℝ} (h : Factored e n x y s) : ‖x‖ ≤ (1 + e) ^ n * s := by
  have h1 : ‖x‖ ≤ ‖x - y‖ + ‖y‖ := by simpa using norm_add_le (x - y) y
  have := h.1
  have := h.2
  linarith

theorem Factored.norm {n : Nat} {x y : 𝕜} {s : ℝ} (h : Factored e n x y s) : Factored e n ‖x‖ ‖y‖ s := by
  refine ⟨?_, by rw [norm_norm]; exact h.2⟩
  rw [Real.norm_eq_abs]
  exact (abs_norm_sub_norm_le x y).trans h.1

theorem Factored.mono (he : 0 ≤ e) {n n' : Nat} {x y : 𝕜} {s : ℝ} (h : Factored e n x y s) (hn : n ≤ n') : Factored e n' x y s := by
  refine ⟨h.1.trans ?_, h.2⟩
  have : (1 + e) ^ n ≤ (1 + e) ^ n' := pow_le_pow_right₀ (by linarith) hn
  exact mul_le_mul_of_nonneg_right (by linarith) h.nonneg

theorem Factored.neg {n : Nat} {x y : 𝕜} {s : ℝ} (h : Factored e n x y s) : Factored e n (-x) (-y) s := by
  constructor
  · rw [← neg_sub', norm_neg]
    exact h.1
  · rw [norm_neg]; exact h.2

theorem Factored.mul (he : 0 ≤ e) {n n' : Nat} {x x' y y' : 𝕜} {s s' : ℝ} (h : Factored e n x y s) (h' : Factored e n' x' y' s') :
    Factored e (n + n') (x * x') (y * y') (s * s') := by
  have z := h.nonneg
  have z' := h'.size
  have p : 0 ≤ (1 + e) ^ n - 1 := sub_nonneg.mpr (one_le_pow₀ (by linarith))
  constructor
  · have i : x * x' - y * y' = (x - y) * x' + y * (x' - y') := by ring
    rw [i]
    refine (norm_add_le _ _).trans ?_
    rw [norm_mul, norm_mul]
    have h1 := mul_le_mul h.1 z' (norm_nonneg _) (mul_nonneg p z)
    have h2 := mul_le_mul h.2 h'.1 (norm_nonneg _) z
    refine (add_le_add h1 h2).trans (le_of_eq ?_)
    rw [pow_add]
    ring
  · rw [norm_mul]
    exact mul_le_mul h.2 h'.2 (norm_nonneg _) z

theorem Factored.add {n : Nat} {x x' y y' : 𝕜} {s s' : ℝ} (h : Factored e n x y s) (h' : Factored e n x' y' s') :
    Factored e n (x + x') (y + y') (s + s') := by
  constructor
  · have i : x + x' - (y + y') = (x - y) + (x' - y') := by ring
    rw [i, mul_add]
    exact (norm_add_le _ _).trans (add_le_add h.1 h'.1)
  · exact (norm_add_le _ _).trans (add_le_add h.2 h'.2)

theorem Factored.sub {n : Nat} {x x' y y' : 𝕜} {s s' : ℝ} (h : Factored e n x y s) (h' : Factored e n x' y' s') :
    Factored e n (x - x') (y - y') (s + s') := by
  rw [sub_eq_add_neg, sub_eq_add_neg]
  exact h.add h'.neg

/-- Division by a number with a relative error. -/
theorem Factored.div (he : 0 ≤ e) {n : Nat} {x y d d' : 𝕜} {s : ℝ} (h : Factored e n x y s) (hd : ‖d - d'‖ ≤ e * ‖d‖)
    (h0 : d' ≠ 0) : Factored e (n + 1) (x / d) (y / d') (s / ‖d'‖) := by
  have hd0 : d ≠ 0 := by
    rintro rfl
    rw [norm_zero, mul_zero, zero_sub, norm_neg] at hd
    exact h0 (norm_le_zero_iff.mp hd)
  have i : Factored e 1 d⁻¹ d'⁻¹ ‖d'‖⁻¹ := by
    constructor
    · have : d⁻¹ - d'⁻¹ = -((d - d') / (d * d')) := by field_simp; ring
      rw [this, norm_neg, norm_div, norm_mul, div_le_iff₀ (by positivity)]
      have p : ((1 + e) ^ 1 - 1) * ‖d'‖⁻¹ * (‖d‖ * ‖d'‖) = e * ‖d‖ := by
        have : ‖d'‖ ≠ 0 := norm_ne_zero_iff.mpr h0
        field_simp; ring
      rw [p]
      exact hd
    · rw [norm_inv]
  rw [div_eq_mul_inv, div_eq_mul_inv, div_eq_mul_inv]
  exact h.mul he i

theorem Factored.fold {α : Type} (l : List α) (f g : α → 𝕜) (w : α → ℝ) {k : Nat} (hl : ∀ p ∈ l, Factored e k (f p) (g p) (w p))
    {s s' : 𝕜} {m : ℝ} (h : Factored e k s s' m) :
    Factored e k (l.foldl (fun s p => s + f p) s) (l.foldl (fun s p => s + g p) s') (l.foldl (fun s p => s + w p) m) := by
  induction l generalizing s s' m with
  | nil => exact h
  | cons p l ih => exact ih (fun q hq => hl q (by simp [hq])) (h.add (hl p (by simp)))

theorem Factored.fold2 {α β : Type} (l : List α) (l' : List β) (f g : α → β → 𝕜) (w : α → β → ℝ) {k : Nat}
    (hl : ∀ p ∈ l, ∀ q ∈ l', Factored e k (f p q) (g p q) (w p q)) {s s' : 𝕜} {m : ℝ} (h : Factored e k s s' m) :
    Factored e k (l.foldl (fun s p => l'.foldl (fun s q => s + f p q) s) s)
      (l.foldl (fun s p => l'.foldl (fun s q => s + g p q) s) s')
      (l.foldl (fun s p => l'.foldl (fun s q => s + w p q) s) m) := by
  induction l generalizing s s' m with
  | nil => exact h
  | cons p l ih =>
    exact ih (fun q hq => hl q (by simp [hq])) (Factored.fold l' (f p) (g p) (w p) (hl p (by simp)) h)

/-! ### The formulas -/

/-- Point data with errors. -/
structure PointData.Factored (e : ℝ) (P P' : PointData 𝕜) (S : PointData ℝ) : Prop where
  normal : ∀ i, i < 3 → Bempp.Factored e 1 (P.normal i) (P'.normal i) (S.normal i)
  jacobian : ∀ i, i < 6 → Bempp.Factored e 1 (P.jacobian i) (P'.jacobian i) (S.jacobian i)
  scale : S.jdet = ‖P'.jdet‖
  jdet : Bempp.Factored e 1 P.jdet P'.jdet ‖P'.jdet‖
  jdet' : ‖P.jdet - P'.jdet‖ ≤ e * ‖P.jdet‖
  pos : P'.jdet ≠ 0

variable {K K' U U' V V' : Nat → 𝕜} {SK SU SV : Nat → ℝ} {P P' R R' : PointData 𝕜} {SP SR : PointData ℝ}

theorem surfaceCurl_near (he : 0 ≤ e) (hP : P.Factored e P' SP) (hU : ∀ i, i < 3 → Factored e 1 (U i) (U' i) (SU i)) {i : Nat}
    (hi : i < 3) : Factored e 2 (surfaceCurl P U i) (surfaceCurl P' U' i) (surfaceCurlAbs SP SU i) :=
  ((hP.jacobian _ (by omega)).mul he (hU 1 (by omega))).sub ((hP.jacobian _ (by omega)).mul he (hU 2 (by omega)))

theorem curlCurl_near (he : 0 ≤ e) (hK : ∀ i, i < 4 → Factored e 1 (K i) (K' i) (SK i))
    (hU : ∀ i, i < 3 → Factored e 1 (U i) (U' i) (SU i)) (hV : ∀ i, i < 3 → Factored e 1 (V i) (V' i) (SV i))
    (hP : P.Factored e P' SP) (hR : R.Factored e R' SR) :
    Factored e 7 (curlCurlF K U V P R) (curlCurlF K' U' V' P' R') (curlCurlAbsF SK SU SV SP SR) := by
  unfold curlCurlF curlCurlAbsF
  rw [hP.scale, hR.scale]
  have c : ∀ i, i < 3 → Factored e 4 (surfaceCurl P U i * surfaceCurl R V i) (surfaceCurl P' U' i * surfaceCurl R' V' i)
      (surfaceCurlAbs SP SU i * surfaceCurlAbs SR SV i) := fun i hi =>
    (surfaceCurl_near he hP hU hi).mul he (surfaceCurl_near he hR hV hi)
  exact (((hK 0 (by omega)).mul he (((c 0 (by omega)).add (c 1 (by omega))).add (c 2 (by omega)))).div he hP.jdet'
    hP.pos).div he hR.jdet' hR.pos

theorem normalNormal_near (he : 0 ≤ e) (hK : ∀ i, i < 4 → Factored e 1 (K i) (K' i) (SK i))
    (hU : ∀ i, i < 3 → Factored e 1 (U i) (U' i) (SU i)) (hV : ∀ i, i < 3 → Factored e 1 (V i) (V' i) (SV i))
    (hP : P.Factored e P' SP) (hR : R.Factored e R' SR) :
    Factored e 5 (normalNormalF K U V P R) (normalNormalF K' U' V' P' R') (normalNormalF SK SU SV SP SR) := by
  unfold normalNormalF
  have c : ∀ i, i < 3 → Factored e 2 (R.normal i * P.normal i) (R'.normal i * P'.normal i) (SR.normal i * SP.normal i) :=
    fun i hi => (hR.normal i hi).mul he (hP.normal i hi)
  exact (((hK 0 (by omega)).mul he (((c 0 (by omega)).add (c 1 (by omega))).add (c 2 (by omega)))).mul he
    (hU 0 (by omega))).mul he (hV 0 (by omega))

theorem normalSum_near (he : 0 ≤ e) (hK : ∀ i, i < 4 → Factored e 1 (K i) (K' i) (SK i)) (hP : P.Factored e P' SP) :
    Factored e 2 (K 1 * P.normal 0 + K 2 * P.normal 1 + K 3 * P.normal 2)
      (K' 1 * P'.normal 0 + K' 2 * P'.normal 1 + K' 3 * P'.normal 2)
      (SK 1 * SP.normal 0 + SK 2 * SP.normal 1 + SK 3 * SP.normal 2) :=
  (((hK 1 (by omega)).mul he (hP.normal 0 (by omega))).add ((hK 2 (by omega)).mul he (hP.normal 1 (by omega)))).add
    ((hK 3 (by omega)).mul he (hP.normal 2 (by omega)))

/-- The absolute values of point data with errors. -/
theorem PointData.Factored.abs (hP : P.Factored e P' SP) {A A' : PointData ℝ} (h : P.AbsOf A) (h' : P'.AbsOf A') :
    A.Factored e A' SP where
  normal := fun i hi => by rw [h.normal, h'.normal]; exact (hP.normal i hi).norm
  jacobian := fun i hi => by rw [h.jacobian, h'.jacobian]; exact (hP.jacobian i hi).norm
  scale := by rw [hP.scale, h'.jdet, norm_norm]
  jdet := by rw [h.jdet, h'.jdet, norm_norm]; exact hP.jdet.norm
  jdet' := by
    rw [h.jdet, h'.jdet, norm_norm, Real.norm_eq_abs]
    exact (abs_norm_sub_norm_le _ _).trans hP.jdet'
  pos := by rw [h'.jdet]; exact norm_ne_zero_iff.mpr hP.pos

/-- The formulas with plus signs only. -/
theorem absSurfaceCurl_near {U U' : Nat → ℝ} {P P' : PointData ℝ} (he : 0 ≤ e) (hP : P.Factored e P' SP)
    (hU : ∀ i, i < 3 → Factored e 1 (U i) (U' i) (SU i)) {i : Nat}
    (hi : i < 3) : Factored e 2 (surfaceCurlAbs P U i) (surfaceCurlAbs P' U' i) (surfaceCurlAbs SP SU i) :=
  ((hP.jacobian _ (by omega)).mul he (hU 1 (by omega))).add ((hP.jacobian _ (by omega)).mul he (hU 2 (by omega)))

theorem absCurlCurl_near {K K' U U' V V' : Nat → ℝ} {P P' R R' : PointData ℝ} (he : 0 ≤ e)
    (hK : ∀ i, i < 4 → Factored e 1 (K i) (K' i) (SK i))
    (hU : ∀ i, i < 3 → Factored e 1 (U i) (U' i) (SU i)) (hV : ∀ i, i < 3 → Factored e 1 (V i) (V' i) (SV i))
    (hP : P.Factored e P' SP) (hR : R.Factored e R' SR) :
    Factored e 7 (curlCurlAbsF K U V P R) (curlCurlAbsF K' U' V' P' R') (curlCurlAbsF SK SU SV SP SR) := by
  unfold curlCurlAbsF
  rw [hP.scale, hR.scale]
  have c : ∀ i, i < 3 → Factored e 4 (surfaceCurlAbs P U i * surfaceCurlAbs R V i)
      (surfaceCurlAbs P' U' i * surfaceCurlAbs R' V' i)
      (surfaceCurlAbs SP SU i * surfaceCurlAbs SR SV i) := fun i hi =>
    (absSurfaceCurl_near he hP hU hi).mul he (absSurfaceCurl_near he hR hV hi)
  exact (((hK 0 (by omega)).mul he (((c 0 (by omega)).add (c 1 (by omega))).add (c 2 (by omega)))).div he hP.jdet'
    hP.pos).div he hR.jdet' hR.pos

end

section
variable {𝕜 : Type} [NormedField 𝕜] [NormedAlgebra ℝ 𝕜] {e : ℝ} {F : MathIntegrand 𝕜} {W : MathIntegrand ℝ} {m : Nat}
  {K K' U U' V V' : Nat → 𝕜} {SK SU SV : Nat → ℝ} {P P' R R' : PointData 𝕜} {SP SR : PointData ℝ}

/-- Four of the factors are in the weights. -/
theorem Factors.two (hF : Factors F W m) : 4 ≤ m := by cases hF <;> omega

theorem Factors.near (hF : Factors F W m) (he : 0 ≤ e) (hK : ∀ i, i < 4 → Factored e 1 (K i) (K' i) (SK i))
    (hU : ∀ i, i < 3 → Factored e 1 (U i) (U' i) (SU i)) (hV : ∀ i, i < 3 → Factored e 1 (V i) (V' i) (SV i))
    (hP : P.Factored e P' SP) (hR : R.Factored e R' SR) :
    Factored e (m - 4) (F K U V P R) (F K' U' V' P' R') (W SK SU SV SP SR) := by
  cases hF with
  | singleLayer => exact (((hK 0 (by omega)).mul he (hU 0 (by omega))).mul he (hV 0 (by omega)))
  | doubleLayer => exact ((normalSum_near he hK hR).mul he (hU 0 (by omega))).mul he (hV 0 (by omega))
  | adjointDoubleLayer => exact ((normalSum_near he hK hP).neg.mul he (hU 0 (by omega))).mul he (hV 0 (by omega))
  | hypersingular => exact curlCurl_near he hK hU hV hP hR
  | helmholtzHypersingular w =>
    have hw : Factored e 0 (algebraMap ℝ 𝕜 (-(w * w))) (algebraMap ℝ 𝕜 (-(w * w))) (w * w) := by
      have := Factored.same (e := e) (algebraMap ℝ 𝕜 (-(w * w)))
      rwa [norm_algebraMap', norm_neg, norm_mul, Real.norm_eq_abs, abs_mul_abs_self] at this
    exact (curlCurl_near he hK hU hV hP hR).add ((hw.mul he (normalNormal_near he hK hU hV hP hR)).mono he (by omega))

theorem Factors.size {K K' U U' V V' : Nat → ℝ} {P P' R R' : PointData ℝ} (hF : Factors F W m) (he : 0 ≤ e)
    (hK : ∀ i, i < 4 → Factored e 1 (K i) (K' i) (SK i))
    (hU : ∀ i, i < 3 → Factored e 1 (U i) (U' i) (SU i)) (hV : ∀ i, i < 3 → Factored e 1 (V i) (V' i) (SV i))
    (hP : P.Factored e P' SP) (hR : R.Factored e R' SR) :
    Factored e (m - 4) (W K U V P R) (W K' U' V' P' R') (W SK SU SV SP SR) := by
  cases hF with
  | singleLayer => exact (((hK 0 (by omega)).mul he (hU 0 (by omega))).mul he (hV 0 (by omega)))
  | doubleLayer => exact ((normalSum_near he hK hR).mul he (hU 0 (by omega))).mul he (hV 0 (by omega))
  | adjointDoubleLayer => exact ((normalSum_near he hK hP).mul he (hU 0 (by omega))).mul he (hV 0 (by omega))
  | hypersingular => exact absCurlCurl_near he hK hU hV hP hR
  | helmholtzHypersingular w =>
    have hw : Factored e 0 (w * w) (w * w) (w * w) := by
      have := Factored.same (e := e) (w * w)
      rwa [norm_mul, Real.norm_eq_abs, abs_mul_abs_self] at this
    exact (absCurlCurl_near he hK hU hV hP hR).add ((hw.mul he (normalNormal_near he hK hU hV hP hR)).mono he (by omega))

theorem Factored.cast {n : Nat} {x y s : ℝ} (h : Factored e n x y s) : Factored e n (algebraMap ℝ 𝕜 x) (algebraMap ℝ 𝕜 y) s := by
  constructor
  · rw [← map_sub, norm_algebraMap']; exact h.1
  · rw [norm_algebraMap']; exact h.2

theorem Geometry.WithinAt.data {G G' S : Geometry ℝ} {c : Nat} {x x' : List ℝ} (h : Geometry.WithinAt e G G' S c x x') :
    (G.data (algebraMap ℝ 𝕜) c x).Factored e (G'.data (algebraMap ℝ 𝕜) c x') (S.data id c x') where
  normal := fun i hi => (h.normal i hi).near.cast
  jacobian := fun i hi => (h.jacobian i hi).near.cast
  scale := by
    show S.jdet c x' = ‖algebraMap ℝ 𝕜 (G'.jdet c x')‖
    rw [norm_algebraMap', Real.norm_eq_abs]
    exact h.scale
  jdet := by
    have : Bempp.Factored e 1 (G.jdet c x) (G'.jdet c x') |G'.jdet c x'| := Within.near ⟨h.jdet, le_rfl⟩
    have i : ‖(G'.data (algebraMap ℝ 𝕜) c x').jdet‖ = |G'.jdet c x'| := by
      show ‖algebraMap ℝ 𝕜 (G'.jdet c x')‖ = _
      rw [norm_algebraMap', Real.norm_eq_abs]
    rw [i]
    exact this.cast
  jdet' := by
    show ‖algebraMap ℝ 𝕜 (G.jdet c x) - algebraMap ℝ 𝕜 (G'.jdet c x')‖ ≤ e * ‖algebraMap ℝ 𝕜 (G.jdet c x)‖
    rw [← map_sub, norm_algebraMap', norm_algebraMap']
    exact h.jdet'
  pos := by
    show algebraMap ℝ 𝕜 (G'.jdet c x') ≠ 0
    intro z
    have := congrArg norm z
    rw [norm_algebraMap', norm_zero, norm_eq_zero] at this
    exact h.pos this

theorem Geometry.WithinAt.ne {G G' S : Geometry ℝ} {c : Nat} {x x' : List ℝ} (h : Geometry.WithinAt e G G' S c x x') :
    G.jdet c x ≠ 0 := by
  intro z
  have := h.jdet'
  rw [z, abs_zero, mul_zero, zero_sub, abs_neg] at this
  exact h.pos (abs_nonpos_iff.mp this)

theorem Geometry.WithinAt.jdet_near {G G' S : Geometry ℝ} {c : Nat} {x x' : List ℝ} (h : Geometry.WithinAt e G G' S c x x') :
    Factored e 1 (G.jdet c x) (G'.jdet c x') (S.jdet c x') := by
  rw [h.scale]
  exact Within.near ⟨h.jdet, le_rfl⟩

theorem Factored.nonneg_abs {n : Nat} {x y s : ℝ} (h : Factored e n x y s) : |s| = s := abs_of_nonneg h.nonneg

/-! ### The quadrature values -/

variable {D D' : OperatorData 𝕜} {S : OperatorData ℝ} {Q : Quadrature ℝ} {test trial : FunctionSpace} {t : CellType}
  {dimT dimR : Nat}

/-- Everything at one pair of points. -/
structure OperatorData.At (e : ℝ) (D D' : OperatorData 𝕜) (S : OperatorData ℝ) (t : CellType) (c c' a b : Nat)
    (x y x' y' : List ℝ) : Prop where
  test : Geometry.WithinAt e D.testGeometry D'.testGeometry S.testGeometry c x x'
  trial : Geometry.WithinAt e D.trialGeometry D'.trialGeometry S.trialGeometry c' y y'
  testBasis : ∀ i, i < 3 → Factored e 1 (D.testBasis t a i x) (D'.testBasis t a i x') (S.testBasis t a i x')
  trialBasis : ∀ i, i < 3 → Factored e 1 (D.trialBasis t b i y) (D'.trialBasis t b i y') (S.trialBasis t b i y')
  kernel : ∀ i, i < 4 → Factored e 1 (D.kernel (D.testGeometry.coords c x) (D.trialGeometry.coords c' y) i)
    (D'.kernel (D'.testGeometry.coords c x') (D'.trialGeometry.coords c' y') i)
    (S.kernel (S.testGeometry.coords c x') (S.trialGeometry.coords c' y') i)

/-- The data with absolute values. -/
noncomputable def OperatorData.abs (D : OperatorData 𝕜) : OperatorData ℝ :=
  { kernel := fun x y i => ‖D.kernel x y i‖
    testGeometry := D.testGeometry.abs
    trialGeometry := D.trialGeometry.abs
    testBasis := fun t a d x => ‖D.testBasis t a d x‖
    trialBasis := fun t a d x => ‖D.trialBasis t a d x‖ }

/-- The integrand with its data. -/
def OperatorData.integrand {R : Type} (D : OperatorData R) (cast : ℝ → R) (F : MathIntegrand R) (t : CellType)
    (c c' a b : Nat) (x y : List ℝ) : R :=
  F (D.kernel (D.testGeometry.coords c x) (D.trialGeometry.coords c' y)) (fun i => D.testBasis t a i x)
    (fun i => D.trialBasis t b i y) (D.testGeometry.data cast c x) (D.trialGeometry.data cast c' y)

variable {c c' a b : Nat} {x y x' y' : List ℝ} {Q' : Quadrature ℝ}

theorem OperatorData.At.near (h : OperatorData.At e D D' S t c c' a b x y x' y') (hF : Factors F W m) (he : 0 ≤ e) :
    Factored e (m - 4) (D.integrand (algebraMap ℝ 𝕜) F t c c' a b x y)
      (D'.integrand (algebraMap ℝ 𝕜) F t c c' a b x' y') (S.integrand id W t c c' a b x' y') :=
  hF.near he h.kernel h.testBasis h.trialBasis h.test.data h.trial.data

theorem OperatorData.At.abs_near (h : OperatorData.At e D D' S t c c' a b x y x' y') (hF : Factors F W m) (he : 0 ≤ e) :
    Factored e (m - 4) (D.abs.integrand id W t c c' a b x y) (D'.abs.integrand id W t c c' a b x' y')
      (S.integrand id W t c c' a b x' y') :=
  hF.size he (fun i hi => (h.kernel i hi).norm) (fun i hi => (h.testBasis i hi).norm)
    (fun i hi => (h.trialBasis i hi).norm)
    ((h.test.data (𝕜 := 𝕜)).abs (data_absOf _ _ _ h.test.ne) (data_absOf _ _ _ h.test.pos))
    ((h.trial.data (𝕜 := 𝕜)).abs (data_absOf _ _ _ h.trial.ne) (data_absOf _ _ _ h.trial.pos))

theorem near_zero (n : Nat) : Factored e n (0 : 𝕜) 0 0 := by
  constructor <;> simp

/-- A weight. -/
theorem weight_near {w w' : ℝ} (h : |w - w'| ≤ e * |w'|) : Factored e 1 w w' |w'| := Within.near ⟨h, le_rfl⟩

/-- Loops over two lists of the same length. -/
theorem foldl_zip_left {α β σ : Type} (f : σ → α → σ) : ∀ (l : List α) (l' : List β), l.length = l'.length → ∀ s,
    l.foldl f s = (l.zip l').foldl (fun s p => f s p.1) s
  | [], [], _, _ => rfl
  | a :: l, b :: l', h, s => foldl_zip_left f l l' (by simpa using h) _

theorem foldl_zip_right {α β σ : Type} (f : σ → β → σ) : ∀ (l : List α) (l' : List β), l.length = l'.length → ∀ s,
    l'.foldl f s = (l.zip l').foldl (fun s p => f s p.2) s
  | [], [], _, _ => rfl
  | a :: l, b :: l', h, s => foldl_zip_right f l l' (by simpa using h) _

theorem regular_near (hF : Factors F W m) (he : 0 ≤ e)
    (hw : List.Forall₂ (fun p p' => |p.2 - p'.2| ≤ e * |p'.2|) (Q.regular t) (Q'.regular t))
    (h : ∀ p ∈ (Q.regular t).zip (Q'.regular t), ∀ q ∈ (Q.regular t).zip (Q'.regular t),
      OperatorData.At e D D' S t c c' a b p.1.1 q.1.1 p.2.1 q.2.1) :
    Factored e m
      (regularValue (algebraMap ℝ 𝕜) F D.kernel D.testGeometry D.trialGeometry D.testBasis D.trialBasis Q t t c c' a b)
      (regularValue (algebraMap ℝ 𝕜) F D'.kernel D'.testGeometry D'.trialGeometry D'.testBasis D'.trialBasis Q' t t c c' a b)
      (regularValue id W S.kernel S.testGeometry S.trialGeometry S.testBasis S.trialBasis Q'.abs t t c c' a b) ∧
    Factored e m
      (regularValue id W D.abs.kernel D.abs.testGeometry D.abs.trialGeometry D.abs.testBasis D.abs.trialBasis Q.abs t t
        c c' a b)
      (regularValue id W D'.abs.kernel D'.abs.testGeometry D'.abs.trialGeometry D'.abs.testBasis D'.abs.trialBasis Q'.abs
        t t c c' a b)
      (regularValue id W S.kernel S.testGeometry S.trialGeometry S.testBasis S.trialBasis Q'.abs t t c c' a b) := by
  have hm : m = m - 4 + (1 + 1) + (1 + 1) := by have := hF.two; omega
  have ea : ∀ Q : Quadrature ℝ, Q.abs.regular = fun t => (Q.regular t).map fun p => (p.1, |p.2|) := fun _ => rfl
  have hl := hw.length_eq
  have hw' : ∀ p ∈ (Q.regular t).zip (Q'.regular t), |p.1.2 - p.2.2| ≤ e * |p.2.2| := fun p hp =>
    (List.forall₂_iff_zip.mp hw).2 hp
  unfold regularValue
  simp only [ea, List.foldl_map]
  simp only [foldl_zip_left _ (Q.regular t) (Q'.regular t) hl, foldl_zip_right _ (Q.regular t) (Q'.regular t) hl]
  refine ⟨Factored.fold2 _ _ _ _ _ (fun p hp q hq => ?_) (near_zero m),
    Factored.fold2 _ _ _ _ _ (fun p hp q hq => ?_) (near_zero m)⟩
  · rw [hm]
    have k := h p hp q hq
    exact ((k.near hF he).mul he ((weight_near (hw' q hq)).mul he k.trial.jdet_near).cast).mul he
      ((weight_near (hw' p hp)).mul he k.test.jdet_near).cast
  · rw [hm]
    have k := h p hp q hq
    exact ((k.abs_near hF he).mul he ((weight_near (hw' q hq)).norm.mul he k.trial.jdet_near.norm)).mul he
      ((weight_near (hw' p hp)).norm.mul he k.test.jdet_near.norm)

theorem singular_near (hF : Factors F W m) (he : 0 ≤ e) {con : Connectivity}
    (hw : List.Forall₂ (fun p p' => |p.2.2 - p'.2.2| ≤ e * |p'.2.2|) (Q.singular t t con) (Q'.singular t t con))
    (h : ∀ p ∈ (Q.singular t t con).zip (Q'.singular t t con),
      OperatorData.At e D D' S t c c' a b p.1.1 p.1.2.1 p.2.1 p.2.2.1) :
    Factored e m
      (singularValue (algebraMap ℝ 𝕜) F D.kernel D.testGeometry D.trialGeometry D.testBasis D.trialBasis Q t t con c c' a b)
      (singularValue (algebraMap ℝ 𝕜) F D'.kernel D'.testGeometry D'.trialGeometry D'.testBasis D'.trialBasis Q' t t con
        c c' a b)
      (singularValue id W S.kernel S.testGeometry S.trialGeometry S.testBasis S.trialBasis Q'.abs t t con c c' a b) ∧
    Factored e m
      (singularValue id W D.abs.kernel D.abs.testGeometry D.abs.trialGeometry D.abs.testBasis D.abs.trialBasis Q.abs t t
        con c c' a b)
      (singularValue id W D'.abs.kernel D'.abs.testGeometry D'.abs.trialGeometry D'.abs.testBasis D'.abs.trialBasis Q'.abs
        t t con c c' a b)
      (singularValue id W S.kernel S.testGeometry S.trialGeometry S.testBasis S.trialBasis Q'.abs t t con c c' a b) := by
  have hm : m - 4 + (1 + (1 + 1)) ≤ m := by have := hF.two; omega
  have ea : ∀ Q : Quadrature ℝ,
      Q.abs.singular = fun t t' con => (Q.singular t t' con).map fun p => (p.1, p.2.1, |p.2.2|) := fun _ => rfl
  have hl := hw.length_eq
  have hw' : ∀ p ∈ (Q.singular t t con).zip (Q'.singular t t con), |p.1.2.2 - p.2.2.2| ≤ e * |p.2.2.2| := fun p hp =>
    (List.forall₂_iff_zip.mp hw).2 hp
  unfold singularValue
  simp only [ea, List.foldl_map]
  simp only [foldl_zip_left _ (Q.singular t t con) (Q'.singular t t con) hl,
    foldl_zip_right _ (Q.singular t t con) (Q'.singular t t con) hl]
  refine ⟨Factored.fold _ _ _ _ (fun p hp => ?_) (near_zero m), Factored.fold _ _ _ _ (fun p hp => ?_) (near_zero m)⟩
  · have k := h p hp
    exact ((k.near hF he).mul he
      ((weight_near (hw' p hp)).mul he (k.test.jdet_near.mul he k.trial.jdet_near)).cast).mono he hm
  · have k := h p hp
    exact ((k.abs_near hF he).mul he
      ((weight_near (hw' p hp)).norm.mul he (k.test.jdet_near.norm.mul he k.trial.jdet_near.norm))).mono he hm

theorem OperatorData.Within.value (h : D.Within e D' S Q Q' test trial t dimT dimR) (hF : Factors F W m) (he : 0 ≤ e)
    {c c' : Entity} {a b : Nat} (hc : c ∈ test.grid.entityIter 2) (hc' : c' ∈ trial.grid.entityIter 2) (ht : c.entityType = t)
    (ht' : c'.entityType = t) (hcon : test.grid.addr = trial.grid.addr → c.Touches c' → (connectivity c c').Possible t t)
    (ha : a < dimT) (hb : b < dimR) :
    Factored e m (cellPairValue (algebraMap ℝ 𝕜) F D.kernel D.testGeometry D.trialGeometry D.testBasis D.trialBasis Q test
        trial c c' a b)
      (cellPairValue (algebraMap ℝ 𝕜) F D'.kernel D'.testGeometry D'.trialGeometry D'.testBasis D'.trialBasis Q' test
        trial c c' a b)
      (cellPairValue id W S.kernel S.testGeometry S.trialGeometry S.testBasis S.trialBasis Q'.abs test trial c c' a b) ∧
    |cellPairValue id W (fun x y i => ‖D.kernel x y i‖) D.testGeometry.abs D.trialGeometry.abs
      (fun t a d x => ‖D.testBasis t a d x‖) (fun t a d x => ‖D.trialBasis t a d x‖) Q.abs test trial c c' a b| ≤
      (1 + e) ^ m * cellPairValue id W S.kernel S.testGeometry S.trialGeometry S.testBasis S.trialBasis Q'.abs test trial
        c c' a b := by
  unfold cellPairValue
  rw [ht, ht']
  split
  · rename_i hs
    have h1 := singular_near (D := D) (D' := D') (S := S) (c := c.localIndex) (c' := c'.localIndex) (a := a) (b := b) hF
      he (con := connectivity c c') (Q := Q) (Q' := Q') (t := t) (h.weights.singular _ (hcon hs.1 hs.2)) fun p hp => by
        have n1 : Q.Nodes Q' t p.1.1 p.2.1 := .inr ⟨_, hcon hs.1 hs.2, p, hp, .inl ⟨rfl, rfl⟩⟩
        have n2 : Q.Nodes Q' t p.1.2.1 p.2.2.1 := .inr ⟨_, hcon hs.1 hs.2, p, hp, .inr ⟨rfl, rfl⟩⟩
        exact ⟨h.testGeometry c hc _ _ n1, h.trialGeometry c' hc' _ _ n2,
          fun i hi => (h.testBasis _ _ n1 a i ha hi).near, fun i hi => (h.trialBasis _ _ n2 b i hb hi).near,
          fun i hi => (h.kernel c hc c' hc' _ _ _ _ (by
            unfold Quadrature.Pairs
            rw [if_pos hs, ht, ht']
            exact ⟨p, hp, rfl, rfl, rfl, rfl⟩) i hi).near⟩
    exact ⟨h1.1, h1.2.size⟩
  · rename_i hs
    have h1 := regular_near (D := D) (D' := D') (S := S) (c := c.localIndex) (c' := c'.localIndex) (a := a) (b := b) hF
      he (Q := Q) (Q' := Q') (t := t) h.weights.regular fun p hp q hq => by
        have n1 : Q.Nodes Q' t p.1.1 p.2.1 := .inl ⟨p, hp, rfl, rfl⟩
        have n2 : Q.Nodes Q' t q.1.1 q.2.1 := .inl ⟨q, hq, rfl, rfl⟩
        exact ⟨h.testGeometry c hc _ _ n1, h.trialGeometry c' hc' _ _ n2,
          fun i hi => (h.testBasis _ _ n1 a i ha hi).near, fun i hi => (h.trialBasis _ _ n2 b i hb hi).near,
          fun i hi => (h.kernel c hc c' hc' _ _ _ _ (by
            unfold Quadrature.Pairs
            rw [if_neg hs, ht, ht']
            exact ⟨⟨p, hp, rfl, rfl⟩, q, hq, rfl, rfl⟩) i hi).near⟩
    exact ⟨h1.1, h1.2.size⟩

/-- `doubleSum_bound` where only the local numbers of DOFs count. -/
theorem doubleSum_bound_dofs (f g : Entity → Entity → Nat → Nat → 𝕜) (h : Entity → Entity → Nat → Nat → ℝ)
    (hl : ∀ c ∈ test.grid.entityIter 2, ∀ c' ∈ trial.grid.entityIter 2, ∀ a b,
      a < ((test.cellDofs c.localIndex).getD []).length → b < ((trial.cellDofs c'.localIndex).getD []).length →
      ‖f c c' a b - g c c' a b‖ ≤ h c c' a b)
    (i j : Nat) : ‖doubleSum test trial f i j - doubleSum test trial g i j‖ ≤ doubleSum test trial h i j := by
  unfold doubleSum
  refine list_sum_bound _ _ _ _ fun c hc => list_sum_bound _ _ _ _ fun c' hc' => list_sum_bound _ _ _ _ fun x hx =>
    list_sum_bound _ _ _ _ fun y hy => ?_
  split
  · exact hl c hc c' hc' _ _ (by simpa using List.snd_lt_of_mem_zipIdx hx) (by simpa using List.snd_lt_of_mem_zipIdx hy)
  · simp

end
end Bempp
