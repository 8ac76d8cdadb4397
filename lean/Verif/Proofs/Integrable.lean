import Verif.Proofs.FlatIntegrals
import Verif.Props.Convergence
/-
The integrands of the operators are integrable over pairs of flat cells.
-/
namespace Bempp
open MeasureTheory ENNReal

/-- A cell that is the image of its reference cell under an affine map. -/
def FlatCell (G : Geometry ℝ) (c : Nat) : Prop :=
  ∃ P A B N U W, FlatFrame A B N U W ∧ (∀ z i, i < 3 → G.point c (pointList z) i = flatPoint P A B z i) ∧
    ∀ z i, i < 3 → G.normal c (pointList z) i = N i

section
variable {T : Type} [RCLike T]

/-- A kernel with the singularities of a Green's function. -/
structure GreenLike (K : MathKernel ℝ T) : Prop where
  continuous : ContinuousKernel K
  zero : ∀ x y, pointDist x y = 0 → ∀ i, i < 4 → K x y i = 0
  value : ∀ D : ℝ, ∃ C : ℝ, ∀ x y, pointDist x y ≤ D → ‖K x y 0‖ ≤ C * (1 / pointDist x y)
  normal : ∀ D : ℝ, ∃ C : ℝ, ∀ x y (n : Nat → ℝ), pointDist x y ≤ D →
    ‖K x y 1 * (n 0 : T) + K x y 2 * (n 1 : T) + K x y 3 * (n 2 : T)‖ ≤
      C * (|dot3 n (pointDiff x y)| / pointDist x y ^ 3)

/-- The coordinates of a point of a flat cell. -/
def flatCoords (P A B : Nat → ℝ) (z : ℝ × ℝ) : List ℝ := [flatPoint P A B z 0, flatPoint P A B z 1, flatPoint P A B z 2]

theorem flatPoint_continuous (P A B : Nat → ℝ) (i : Nat) : Continuous fun z => flatPoint P A B z i := by
  unfold flatPoint
  fun_prop

theorem dot3_pointDiff_flat (N P A B P' A' B' : Nat → ℝ) (x y : ℝ × ℝ) :
    |dot3 N (pointDiff (flatCoords P A B x) (flatCoords P' A' B' y))| =
      |dot3 N (diff3 (flatPoint P A B x) (flatPoint P' A' B' y))| := by
  rw [← abs_neg]
  congr 1
  show -(N 0 * (flatPoint P A B x 0 - flatPoint P' A' B' y 0) + N 1 * (flatPoint P A B x 1 - flatPoint P' A' B' y 1) +
    N 2 * (flatPoint P A B x 2 - flatPoint P' A' B' y 2)) = _
  unfold dot3 diff3
  ring

theorem pointDist_flat (P A B P' A' B' : Nat → ℝ) (x y : ℝ × ℝ) :
    pointDist (flatCoords P A B x) (flatCoords P' A' B' y) = dist3 (flatPoint P A B x) (flatPoint P' A' B' y) := by
  unfold pointDist dist3 dot3 diff3
  congr 1
  show (flatPoint P A B x 0 - flatPoint P' A' B' y 0) ^ 2 + (flatPoint P A B x 1 - flatPoint P' A' B' y 1) ^ 2 +
    (flatPoint P A B x 2 - flatPoint P' A' B' y 2) ^ 2 = _
  ring

theorem dist3_continuous (P A B P' A' B' : Nat → ℝ) :
    Continuous fun z : (ℝ × ℝ) × (ℝ × ℝ) => dist3 (flatPoint P A B z.1) (flatPoint P' A' B' z.2) := by
  unfold dist3 dot3 diff3 flatPoint
  fun_prop

theorem dist3_symm (p q : Nat → ℝ) : dist3 p q = dist3 q p := by
  unfold dist3 dot3 diff3
  congr 1
  ring

variable {K : MathKernel ℝ T}

/-- The components of the kernel on a pair of flat cells are measurable. -/
theorem GreenLike.measurable (hK : GreenLike K) (P A B P' A' B' : Nat → ℝ) {i : Nat} (hi : i < 4)
    (μ : Measure ((ℝ × ℝ) × (ℝ × ℝ))) :
    AEStronglyMeasurable (fun z : (ℝ × ℝ) × (ℝ × ℝ) => K (flatCoords P A B z.1) (flatCoords P' A' B' z.2) i) μ := by
  let φ : (ℝ × ℝ) × (ℝ × ℝ) → (ℝ × ℝ × ℝ) × (ℝ × ℝ × ℝ) := fun z =>
    ((flatPoint P A B z.1 0, flatPoint P A B z.1 1, flatPoint P A B z.1 2),
      (flatPoint P' A' B' z.2 0, flatPoint P' A' B' z.2 1, flatPoint P' A' B' z.2 2))
  have hφ : Continuous φ := by
    have h1 := fun i => (flatPoint_continuous P A B i).comp (continuous_fst (X := ℝ × ℝ) (Y := ℝ × ℝ))
    have h2 := fun i => (flatPoint_continuous P' A' B' i).comp (continuous_snd (X := ℝ × ℝ) (Y := ℝ × ℝ))
    exact ((h1 0).prodMk ((h1 1).prodMk (h1 2))).prodMk ((h2 0).prodMk ((h2 1).prodMk (h2 2)))
  let D : Set ((ℝ × ℝ) × (ℝ × ℝ)) := φ ⁻¹' {z | z.1 ≠ z.2}
  have hD : MeasurableSet D := (isOpen_ne_fun continuous_fst continuous_snd |>.preimage hφ).measurableSet
  have hc : ContinuousOn (fun z : (ℝ × ℝ) × (ℝ × ℝ) => K (flatCoords P A B z.1) (flatCoords P' A' B' z.2) i) D :=
    (hK.continuous i hi).comp hφ.continuousOn fun z hz => hz
  have hind : (fun z : (ℝ × ℝ) × (ℝ × ℝ) => K (flatCoords P A B z.1) (flatCoords P' A' B' z.2) i) =
      D.indicator fun z => K (flatCoords P A B z.1) (flatCoords P' A' B' z.2) i := by
    funext z
    by_cases hz : z ∈ D
    · rw [Set.indicator_of_mem hz]
    · rw [Set.indicator_of_notMem hz]
      refine hK.zero _ _ ?_ i hi
      have : (φ z).1 = (φ z).2 := by
        by_contra hne
        exact hz hne
      simp only [φ, Prod.mk.injEq] at this
      unfold pointDist pointDiff flatCoords
      simp [this.1, this.2.1, this.2.2]
  rw [hind, aestronglyMeasurable_indicator_iff hD]
  exact hc.aestronglyMeasurable hD

theorem refCell_subset (t : CellType) : refCell t ⊆ unitSquare := by
  intro z hz
  cases t with
  | triangle =>
    obtain ⟨h1, h2, h3⟩ := hz
    exact ⟨⟨h1, by linarith⟩, ⟨h2, by linarith⟩⟩
  | quadrilateral =>
    obtain ⟨h1, h2, h3, h4⟩ := hz
    exact ⟨⟨h1, h2⟩, ⟨h3, h4⟩⟩
  | _ => exact absurd hz (Set.notMem_empty z)

/-- The distances of the points of two flat cells are bounded. -/
theorem dist_bound (t : CellType) (P A B P' A' B' : Nat → ℝ) : ∃ D : ℝ, ∀ z ∈ refCell t ×ˢ refCell t,
    dist3 (flatPoint P A B z.1) (flatPoint P' A' B' z.2) ≤ D := by
  obtain ⟨D, hD⟩ := ((refCell_isCompact t).prod (refCell_isCompact t)).exists_bound_of_continuousOn
    (dist3_continuous P A B P' A' B').continuousOn
  exact ⟨D, fun z hz => (le_abs_self _).trans (hD z hz)⟩

theorem refCell_prod_measurable (t : CellType) : MeasurableSet (refCell t ×ˢ refCell t) :=
  ((refCell_isCompact t).prod (refCell_isCompact t)).measurableSet

/-- A function that is bounded by a multiple of a function with a finite double integral is integrable. -/
theorem integrable_of_double {t : CellType} {f : (ℝ × ℝ) × (ℝ × ℝ) → T} {g : (ℝ × ℝ) × (ℝ × ℝ) → ℝ}
    (hf : AEStronglyMeasurable f (volume.restrict (refCell t ×ˢ refCell t))) (hg : Measurable g) (hg0 : ∀ z, 0 ≤ g z) (C : ℝ)
    (hle : ∀ z ∈ refCell t ×ˢ refCell t, ‖f z‖ ≤ C * g z)
    (hfin : ∫⁻ x in refCell t, ∫⁻ y in refCell t, ENNReal.ofReal (g (x, y)) ≠ ⊤) :
    IntegrableOn f (refCell t ×ˢ refCell t) := by
  refine ⟨hf, ?_⟩
  rw [hasFiniteIntegral_iff_norm]
  have hmg : Measurable fun z => ENNReal.ofReal (g z) := ENNReal.measurable_ofReal.comp hg
  calc ∫⁻ z in refCell t ×ˢ refCell t, ENNReal.ofReal ‖f z‖
      ≤ ∫⁻ z in refCell t ×ˢ refCell t, ENNReal.ofReal |C| * ENNReal.ofReal (g z) := by
        refine setLIntegral_mono_ae' (refCell_prod_measurable t) (Filter.Eventually.of_forall fun z hz => ?_)
        rw [← ENNReal.ofReal_mul (abs_nonneg C)]
        exact ENNReal.ofReal_le_ofReal ((hle z hz).trans (mul_le_mul_of_nonneg_right (le_abs_self C) (hg0 z)))
    _ = ENNReal.ofReal |C| * ∫⁻ z in refCell t ×ˢ refCell t, ENNReal.ofReal (g z) :=
        lintegral_const_mul _ hmg
    _ < ⊤ := by
        refine ENNReal.mul_lt_top ENNReal.ofReal_lt_top (lt_top_iff_ne_top.mpr ?_)
        rw [Measure.volume_eq_prod, ← Measure.prod_restrict, lintegral_prod _ hmg.aemeasurable]
        exact hfin

/-- The kernel is integrable over a pair of cells, the second one being flat. -/
theorem GreenLike.integrable_value (hK : GreenLike K) (t : CellType) (P A B P' A' B' : Nat → ℝ)
    {N U W : Nat → ℝ} (h : FlatFrame A' B' N U W) :
    IntegrableOn (fun z : (ℝ × ℝ) × (ℝ × ℝ) => K (flatCoords P A B z.1) (flatCoords P' A' B' z.2) 0)
      (refCell t ×ˢ refCell t) := by
  obtain ⟨D, hD⟩ := dist_bound t P A B P' A' B'
  obtain ⟨C, hC⟩ := hK.value D
  refine integrable_of_double (hK.measurable P A B P' A' B' (by decide) _)
    (g := fun z => 1 / dist3 (flatPoint P A B z.1) (flatPoint P' A' B' z.2)) ?_ (fun z => one_div_nonneg.mpr (dist3_nonneg _ _)) C ?_ ?_
  · exact measurable_const.div (dist3_continuous P A B P' A' B').measurable
  · intro z hz
    have := hC (flatCoords P A B z.1) (flatCoords P' A' B' z.2)
    rw [pointDist_flat] at this
    exact this (hD z hz)
  · exact h.double_value P' (refCell_subset t) fun x => flatPoint P A B x

/-- The normal derivative of the kernel on the second cell. -/
theorem GreenLike.integrable_second (hK : GreenLike K) (t : CellType) (P A B P' A' B' : Nat → ℝ)
    {N U W : Nat → ℝ} (h : FlatFrame A' B' N U W) :
    IntegrableOn (fun z : (ℝ × ℝ) × (ℝ × ℝ) => K (flatCoords P A B z.1) (flatCoords P' A' B' z.2) 1 * (N 0 : T) +
      K (flatCoords P A B z.1) (flatCoords P' A' B' z.2) 2 * (N 1 : T) +
      K (flatCoords P A B z.1) (flatCoords P' A' B' z.2) 3 * (N 2 : T)) (refCell t ×ˢ refCell t) := by
  obtain ⟨D, hD⟩ := dist_bound t P A B P' A' B'
  obtain ⟨C, hC⟩ := hK.normal D
  have hm := fun i (hi : i < 4) => hK.measurable P A B P' A' B' hi (volume.restrict (refCell t ×ˢ refCell t))
  refine integrable_of_double ((((hm 1 (by decide)).mul_const _).add ((hm 2 (by decide)).mul_const _)).add
    ((hm 3 (by decide)).mul_const _))
    (g := fun z => |dot3 N (diff3 (flatPoint P A B z.1) P')| /
      dist3 (flatPoint P A B z.1) (flatPoint P' A' B' z.2) ^ 3) ?_ (fun z => div_nonneg (abs_nonneg _) (pow_nonneg (dist3_nonneg _ _) 3)) C ?_ ?_
  · refine Measurable.div ?_ ((dist3_continuous P A B P' A' B').measurable.pow_const 3)
    have : Continuous fun z : (ℝ × ℝ) × (ℝ × ℝ) => |dot3 N (diff3 (flatPoint P A B z.1) P')| := by
      unfold dot3 diff3 flatPoint
      fun_prop
    exact this.measurable
  · intro z hz
    have := hC (flatCoords P A B z.1) (flatCoords P' A' B' z.2) N
    rw [pointDist_flat, dot3_pointDiff_flat, h.normal_diff P'] at this
    exact this (hD z hz)
  · exact h.double_normal P' (refCell_subset t) P A B

/-- The normal derivative of the kernel on the first cell. -/
theorem GreenLike.integrable_first (hK : GreenLike K) (t : CellType) (P A B P' A' B' : Nat → ℝ)
    {N U W : Nat → ℝ} (h : FlatFrame A B N U W) :
    IntegrableOn (fun z : (ℝ × ℝ) × (ℝ × ℝ) => K (flatCoords P A B z.1) (flatCoords P' A' B' z.2) 1 * (N 0 : T) +
      K (flatCoords P A B z.1) (flatCoords P' A' B' z.2) 2 * (N 1 : T) +
      K (flatCoords P A B z.1) (flatCoords P' A' B' z.2) 3 * (N 2 : T)) (refCell t ×ˢ refCell t) := by
  obtain ⟨D, hD⟩ := dist_bound t P A B P' A' B'
  obtain ⟨C, hC⟩ := hK.normal D
  have hm := fun i (hi : i < 4) => hK.measurable P A B P' A' B' hi (volume.restrict (refCell t ×ˢ refCell t))
  let g : (ℝ × ℝ) × (ℝ × ℝ) → ℝ := fun z => |dot3 N (diff3 (flatPoint P' A' B' z.2) P)| /
      dist3 (flatPoint P' A' B' z.2) (flatPoint P A B z.1) ^ 3
  have hg : Measurable g := by
    refine Measurable.div ?_ ?_
    · have : Continuous fun z : (ℝ × ℝ) × (ℝ × ℝ) => |dot3 N (diff3 (flatPoint P' A' B' z.2) P)| := by
        unfold dot3 diff3 flatPoint
        fun_prop
      exact this.measurable
    · exact ((dist3_continuous P' A' B' P A B).comp continuous_swap).measurable.pow_const 3
  refine integrable_of_double ((((hm 1 (by decide)).mul_const _).add ((hm 2 (by decide)).mul_const _)).add
    ((hm 3 (by decide)).mul_const _)) hg (fun z => div_nonneg (abs_nonneg _) (pow_nonneg (dist3_nonneg _ _) 3)) C ?_ ?_
  · intro z hz
    have := hC (flatCoords P A B z.1) (flatCoords P' A' B' z.2) N
    rw [pointDist_flat, dot3_pointDiff_flat] at this
    refine (this (hD z hz)).trans (le_of_eq ?_)
    simp only [g]
    rw [dist3_symm, ← h.normal_diff P (flatPoint P' A' B' z.2) z.1]
    congr 2
    rw [← abs_neg]
    congr 1
    unfold dot3 diff3
    ring
  · have hsw := lintegral_lintegral_swap (μ := volume.restrict (refCell t)) (ν := volume.restrict (refCell t))
      (f := fun x y => ENNReal.ofReal (g (x, y))) ((ENNReal.measurable_ofReal.comp hg).aemeasurable)
    rw [hsw]
    exact h.double_normal P (refCell_subset t) P' A' B'

/-- The integrand of every operator is integrable over every pair of flat cells. -/
theorem pairIntegrand_integrable (hK : GreenLike K) {F : MathIntegrand T} (ho : OperatorFormula F) {GT GR : Geometry ℝ}
    {BT BR : Basis ℝ T} {t : CellType} {c c' a b dT dR : Nat} (hT : ContinuousCell GT t c) (hR : ContinuousCell GR t c')
    (fT : FlatCell GT c) (fR : FlatCell GR c')
    (hBT : ContinuousBasis BT t dT) (hBR : ContinuousBasis BR t dR) (ha : a < dT) (hb : b < dR) :
    IntegrableOn (fun z : (ℝ × ℝ) × (ℝ × ℝ) =>
      pairIntegrand F K GT GR BT BR t c c' a b (pointList z.1) (pointList z.2)) (refCell t ×ˢ refCell t) := by
  obtain ⟨P, A, B, N, U, W, hf, hp, hn⟩ := fT
  obtain ⟨P', A', B', N', U', W', hf', hp', hn'⟩ := fR
  have hcomp := (refCell_isCompact t).prod (refCell_isCompact t)
  have e1 : ∀ z, GT.coords c (pointList z) = flatCoords P A B z := by
    intro z
    rw [coords_eq, hp z 0 (by decide), hp z 1 (by decide), hp z 2 (by decide)]
    rfl
  have e2 : ∀ z, GR.coords c' (pointList z) = flatCoords P' A' B' z := by
    intro z
    rw [coords_eq, hp' z 0 (by decide), hp' z 1 (by decide), hp' z 2 (by decide)]
    rfl
  have hρ : ∀ {F : MathIntegrand T}, OperatorFormula F → ContinuousOn (fun z : (ℝ × ℝ) × (ℝ × ℝ) =>
      pairIntegrand F (fun _ _ _ => 1) GT GR BT BR t c c' a b (pointList z.1) (pointList z.2)) (refCell t ×ˢ refCell t) :=
    fun ho => pairIntegrand_continuous_of ho hT hR hBT hBR ha hb fun i _ => continuousOn_const
  have key : ∀ {κ : (ℝ × ℝ) × (ℝ × ℝ) → T} {G : MathIntegrand T}, OperatorFormula G →
      IntegrableOn κ (refCell t ×ˢ refCell t) →
      (∀ z, pairIntegrand F K GT GR BT BR t c c' a b (pointList z.1) (pointList z.2) =
        κ z * pairIntegrand G (fun _ _ _ => 1) GT GR BT BR t c c' a b (pointList z.1) (pointList z.2)) →
      IntegrableOn (fun z : (ℝ × ℝ) × (ℝ × ℝ) =>
        pairIntegrand F K GT GR BT BR t c c' a b (pointList z.1) (pointList z.2)) (refCell t ×ˢ refCell t) := by
    intro κ G hG hκ e
    simp only [e]
    exact hκ.mul_continuousOn (hρ hG) hcomp
  have v := hK.integrable_value t P A B P' A' B' hf'
  cases ho with
  | singleLayer =>
    refine key .singleLayer v fun z => ?_
    rw [← e1, ← e2]
    unfold pairIntegrand slF
    ring
  | doubleLayer =>
    refine key .singleLayer (hK.integrable_second t P A B P' A' B' hf') fun z => ?_
    rw [← e1, ← e2, ← hn' z.2 0 (by decide), ← hn' z.2 1 (by decide), ← hn' z.2 2 (by decide)]
    unfold pairIntegrand slF dlF Geometry.data
    ring
  | adjoint =>
    refine key .singleLayer (hK.integrable_first t P A B P' A' B' hf).neg fun z => ?_
    rw [Pi.neg_apply, ← e1, ← e2, ← hn z.1 0 (by decide), ← hn z.1 1 (by decide), ← hn z.1 2 (by decide)]
    unfold pairIntegrand slF adlF Geometry.data
    ring
  | hypersingular =>
    refine key .hypersingular v fun z => ?_
    rw [← e1, ← e2]
    unfold pairIntegrand curlCurlF
    ring
  | helmholtzHypersingular cast w =>
    refine key (.helmholtzHypersingular cast w) v fun z => ?_
    rw [← e1, ← e2]
    unfold pairIntegrand helmholtzHypF curlCurlF normalNormalF
    ring

end

/-! ### The Green's functions -/

theorem pointDist_zero_diff {x y : List ℝ} (h : pointDist x y = 0) {i : Nat} (hi : i < 3) : pointDiff x y i = 0 := by
  unfold pointDist at h
  rw [Real.sqrt_eq_zero (by positivity)] at h
  have h0 := sq_nonneg (pointDiff x y 0)
  have h1 := sq_nonneg (pointDiff x y 1)
  have h2 := sq_nonneg (pointDiff x y 2)
  match i, hi with
  | 0, _ => exact pow_eq_zero_iff two_ne_zero |>.mp (by linarith)
  | 1, _ => exact pow_eq_zero_iff two_ne_zero |>.mp (by linarith)
  | 2, _ => exact pow_eq_zero_iff two_ne_zero |>.mp (by linarith)

theorem norm_ratio {d r : ℝ} (hr : 0 ≤ r) :
    ‖1 / (4 * Real.pi) * (d / r ^ 3)‖ = 1 / (4 * Real.pi) * (|d| / r ^ 3) := by
  have hpi := Real.pi_pos
  rw [Real.norm_eq_abs, abs_mul, abs_div d, abs_of_nonneg (by positivity : 0 ≤ 1 / (4 * Real.pi)),
    abs_of_nonneg (by positivity : 0 ≤ r ^ 3)]

theorem laplaceGreen_greenLike : GreenLike laplaceGreen where
  continuous := laplaceGreen_continuous
  zero x y h i hi := by
    match i, hi with
    | 0, _ => simp [laplaceGreen, h]
    | j + 1, hi => simp [laplaceGreen, h]
  value D := by
    refine ⟨1 / (4 * Real.pi), fun x y _ => le_of_eq ?_⟩
    have hr : 0 ≤ pointDist x y := Real.sqrt_nonneg _
    have hpi := Real.pi_pos
    rw [Real.norm_eq_abs, laplaceGreen, abs_of_nonneg (by positivity)]
    rw [one_div_mul_one_div]
  normal D := by
    refine ⟨1 / (4 * Real.pi), fun x y n _ => le_of_eq ?_⟩
    have hr : 0 ≤ pointDist x y := Real.sqrt_nonneg _
    have hpi := Real.pi_pos
    have e : laplaceGreen x y 1 * ((n 0 : ℝ) : ℝ) + laplaceGreen x y 2 * ((n 1 : ℝ) : ℝ) + laplaceGreen x y 3 * ((n 2 : ℝ) : ℝ) =
        1 / (4 * Real.pi) * (dot3 n (pointDiff x y) / pointDist x y ^ 3) := by
      simp only [laplaceGreen, dot3]
      by_cases h : pointDist x y = 0
      · simp [h]
      · field_simp
    simp only [RCLike.ofReal_real_eq_id, id] at e ⊢
    rw [e, norm_ratio hr]

theorem helmholtzGreen_greenLike (w : ℝ) : GreenLike (helmholtzGreen w) where
  continuous := helmholtzGreen_continuous w
  zero x y h i hi := by
    match i, hi with
    | 0, _ => simp [helmholtzGreen, h]
    | j + 1, hi => simp [helmholtzGreen, h]
  value D := by
    refine ⟨1 / (4 * Real.pi), fun x y _ => le_of_eq ?_⟩
    have hr : 0 ≤ pointDist x y := Real.sqrt_nonneg _
    have hpi := Real.pi_pos
    have hexp : ‖Complex.exp (Complex.I * w * pointDist x y)‖ = 1 := by
      have : Complex.I * w * pointDist x y = ((w * pointDist x y : ℝ) : ℂ) * Complex.I := by
        push_cast
        ring
      rw [this, Complex.norm_exp_ofReal_mul_I]
    simp only [helmholtzGreen]
    rw [norm_div, hexp, norm_mul, norm_mul, Complex.norm_real, Complex.norm_real, Real.norm_eq_abs, Real.norm_eq_abs,
      abs_of_nonneg hr, abs_of_pos hpi, one_div_mul_one_div]
    norm_num
  normal D := by
    refine ⟨(1 + |w| * D) * (1 / (4 * Real.pi)), fun x y n hD => ?_⟩
    have hr : 0 ≤ pointDist x y := Real.sqrt_nonneg _
    have hpi := Real.pi_pos
    have hexp : ‖Complex.exp (Complex.I * w * pointDist x y)‖ = 1 := by
      have : Complex.I * w * pointDist x y = ((w * pointDist x y : ℝ) : ℂ) * Complex.I := by
        push_cast
        ring
      rw [this, Complex.norm_exp_ofReal_mul_I]
    have e : helmholtzGreen w x y 1 * ((n 0 : ℝ) : ℂ) + helmholtzGreen w x y 2 * ((n 1 : ℝ) : ℂ) +
        helmholtzGreen w x y 3 * ((n 2 : ℝ) : ℂ) = (1 - Complex.I * w * pointDist x y) *
          Complex.exp (Complex.I * w * pointDist x y) *
          ((1 / (4 * Real.pi) * (dot3 n (pointDiff x y) / pointDist x y ^ 3) : ℝ) : ℂ) := by
      simp only [helmholtzGreen, dot3]
      push_cast
      by_cases h : (pointDist x y : ℂ) = 0
      · simp [h]
      · field_simp
    show ‖helmholtzGreen w x y 1 * ((n 0 : ℝ) : ℂ) + helmholtzGreen w x y 2 * ((n 1 : ℝ) : ℂ) +
        helmholtzGreen w x y 3 * ((n 2 : ℝ) : ℂ)‖ ≤ _
    rw [e, norm_mul, norm_mul, hexp, mul_one, Complex.norm_real, norm_ratio hr, mul_assoc (1 + |w| * D)]
    have h3 : 0 ≤ 1 / (4 * Real.pi) * (|dot3 n (pointDiff x y)| / pointDist x y ^ 3) := by positivity
    refine mul_le_mul_of_nonneg_right ?_ h3
    refine (norm_sub_le _ _).trans ?_
    rw [norm_one, norm_mul, norm_mul, Complex.norm_I, one_mul, Complex.norm_real, Complex.norm_real, Real.norm_eq_abs,
      Real.norm_eq_abs, abs_of_nonneg hr]
    exact add_le_add le_rfl (mul_le_mul_of_nonneg_left hD (abs_nonneg w))

/-! ### Cells given by their vertices -/

theorem norm3_mul_self (u : Nat → ℝ) : norm3 u * norm3 u = dot3 u u := by
  unfold norm3
  exact Real.mul_self_sqrt (dot3_self_nonneg u)

/-- The frame of a flat cell whose tangents are independent. -/
theorem flatFrame_of_cross {A B : Nat → ℝ} (h : norm3 (cross3 A B) ≠ 0) :
    ∃ U W, FlatFrame A B (fun i => cross3 A B i / norm3 (cross3 A B)) U W := by
  have hd : dot3 (cross3 A B) (cross3 A B) ≠ 0 := by
    rw [← norm3_mul_self]
    exact mul_ne_zero h h
  refine ⟨fun i => cross3 B (cross3 A B) i / dot3 (cross3 A B) (cross3 A B),
    fun i => cross3 (cross3 A B) A i / dot3 (cross3 A B) (cross3 A B), ?_, ?_, ?_, ?_, ?_, ?_, ?_⟩
  · simp only [dot3, cross3]
    ring
  · simp only [dot3, cross3]
    ring
  · have : dot3 (fun i => cross3 A B i / norm3 (cross3 A B)) (fun i => cross3 A B i / norm3 (cross3 A B)) =
        dot3 (cross3 A B) (cross3 A B) / (norm3 (cross3 A B) * norm3 (cross3 A B)) := by
      simp only [dot3]
      field_simp
    rw [this, norm3_mul_self, div_self hd]
  · have : dot3 (fun i => cross3 B (cross3 A B) i / dot3 (cross3 A B) (cross3 A B)) A =
        dot3 (cross3 A B) (cross3 A B) / dot3 (cross3 A B) (cross3 A B) := by
      rw [show dot3 (cross3 A B) (cross3 A B) / dot3 (cross3 A B) (cross3 A B) =
        dot3 (cross3 B (cross3 A B)) A / dot3 (cross3 A B) (cross3 A B) by
          congr 1
          simp only [dot3, cross3]
          ring]
      simp only [dot3]
      ring
    rw [this, div_self hd]
  · have : dot3 (fun i => cross3 B (cross3 A B) i / dot3 (cross3 A B) (cross3 A B)) B =
        dot3 (cross3 B (cross3 A B)) B / dot3 (cross3 A B) (cross3 A B) := by
      simp only [dot3]
      ring
    rw [this, _root_.div_eq_zero_iff]
    left
    simp only [dot3, cross3]
    ring
  · have : dot3 (fun i => cross3 (cross3 A B) A i / dot3 (cross3 A B) (cross3 A B)) A =
        dot3 (cross3 (cross3 A B) A) A / dot3 (cross3 A B) (cross3 A B) := by
      simp only [dot3]
      ring
    rw [this, _root_.div_eq_zero_iff]
    left
    simp only [dot3, cross3]
    ring
  · have : dot3 (fun i => cross3 (cross3 A B) A i / dot3 (cross3 A B) (cross3 A B)) B =
        dot3 (cross3 A B) (cross3 A B) / dot3 (cross3 A B) (cross3 A B) := by
      rw [show dot3 (cross3 A B) (cross3 A B) / dot3 (cross3 A B) (cross3 A B) =
        dot3 (cross3 (cross3 A B) A) B / dot3 (cross3 A B) (cross3 A B) by
          congr 1
          simp only [dot3, cross3]
          ring]
      simp only [dot3]
      ring
    rw [this, div_self hd]

/-- Triangles are flat. -/
theorem triangle_flat {V : Nat → Nat → Nat → ℝ} {c : Nat}
    (h : (vertexGeometry triangleFunctions V).jdet c (pointList (0, 0)) ≠ 0) :
    FlatCell (vertexGeometry triangleFunctions V) c := by
  have hA : ∀ z, (fun i => ((List.range triangleFunctions.n).map fun k =>
      triangleFunctions.deriv 0 k (pointList z) * V c k i).sum) = fun i => V c 1 i - V c 0 i := by
    intro z
    funext i
    simp [triangleFunctions, List.range_succ]
    ring
  have hB : ∀ z, (fun i => ((List.range triangleFunctions.n).map fun k =>
      triangleFunctions.deriv 1 k (pointList z) * V c k i).sum) = fun i => V c 2 i - V c 0 i := by
    intro z
    funext i
    simp [triangleFunctions, List.range_succ]
    ring
  have h' : norm3 (cross3 (fun i => V c 1 i - V c 0 i) (fun i => V c 2 i - V c 0 i)) ≠ 0 := by
    rw [← hA (0, 0), ← hB (0, 0)]
    exact h
  obtain ⟨U, W, hf⟩ := flatFrame_of_cross h'
  refine ⟨V c 0, _, _, _, U, W, hf, ?_, ?_⟩
  · intro z i _
    simp [vertexGeometry, triangleFunctions, List.range_succ, pointList, flatPoint]
    ring
  · intro z i _
    show cross3 _ _ i / norm3 (cross3 _ _) = _
    beta_reduce
    rw [hA z, hB z]

theorem cross3_congr {A B A' B' : Nat → ℝ} (hA : ∀ i, i < 3 → A i = A' i) (hB : ∀ i, i < 3 → B i = B' i) :
    cross3 A B = cross3 A' B' := by
  funext i
  match i with
  | 0 => simp only [cross3, hA 1 (by decide), hA 2 (by decide), hB 1 (by decide), hB 2 (by decide)]
  | 1 => simp only [cross3, hA 0 (by decide), hA 2 (by decide), hB 0 (by decide), hB 2 (by decide)]
  | _ + 2 => simp only [cross3, hA 0 (by decide), hA 1 (by decide), hB 0 (by decide), hB 1 (by decide)]

/-- Parallelograms are flat. -/
theorem parallelogram_flat {V : Nat → Nat → Nat → ℝ} {c : Nat}
    (hV : ∀ i, i < 3 → V c 3 i = V c 1 i + V c 2 i - V c 0 i)
    (h : (vertexGeometry quadrilateralFunctions V).jdet c (pointList (0, 0)) ≠ 0) :
    FlatCell (vertexGeometry quadrilateralFunctions V) c := by
  have hA : ∀ z i, i < 3 → ((List.range quadrilateralFunctions.n).map fun k =>
      quadrilateralFunctions.deriv 0 k (pointList z) * V c k i).sum = V c 1 i - V c 0 i := by
    intro z i hi
    simp [quadrilateralFunctions, List.range_succ, pointList, hV i hi]
    ring
  have hB : ∀ z i, i < 3 → ((List.range quadrilateralFunctions.n).map fun k =>
      quadrilateralFunctions.deriv 1 k (pointList z) * V c k i).sum = V c 2 i - V c 0 i := by
    intro z i hi
    simp [quadrilateralFunctions, List.range_succ, pointList, hV i hi]
    ring
  have hc : ∀ z, cross3 (fun i => ((List.range quadrilateralFunctions.n).map fun k =>
      quadrilateralFunctions.deriv 0 k (pointList z) * V c k i).sum) (fun i => ((List.range quadrilateralFunctions.n).map
        fun k => quadrilateralFunctions.deriv 1 k (pointList z) * V c k i).sum) =
      cross3 (fun i => V c 1 i - V c 0 i) (fun i => V c 2 i - V c 0 i) := fun z => cross3_congr (hA z) (hB z)
  have h' : norm3 (cross3 (fun i => V c 1 i - V c 0 i) (fun i => V c 2 i - V c 0 i)) ≠ 0 := by
    rw [← hc (0, 0)]
    exact h
  obtain ⟨U, W, hf⟩ := flatFrame_of_cross h'
  refine ⟨V c 0, _, _, _, U, W, hf, ?_, ?_⟩
  · intro z i hi
    simp [vertexGeometry, quadrilateralFunctions, List.range_succ, pointList, flatPoint, hV i hi]
    ring
  · intro z i _
    show cross3 _ _ i / norm3 (cross3 _ _) = _
    beta_reduce
    rw [hc z]

end Bempp
