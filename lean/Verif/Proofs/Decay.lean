import Verif.Spec.Decay
import Verif.Spec.Vertices
import Verif.Proofs.Values
import Verif.Proofs.PositiveSurface
import Verif.Props.Conjugate
/-
Lemmas for C107.
-/
namespace Bempp

theorem norm_sum_le_list {𝕜 α : Type} [SeminormedAddCommGroup 𝕜] (l : List α) (f : α → 𝕜) (g : α → ℝ)
    (h : ∀ x ∈ l, ‖f x‖ ≤ g x) : ‖(l.map f).sum‖ ≤ (l.map g).sum := by
  induction l with
  | nil => simp
  | cons x l ih =>
    rw [List.map_cons, List.map_cons, List.sum_cons, List.sum_cons]
    exact (norm_add_le _ _).trans (add_le_add (h x List.mem_cons_self) (ih fun y hy => h y (List.mem_cons_of_mem _ hy)))

/-- The sum over the cells and basis functions of a DOF. -/
def dofSum (fs : FunctionSpace) (f : Entity → Nat → ℝ) (i : Nat) : ℝ :=
  ((fs.grid.entityIter 2).map fun c => ((((fs.cellDofs c.localIndex).getD []).zipIdx).map fun (ia : Nat × Nat) =>
    if ia.1 = i then f c ia.2 else 0).sum).sum

theorem doubleSum_product (test trial : FunctionSpace) (f g : Entity → Nat → ℝ) (i j : Nat) :
    doubleSum test trial (fun c c' a b => f c a * g c' b) i j = dofSum test f i * dofSum trial g j := by
  unfold doubleSum dofSum
  rw [← sum_mul_sum_list]
  congr 2; funext c
  congr 2; funext c'
  rw [← sum_mul_sum_list]
  congr 2; funext x
  congr 2; funext y
  by_cases h1 : x.1 = i <;> by_cases h2 : y.1 = j <;> simp [h1, h2]

section
variable {𝕜 : Type} [RCLike 𝕜]

theorem doubleSum_norm_le_dofs {test trial : FunctionSpace} {v : Entity → Entity → Nat → Nat → 𝕜}
    {v' : Entity → Entity → Nat → Nat → ℝ} {i j : Nat}
    (h : ∀ c ∈ test.grid.entityIter 2, ∀ c' ∈ trial.grid.entityIter 2, i ∈ (test.cellDofs c.localIndex).getD [] →
      j ∈ (trial.cellDofs c'.localIndex).getD [] → ∀ a b, ‖v c c' a b‖ ≤ v' c c' a b) :
    ‖doubleSum test trial v i j‖ ≤ doubleSum test trial v' i j := by
  unfold doubleSum
  refine norm_sum_le_list _ _ _ fun c hc => norm_sum_le_list _ _ _ fun c' hc' => norm_sum_le_list _ _ _ fun x hx =>
    norm_sum_le_list _ _ _ fun y hy => ?_
  split
  next he =>
    refine h c hc c' hc' ?_ ?_ _ _
    · rw [← he.1]; exact List.fst_mem_of_mem_zipIdx hx
    · rw [← he.2]; exact List.fst_mem_of_mem_zipIdx hy
  · simp

/-- A product bound at all pairs of quadrature points gives a product bound for the quadrature value. -/
theorem regularValue_norm_le {F : MathIntegrand 𝕜} {K : MathKernel ℝ 𝕜} {GT GR : Geometry ℝ} {BT BR : Basis ℝ 𝕜}
    {Q : Quadrature ℝ} {t : CellType} {c c' a b : Nat} {k₁ k₂ : ℝ} {s₁ r₁ s₂ r₂ : Nat → Nat → List ℝ → ℝ}
    (h : ∀ p ∈ Q.regular t, ∀ q ∈ Q.regular t, ‖F (K (GT.coords c p.1) (GR.coords c' q.1)) (fun i => BT t a i p.1)
      (fun i => BR t b i q.1) (GT.data (fun r : ℝ => (r : 𝕜)) c p.1) (GR.data (fun r : ℝ => (r : 𝕜)) c' q.1)‖ ≤
      k₁ * (s₁ c a p.1 * r₁ c' b q.1) + k₂ * (s₂ c a p.1 * r₂ c' b q.1)) :
    ‖regularValue (fun r : ℝ => (r : 𝕜)) F K GT GR BT BR Q t t c c' a b‖ ≤
      k₁ * (((Q.regular t).map fun p => |p.2 * GT.jdet c p.1| * s₁ c a p.1).sum *
        ((Q.regular t).map fun q => |q.2 * GR.jdet c' q.1| * r₁ c' b q.1).sum) +
      k₂ * (((Q.regular t).map fun p => |p.2 * GT.jdet c p.1| * s₂ c a p.1).sum *
        ((Q.regular t).map fun q => |q.2 * GR.jdet c' q.1| * r₂ c' b q.1).sum) := by
  rw [regularValue_eq]
  have e : ∀ (f g : List ℝ × ℝ → ℝ) (k : ℝ), k * (((Q.regular t).map f).sum * ((Q.regular t).map g).sum) =
      ((Q.regular t).map fun p => ((Q.regular t).map fun q => k * (f p * g q)).sum).sum := by
    intro f g k
    rw [← sum_mul_sum_list, ← List.sum_map_mul_left]
    congr 2; funext p
    rw [← List.sum_map_mul_left]
  rw [e, e, ← List.sum_map_add]
  simp only [← List.sum_map_add]
  refine norm_sum_le_list _ _ _ fun p hp => norm_sum_le_list _ _ _ fun q hq => ?_
  unfold regularTerm
  rw [norm_mul, norm_mul, RCLike.norm_ofReal, RCLike.norm_ofReal]
  refine (mul_le_mul_of_nonneg_right (mul_le_mul_of_nonneg_right (h p hp q hq) (abs_nonneg _)) (abs_nonneg _)).trans
    (le_of_eq ?_)
  ring

theorem far_bound {F : MathIntegrand 𝕜} {K : MathKernel ℝ 𝕜} {GT GR : Geometry ℝ} {BT BR : Basis ℝ 𝕜}
    {Q : Quadrature ℝ} {t : CellType} {test trial : FunctionSpace} {i j : Nat} {d k₁ k₂ : ℝ}
    {s₁ r₁ s₂ r₂ : Nat → Nat → List ℝ → ℝ}
    (tt : ∀ c ∈ test.grid.entityIter 2, c.entityType = t) (rt : ∀ c ∈ trial.grid.entityIter 2, c.entityType = t)
    (hd : FarApart d test trial GT GR Q t i j)
    (h : ∀ c c' a b x y, d ≤ pointDist (GT.coords c x) (GR.coords c' y) →
      ‖F (K (GT.coords c x) (GR.coords c' y)) (fun i => BT t a i x)
      (fun i => BR t b i y) (GT.data (fun r : ℝ => (r : 𝕜)) c x) (GR.data (fun r : ℝ => (r : 𝕜)) c' y)‖ ≤
      k₁ * (s₁ c a x * r₁ c' b y) + k₂ * (s₂ c a x * r₂ c' b y)) :
    ‖doubleSum test trial (cellPairValue (fun r : ℝ => (r : 𝕜)) F K GT GR BT BR Q test trial) i j‖ ≤
      k₁ * (dofQuadrature test GT Q t s₁ i * dofQuadrature trial GR Q t r₁ j) +
      k₂ * (dofQuadrature test GT Q t s₂ i * dofQuadrature trial GR Q t r₂ j) := by
  have e : ∀ (s r : Nat → Nat → List ℝ → ℝ) (k : ℝ),
      k * (dofQuadrature test GT Q t s i * dofQuadrature trial GR Q t r j) =
      doubleSum test trial (fun c c' a b => k *
        (((Q.regular t).map fun p => |p.2 * GT.jdet c.localIndex p.1| * s c.localIndex a p.1).sum *
        ((Q.regular t).map fun q => |q.2 * GR.jdet c'.localIndex q.1| * r c'.localIndex b q.1).sum)) i j := by
    intro s r k
    rw [doubleSum_mul, doubleSum_product]
    rfl
  rw [e, e, ← doubleSum_add]
  refine doubleSum_norm_le_dofs fun c hc c' hc' hi hj a b => ?_
  obtain ⟨h1, h2⟩ := hd c hc c' hc' hi hj
  unfold cellPairValue
  rw [if_neg h1, tt c hc, rt c' hc']
  exact regularValue_norm_le fun p hp q hq => h _ _ _ _ _ _ (h2 p hp q hq)

/-! ### Integrands -/

theorem cauchy3 (a b : Nat → 𝕜) : ‖a 0 * b 0 + a 1 * b 1 + a 2 * b 2‖ ≤
    Real.sqrt (‖a 0‖ ^ 2 + ‖a 1‖ ^ 2 + ‖a 2‖ ^ 2) * Real.sqrt (‖b 0‖ ^ 2 + ‖b 1‖ ^ 2 + ‖b 2‖ ^ 2) := by
  have h1 : ‖a 0 * b 0 + a 1 * b 1 + a 2 * b 2‖ ≤ ‖a 0‖ * ‖b 0‖ + ‖a 1‖ * ‖b 1‖ + ‖a 2‖ * ‖b 2‖ := by
    refine (norm_add_le _ _).trans (add_le_add ((norm_add_le _ _).trans ?_) ?_)
    · rw [norm_mul, norm_mul]
    · rw [norm_mul]
  refine h1.trans ?_
  rw [← Real.sqrt_mul (by positivity)]
  refine Real.le_sqrt_of_sq_le ?_
  nlinarith [sq_nonneg (‖a 0‖ * ‖b 1‖ - ‖a 1‖ * ‖b 0‖), sq_nonneg (‖a 0‖ * ‖b 2‖ - ‖a 2‖ * ‖b 0‖),
    sq_nonneg (‖a 1‖ * ‖b 2‖ - ‖a 2‖ * ‖b 1‖)]

theorem cauchy3_unit (m n : Nat → ℝ) (h : m 0 ^ 2 + m 1 ^ 2 + m 2 ^ 2 ≤ 1) (h' : n 0 ^ 2 + n 1 ^ 2 + n 2 ^ 2 ≤ 1) :
    ‖((m 0 : ℝ) : 𝕜) * (n 0 : ℝ) + (m 1 : ℝ) * (n 1 : ℝ) + (m 2 : ℝ) * (n 2 : ℝ)‖ ≤ 1 := by
  have := cauchy3 (𝕜 := 𝕜) (fun k => (m k : ℝ)) (fun k => (n k : ℝ))
  simp only [RCLike.norm_ofReal, sq_abs] at this
  refine this.trans ?_
  exact mul_le_one₀ (Real.sqrt_le_one.mpr h) (Real.sqrt_nonneg _) (Real.sqrt_le_one.mpr h')

theorem gradient_norm_le (g : 𝕜) (x y : List ℝ) (n : Nat → ℝ) (h : n 0 ^ 2 + n 1 ^ 2 + n 2 ^ 2 ≤ 1) :
    ‖g * (pointDiff x y 0 : ℝ) * (n 0 : ℝ) + g * (pointDiff x y 1 : ℝ) * (n 1 : ℝ) +
      g * (pointDiff x y 2 : ℝ) * (n 2 : ℝ)‖ ≤ ‖g‖ * pointDist x y := by
  have := cauchy3 (𝕜 := 𝕜) (fun k => (pointDiff x y k : ℝ)) (fun k => (n k : ℝ))
  simp only [RCLike.norm_ofReal, sq_abs] at this
  rw [show g * (pointDiff x y 0 : ℝ) * (n 0 : ℝ) + g * (pointDiff x y 1 : ℝ) * (n 1 : ℝ) +
      g * (pointDiff x y 2 : ℝ) * (n 2 : ℝ) = g * (((pointDiff x y 0 : ℝ) : 𝕜) * (n 0 : ℝ) + (pointDiff x y 1 : ℝ) * (n 1 : ℝ) +
      (pointDiff x y 2 : ℝ) * (n 2 : ℝ)) by ring, norm_mul]
  refine mul_le_mul_of_nonneg_left (this.trans ?_) (norm_nonneg _)
  exact mul_le_of_le_one_right (Real.sqrt_nonneg _) (Real.sqrt_le_one.mpr h)

theorem vertexGeometry_unit (N : ShapeFunctions) (V : Nat → Nat → Nat → ℝ) : UnitNormals (vertexGeometry N V) := by
  intro c x
  simp only [vertexGeometry]
  generalize cross3 _ _ = u
  rw [div_pow, div_pow, div_pow, ← add_div, ← add_div]
  unfold norm3
  rw [Real.sq_sqrt (by nlinarith [mul_self_nonneg (u 0), mul_self_nonneg (u 1), mul_self_nonneg (u 2)])]
  rw [← sq, ← sq, ← sq]
  exact div_self_le_one _

end
end Bempp

namespace Bempp
section
variable {𝕜 : Type} [RCLike 𝕜]

/-- At distances of at least `d` the kernel is at most `k₀` and its gradient, which has the direction of the
difference of the points, at most `k₁`. -/
def FarKernel (K : MathKernel ℝ 𝕜) (d k₀ k₁ : ℝ) : Prop := ∀ x y, d ≤ pointDist x y → ‖K x y 0‖ ≤ k₀ ∧
  ∃ g : 𝕜, (∀ j, K x y (j + 1) = g * ((pointDiff x y j : ℝ) : 𝕜)) ∧ ‖g‖ * pointDist x y ≤ k₁

theorem laplace_far {d : ℝ} (hd : 0 < d) :
    FarKernel laplaceGreen d (1 / (4 * Real.pi * d)) (1 / (4 * Real.pi * d ^ 2)) := by
  intro x y h
  have hr : 0 < pointDist x y := hd.trans_le h
  have hp := Real.pi_pos
  refine ⟨?_, 1 / (4 * Real.pi * pointDist x y ^ 3), fun j => ?_, ?_⟩
  · rw [Real.norm_of_nonneg (laplaceGreen_nonneg _ _)]
    simp only [laplaceGreen]
    gcongr
  · simp only [laplaceGreen, RCLike.ofReal_real_eq_id, id]
    ring
  · rw [Real.norm_of_nonneg (by positivity), show 1 / (4 * Real.pi * pointDist x y ^ 3) * pointDist x y =
      1 / (4 * Real.pi * pointDist x y ^ 2) by field_simp]
    gcongr

theorem helmholtz_far (w : ℝ) {d : ℝ} (hd : 0 < d) :
    FarKernel (helmholtzGreen w) d (1 / (4 * Real.pi * d)) (Real.sqrt (1 + (w * d) ^ 2) / (4 * Real.pi * d ^ 2)) := by
  intro x y h
  have hr : 0 < pointDist x y := hd.trans_le h
  have hp := Real.pi_pos
  refine ⟨?_, (1 - Complex.I * w * pointDist x y) * Complex.exp (Complex.I * w * pointDist x y) /
    (4 * Real.pi * pointDist x y ^ 3), fun j => ?_, ?_⟩
  · rw [helmholtzGreen_norm]
    simp only [laplaceGreen]
    gcongr
  · simp only [helmholtzGreen, Complex.coe_algebraMap]
    exact mul_div_right_comm _ _ _
  · have e1 : ‖Complex.exp (Complex.I * (w : ℂ) * (pointDist x y : ℂ))‖ = 1 := by
      rw [show Complex.I * (w : ℂ) * (pointDist x y : ℂ) = ((w * pointDist x y : ℝ) : ℂ) * Complex.I by
        push_cast; ring, Complex.norm_exp_ofReal_mul_I]
    have e2 : ‖(1 : ℂ) - Complex.I * w * pointDist x y‖ = Real.sqrt (1 + (w * pointDist x y) ^ 2) := by
      rw [Complex.norm_def, Complex.normSq_apply]
      congr 1
      simp
      ring
    rw [norm_div, norm_mul, e1, e2, mul_one, norm_mul, norm_mul, norm_pow, Complex.norm_real, Complex.norm_real,
      Real.norm_of_nonneg hp.le, Real.norm_of_nonneg hr.le]
    rw [show ‖(4 : ℂ)‖ = 4 by norm_num]
    generalize pointDist x y = r at *
    rw [show Real.sqrt (1 + (w * r) ^ 2) / (4 * Real.pi * r ^ 3) * r = 1 / (4 * Real.pi) * (Real.sqrt (1 + (w * r) ^ 2) / r ^ 2) by
      field_simp, show Real.sqrt (1 + (w * d) ^ 2) / (4 * Real.pi * d ^ 2) =
        1 / (4 * Real.pi) * (Real.sqrt (1 + (w * d) ^ 2) / d ^ 2) by field_simp]
    refine mul_le_mul_of_nonneg_left ?_ (by positivity)
    have e : ∀ s : ℝ, 0 < s → Real.sqrt (1 + (w * s) ^ 2) / s ^ 2 = Real.sqrt (1 / s ^ 4 + w ^ 2 / s ^ 2) := by
      intro s hs
      rw [show 1 / s ^ 4 + w ^ 2 / s ^ 2 = (1 + (w * s) ^ 2) / (s ^ 2) ^ 2 by field_simp, Real.sqrt_div (by positivity),
        Real.sqrt_sq (by positivity)]
    rw [e r hr, e d hd]
    gcongr

variable {K : MathKernel ℝ 𝕜} {d k₀ k₁ : ℝ} {GT GR : Geometry ℝ} {BT BR : Basis ℝ 𝕜} {t : CellType}

theorem slF_far (hK : FarKernel K d k₀ k₁) (c c' a b : Nat) (x y : List ℝ)
    (h : d ≤ pointDist (GT.coords c x) (GR.coords c' y)) (TG RG : PointData 𝕜) :
    ‖slF (K (GT.coords c x) (GR.coords c' y)) (fun i => BT t a i x) (fun i => BR t b i y) TG RG‖ ≤
      k₀ * (‖BT t a 0 x‖ * ‖BR t b 0 y‖) := by
  unfold slF
  rw [norm_mul, norm_mul, mul_assoc]
  exact mul_le_mul_of_nonneg_right (hK _ _ h).1 (by positivity)

theorem dlF_far (hK : FarKernel K d k₀ k₁) (hn : UnitNormals GR) (c c' a b : Nat) (x y : List ℝ)
    (h : d ≤ pointDist (GT.coords c x) (GR.coords c' y)) (TG : PointData 𝕜) :
    ‖dlF (K (GT.coords c x) (GR.coords c' y)) (fun i => BT t a i x) (fun i => BR t b i y) TG
      (GR.data (fun r : ℝ => (r : 𝕜)) c' y)‖ ≤ k₁ * (‖BT t a 0 x‖ * ‖BR t b 0 y‖) := by
  unfold dlF
  rw [norm_mul, norm_mul, mul_assoc]
  obtain ⟨_, g, h1, h2⟩ := hK _ _ h
  refine mul_le_mul_of_nonneg_right (le_trans ?_ h2) (by positivity)
  rw [h1 0, h1 1, h1 2]
  exact gradient_norm_le g _ _ _ (hn c' y)

theorem adlF_far (hK : FarKernel K d k₀ k₁) (hn : UnitNormals GT) (c c' a b : Nat) (x y : List ℝ)
    (h : d ≤ pointDist (GT.coords c x) (GR.coords c' y)) (RG : PointData 𝕜) :
    ‖adlF (K (GT.coords c x) (GR.coords c' y)) (fun i => BT t a i x) (fun i => BR t b i y)
      (GT.data (fun r : ℝ => (r : 𝕜)) c x) RG‖ ≤ k₁ * (‖BT t a 0 x‖ * ‖BR t b 0 y‖) := by
  unfold adlF
  rw [norm_mul, norm_mul, norm_neg, mul_assoc]
  obtain ⟨_, g, h1, h2⟩ := hK _ _ h
  refine mul_le_mul_of_nonneg_right (le_trans ?_ h2) (by positivity)
  rw [h1 0, h1 1, h1 2]
  exact gradient_norm_le g _ _ _ (hn c x)

theorem curlCurlF_far (hK : FarKernel K d k₀ k₁) (c c' a b : Nat) (x y : List ℝ)
    (h : d ≤ pointDist (GT.coords c x) (GR.coords c' y)) :
    ‖curlCurlF (K (GT.coords c x) (GR.coords c' y)) (fun i => BT t a i x) (fun i => BR t b i y)
      (GT.data (fun r : ℝ => (r : 𝕜)) c x) (GR.data (fun r : ℝ => (r : 𝕜)) c' y)‖ ≤
      k₀ * (curlSize GT BT t c a x * curlSize GR BR t c' b y) := by
  unfold curlCurlF curlSize
  rw [norm_div, norm_div, norm_mul]
  have e1 : ‖(GT.data (fun r : ℝ => (r : 𝕜)) c x).jdet‖ = |GT.jdet c x| := RCLike.norm_ofReal _
  have e2 : ‖(GR.data (fun r : ℝ => (r : 𝕜)) c' y).jdet‖ = |GR.jdet c' y| := RCLike.norm_ofReal _
  rw [e1, e2, div_div, div_mul_div_comm, ← mul_div_assoc]
  refine div_le_div_of_nonneg_right ?_ (by positivity)
  exact mul_le_mul (hK _ _ h).1 (cauchy3 _ _) (norm_nonneg _) ((norm_nonneg _).trans (hK _ _ h).1)

theorem helmholtzHypF_far {w : ℝ} (hK : FarKernel K d k₀ k₁) (hT : UnitNormals GT) (hR : UnitNormals GR)
    (c c' a b : Nat) (x y : List ℝ) (h : d ≤ pointDist (GT.coords c x) (GR.coords c' y)) :
    ‖helmholtzHypF (fun r : ℝ => (r : 𝕜)) w (K (GT.coords c x) (GR.coords c' y)) (fun i => BT t a i x) (fun i => BR t b i y)
      (GT.data (fun r : ℝ => (r : 𝕜)) c x) (GR.data (fun r : ℝ => (r : 𝕜)) c' y)‖ ≤
      k₀ * (curlSize GT BT t c a x * curlSize GR BR t c' b y) + w ^ 2 * k₀ * (‖BT t a 0 x‖ * ‖BR t b 0 y‖) := by
  unfold helmholtzHypF
  refine (norm_add_le _ _).trans (add_le_add (curlCurlF_far hK c c' a b x y h) ?_)
  unfold normalNormalF
  rw [norm_mul, norm_mul, norm_mul, norm_mul, RCLike.norm_ofReal, abs_neg, abs_mul_self, ← sq, mul_assoc (w ^ 2)]
  refine mul_le_mul_of_nonneg_left ?_ (by positivity)
  rw [mul_assoc]
  refine mul_le_mul_of_nonneg_right ?_ (by positivity)
  have := cauchy3_unit (𝕜 := 𝕜) (fun k => GR.normal c' y k) (fun k => GT.normal c x k) (hR c' y) (hT c x)
  calc _ ≤ k₀ * 1 := mul_le_mul (hK _ _ h).1 this (norm_nonneg _) ((norm_nonneg _).trans (hK _ _ h).1)
    _ = k₀ := mul_one _

end
end Bempp
