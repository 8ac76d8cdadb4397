import Verif.Proofs.Stokes
import Mathlib.Analysis.SpecialFunctions.ImproperIntegrals
import Mathlib.MeasureTheory.Measure.Lebesgue.EqHaar
/-
The solid angle of a closed surface, seen from a point on one of its triangles.
-/
namespace Bempp
open MeasureTheory Set Filter Topology

/-- A quadratic with positive discriminant `E = A C - B²` is positive. -/
theorem quadratic_pos {A B C : ℝ} (hA : 0 < A) (hE : 0 < A * C - B * B) (u : ℝ) : 0 < A * u ^ 2 + 2 * B * u + C := by
  have : 0 < A * (A * u ^ 2 + 2 * B * u + C) := by nlinarith [sq_nonneg (A * u + B)]
  exact pos_of_mul_pos_right this hA.le

theorem quadratic_tendsto {A B C : ℝ} (hA : 0 < A) {l : Filter ℝ} (hl : Tendsto (fun u : ℝ => (A * u + B) ^ 2) l atTop) :
    Tendsto (fun u : ℝ => A * u ^ 2 + 2 * B * u + C) l atTop := by
  have : (fun u : ℝ => A * u ^ 2 + 2 * B * u + C) = fun u => A⁻¹ * (A * u + B) ^ 2 + (C - A⁻¹ * B ^ 2) := by
    funext u
    field_simp
    ring
  rw [this]
  exact tendsto_atTop_add_const_right _ _ (hl.const_mul_atTop (inv_pos.mpr hA))

theorem square_top {A : ℝ} (hA : 0 < A) (B : ℝ) : Tendsto (fun u : ℝ => (A * u + B) ^ 2) atTop atTop :=
  (tendsto_pow_atTop two_ne_zero).comp (tendsto_atTop_add_const_right _ _ (tendsto_id.const_mul_atTop hA))

theorem square_bot {A : ℝ} (hA : 0 < A) (B : ℝ) : Tendsto (fun u : ℝ => (A * u + B) ^ 2) atBot atTop := by
  have := (square_top hA (-B)).comp tendsto_neg_atBot_atTop
  refine this.congr fun u => ?_
  simp only [Function.comp_apply]
  ring

/-- `∫ du / (A u² + 2 B u + C)^(3/2) = 2 √A / (A C - B²)`. -/
theorem integral_inverse_cube {A B C : ℝ} (hA : 0 < A) (hE : 0 < A * C - B * B) :
    Integrable (fun u : ℝ => 1 / Real.sqrt (A * u ^ 2 + 2 * B * u + C) ^ 3) ∧
    ∫ u : ℝ, 1 / Real.sqrt (A * u ^ 2 + 2 * B * u + C) ^ 3 = 2 * Real.sqrt A / (A * C - B * B) := by
  set E := A * C - B * B with hEdef
  let q : ℝ → ℝ := fun u => A * u ^ 2 + 2 * B * u + C
  have hq : ∀ u, 0 < q u := quadratic_pos hA hE
  let G : ℝ → ℝ := fun u => (A * u + B) / (E * Real.sqrt (q u))
  have hG : ∀ u, HasDerivAt G (1 / Real.sqrt (q u) ^ 3) u := by
    intro u
    have hs := Real.sqrt_pos.mpr (hq u)
    have h2 := Real.sq_sqrt (hq u).le
    have hdq : HasDerivAt q (2 * (A * u + B)) u := by
      refine ((((hasDerivAt_id u).fun_pow 2).const_mul A).add ((hasDerivAt_id u).const_mul (2 * B))).add_const C
        |>.congr_deriv ?_
      simp only [id, Nat.cast_ofNat, Nat.add_one_sub_one, pow_one, mul_one]
      ring
    have hd := ((hasDerivAt_id u).const_mul A).add_const B
    refine (hd.div ((hdq.sqrt (hq u).ne').const_mul E) (by positivity)).congr_deriv ?_
    simp only [id, mul_one]
    field_simp
    rw [h2]
    show A * q u - (A * u + B) ^ 2 = E
    show A * (A * u ^ 2 + 2 * B * u + C) - (A * u + B) ^ 2 = E
    rw [hEdef]
    ring
  have habs : ∀ u, |G u| = Real.sqrt (A / E ^ 2 - 1 / (E * q u)) := by
    intro u
    have hs := Real.sqrt_pos.mpr (hq u)
    have h2 := Real.sq_sqrt (hq u).le
    rw [← Real.sqrt_sq_eq_abs]
    congr 1
    show ((A * u + B) / (E * Real.sqrt (q u))) ^ 2 = _
    rw [div_pow, mul_pow, h2]
    have := (hq u).ne'
    field_simp
    show (A * u + B) ^ 2 = A * (A * u ^ 2 + 2 * B * u + C) - E
    rw [hEdef]
    ring
  have hlim : ∀ l : Filter ℝ, Tendsto (fun u : ℝ => (A * u + B) ^ 2) l atTop →
      Tendsto (fun u => |G u|) l (𝓝 (Real.sqrt A / E)) := by
    intro l hl
    have h1 : Tendsto (fun u => 1 / (E * q u)) l (𝓝 0) := by
      simp only [one_div]
      exact ((quadratic_tendsto hA hl).const_mul_atTop hE).inv_tendsto_atTop
    have h2 := (Real.continuous_sqrt.tendsto _).comp (tendsto_const_nhds (x := A / E ^ 2) |>.sub h1)
    rw [sub_zero, Real.sqrt_div hA.le, Real.sqrt_sq hE.le] at h2
    exact h2.congr fun u => (habs u).symm
  have htop : Tendsto G atTop (𝓝 (Real.sqrt A / E)) := by
    refine (hlim _ (square_top hA B)).congr' ?_
    filter_upwards [eventually_ge_atTop (-B / A)] with u hu
    refine abs_of_nonneg (div_nonneg ?_ (mul_nonneg hE.le (Real.sqrt_nonneg _)))
    rw [div_le_iff₀ hA] at hu
    linarith
  have hbot : Tendsto G atBot (𝓝 (-(Real.sqrt A / E))) := by
    refine (hlim _ (square_bot hA B)).neg.congr' ?_
    filter_upwards [eventually_le_atBot (-B / A)] with u hu
    rw [abs_of_nonpos, neg_neg]
    refine div_nonpos_of_nonpos_of_nonneg ?_ (mul_nonneg hE.le (Real.sqrt_nonneg _))
    rw [le_div_iff₀ hA] at hu
    linarith
  have hnn : ∀ u, 0 ≤ 1 / Real.sqrt (q u) ^ 3 := fun u => by positivity
  have hint : Integrable fun u => 1 / Real.sqrt (q u) ^ 3 := by
    rw [← integrableOn_univ, ← Iic_union_Ioi (a := (0 : ℝ))]
    refine IntegrableOn.union ?_ ?_
    · have hn : IntegrableOn (fun u => 1 / Real.sqrt (q (-u)) ^ 3) (Ioi 0) := by
        refine integrableOn_Ioi_deriv_of_nonneg' (g := fun u => -G (-u)) (fun u _ => ?_) (fun u _ => hnn (-u))
          ((hbot.comp tendsto_neg_atTop_atBot).neg)
        have h1 : HasDerivAt (fun u => G (-u)) (1 / Real.sqrt (q (-u)) ^ 3 * -1) u := (hG (-u)).comp u (hasDerivAt_neg u)
        exact h1.fun_neg.congr_deriv (by ring)
      rw [integrableOn_Iic_iff_integrableOn_Iio]
      refine ((Measure.measurePreserving_neg (volume : Measure ℝ)).integrableOn_comp_preimage
        (Homeomorph.neg ℝ).measurableEmbedding).mp ?_
      rwa [show (Neg.neg ⁻¹' Iio (0 : ℝ)) = Ioi 0 by ext u; simp]
    · exact integrableOn_Ioi_deriv_of_nonneg' (fun u _ => hG u) (fun u _ => hnn u) htop
  refine ⟨hint, ?_⟩
  have := integral_of_hasDerivAt_of_tendsto hG hint hbot htop
  rw [show (fun u : ℝ => 1 / Real.sqrt (A * u ^ 2 + 2 * B * u + C) ^ 3) = fun u => 1 / Real.sqrt (q u) ^ 3 from rfl, this]
  ring

/-- `∫ du / (A u² + 2 B u + C) = π / √(A C - B²)`. -/
theorem integral_inverse_quadratic {A B C : ℝ} (hA : 0 < A) (hE : 0 < A * C - B * B) :
    Integrable (fun u : ℝ => 1 / (A * u ^ 2 + 2 * B * u + C)) ∧
    ∫ u : ℝ, 1 / (A * u ^ 2 + 2 * B * u + C) = Real.pi / Real.sqrt (A * C - B * B) := by
  set E := A * C - B * B with hEdef
  have hs := Real.sqrt_pos.mpr hE
  have h2 := Real.sq_sqrt hE.le
  have e : (fun u : ℝ => 1 / (A * u ^ 2 + 2 * B * u + C)) =
      fun u => A / E * (1 + (A / Real.sqrt E * (u + B / A)) ^ 2)⁻¹ := by
    funext u
    have hq := quadratic_pos hA hE u
    have : 1 + (A / Real.sqrt E * (u + B / A)) ^ 2 = A * (A * u ^ 2 + 2 * B * u + C) / E := by
      rw [mul_pow, div_pow, h2]
      field_simp
      rw [hEdef]
      ring
    rw [this]
    field_simp
  rw [e]
  have hne : A / Real.sqrt E ≠ 0 := (div_pos hA hs).ne'
  constructor
  · refine Integrable.const_mul ?_ _
    exact ((integrable_inv_one_add_sq.comp_mul_left' hne).comp_add_right (B / A))
  · rw [integral_const_mul, integral_add_right_eq_self (fun u : ℝ => (1 + (A / Real.sqrt E * u) ^ 2)⁻¹) (B / A),
      Measure.integral_comp_mul_left (fun u : ℝ => (1 + u ^ 2)⁻¹), integral_univ_inv_one_add_sq, abs_of_pos (by positivity),
      smul_eq_mul]
    field_simp
    rw [h2]

/-- The flux of the field through a whole plane is `2 π`. -/
theorem plane_flux {a b x : Vec} (hd : 0 < x.dot (a.cross b)) :
    Integrable (fun p : ℝ × ℝ => (x - (p.1 • a + p.2 • b)).field (a.cross b)) ∧
    ∫ p : ℝ × ℝ, (x - (p.1 • a + p.2 • b)).field (a.cross b) = 2 * Real.pi := by
  set d := x.dot (a.cross b) with hddef
  have hA : 0 < b.dot b := by
    refine lt_of_le_of_ne (dot_self_nonneg b) fun h => hd.ne' ?_
    have : b = 0 := Vec.len_eq_zero.mp (by rw [Vec.len, ← h, Real.sqrt_zero])
    rw [hddef, this]
    simp [Vec.dot, Vec.cross]
  have hN : 0 < a.dot a * b.dot b - a.dot b * a.dot b := by
    have e : a.dot a * b.dot b - a.dot b * a.dot b = (a.cross b).dot (a.cross b) := by
      simp only [Vec.dot, Vec.cross]
      ring
    rw [e]
    refine lt_of_le_of_ne (dot_self_nonneg _) fun h => hd.ne' ?_
    have : a.cross b = 0 := Vec.len_eq_zero.mp (by rw [Vec.len, ← h, Real.sqrt_zero])
    rw [hddef, this]
    simp [Vec.dot]
  set α := a.dot a * b.dot b - a.dot b * a.dot b
  let β := a.dot b * x.dot b - b.dot b * x.dot a
  let γ := b.dot b * x.dot x - x.dot b * x.dot b
  have hΔ : α * γ - β * β = b.dot b * d ^ 2 := by
    simp only [α, β, γ, hddef, Vec.dot, Vec.cross]
    ring
  have hΔ' : 0 < α * γ - β * β := by
    rw [hΔ]
    positivity
  have hE : ∀ s : ℝ, b.dot b * (s ^ 2 * a.dot a - 2 * s * x.dot a + x.dot x) -
      (s * a.dot b - x.dot b) * (s * a.dot b - x.dot b) = α * s ^ 2 + 2 * β * s + γ := by
    intro s
    simp only [α, β, γ]
    ring
  have hf : ∀ p : ℝ × ℝ, (x - (p.1 • a + p.2 • b)).field (a.cross b) = d * (1 / Real.sqrt (b.dot b * p.2 ^ 2 +
      2 * (p.1 * a.dot b - x.dot b) * p.2 + (p.1 ^ 2 * a.dot a - 2 * p.1 * x.dot a + x.dot x)) ^ 3) := by
    intro p
    have e1 : (x - (p.1 • a + p.2 • b)).dot (a.cross b) = d := by
      simp only [hddef, Vec.dot, Vec.cross, Prod.fst_sub, Prod.snd_sub, Prod.fst_add, Prod.snd_add, Prod.smul_fst,
        Prod.smul_snd, smul_eq_mul]
      ring
    rw [Vec.field, e1, Vec.len, mul_one_div]
    congr 4
    simp only [Vec.dot, Prod.fst_sub, Prod.snd_sub, Prod.fst_add, Prod.snd_add, Prod.smul_fst, Prod.smul_snd, smul_eq_mul]
    ring
  have hEpos : ∀ s : ℝ, 0 < α * s ^ 2 + 2 * β * s + γ := quadratic_pos hN hΔ'
  have inner := fun s : ℝ => integral_inverse_cube (A := b.dot b) (B := s * a.dot b - x.dot b)
    (C := s ^ 2 * a.dot a - 2 * s * x.dot a + x.dot x) hA (by rw [hE]; exact hEpos s)
  obtain ⟨o1, o2⟩ := integral_inverse_quadratic hN hΔ'
  have hmeas : Measurable fun p : ℝ × ℝ => d * (1 / Real.sqrt (b.dot b * p.2 ^ 2 +
      2 * (p.1 * a.dot b - x.dot b) * p.2 + (p.1 ^ 2 * a.dot a - 2 * p.1 * x.dot a + x.dot x)) ^ 3) := by
    fun_prop
  simp only [hf]
  have hint : Integrable fun p : ℝ × ℝ => d * (1 / Real.sqrt (b.dot b * p.2 ^ 2 +
      2 * (p.1 * a.dot b - x.dot b) * p.2 + (p.1 ^ 2 * a.dot a - 2 * p.1 * x.dot a + x.dot x)) ^ 3) := by
    rw [Measure.volume_eq_prod, integrable_prod_iff hmeas.aestronglyMeasurable]
    refine ⟨ae_of_all _ fun s => (inner s).1.const_mul d, ?_⟩
    refine (o1.const_mul (d * (2 * Real.sqrt (b.dot b)))).congr (ae_of_all _ fun s => ?_)
    simp only
    rw [show (fun t : ℝ => ‖d * (1 / Real.sqrt (b.dot b * t ^ 2 + 2 * (s * a.dot b - x.dot b) * t +
        (s ^ 2 * a.dot a - 2 * s * x.dot a + x.dot x)) ^ 3)‖) = fun t : ℝ => d * (1 / Real.sqrt (b.dot b * t ^ 2 +
        2 * (s * a.dot b - x.dot b) * t + (s ^ 2 * a.dot a - 2 * s * x.dot a + x.dot x)) ^ 3) from
      funext fun t => Real.norm_of_nonneg (by positivity), integral_const_mul, (inner s).2, hE]
    ring
  refine ⟨hint, ?_⟩
  rw [Measure.volume_eq_prod] at hint ⊢
  rw [integral_prod _ hint]
  have : ∀ s : ℝ, ∫ t : ℝ, d * (1 / Real.sqrt (b.dot b * t ^ 2 + 2 * (s * a.dot b - x.dot b) * t +
      (s ^ 2 * a.dot a - 2 * s * x.dot a + x.dot x)) ^ 3) = d * (2 * Real.sqrt (b.dot b)) *
        (1 / (α * s ^ 2 + 2 * β * s + γ)) := by
    intro s
    rw [integral_const_mul, (inner s).2, hE]
    ring
  simp only [this]
  rw [integral_const_mul, o2, hΔ, Real.sqrt_mul hA.le, Real.sqrt_sq hd.le]
  have := Real.sqrt_pos.mpr hA
  field_simp


theorem Vec.field_smul {r : ℝ} (hr : 0 < r) (z N : Vec) : (r • z).field N = (r ^ 2)⁻¹ * z.field N := by
  have hl : (r • z).len = r * z.len := by
    unfold Vec.len
    rw [← Real.sqrt_sq hr.le, ← Real.sqrt_mul (sq_nonneg r), Real.sqrt_sq hr.le]
    congr 1
    simp only [Vec.dot, Prod.smul_fst, Prod.smul_snd, smul_eq_mul]
    ring
  have hd : (r • z).dot N = r * z.dot N := by
    simp only [Vec.dot, Prod.smul_fst, Prod.smul_snd, smul_eq_mul]
    ring
  unfold Vec.field
  rw [hl, hd, mul_pow]
  by_cases hz : z.len = 0
  · simp [hz]
  · field_simp

/-- The flux through a triangle, from points that approach an interior point of the triangle along a straight line. -/
theorem flux_approach {P Q R w : Vec} {z₀ : ℝ × ℝ} {L : ℝ} (hz : z₀ ∈ interior (refCell .triangle))
    (hint : Integrable (fun p : ℝ × ℝ => (w - (p.1 • (Q - P) + p.2 • (R - P))).field ((Q - P).cross (R - P))))
    (hval : ∫ p : ℝ × ℝ, (w - (p.1 • (Q - P) + p.2 • (R - P))).field ((Q - P).cross (R - P)) = L) :
    Tendsto (fun m : ℝ => flux P Q R (triPoint P Q R z₀ + m • w)) (𝓝[>] 0) (𝓝 L) := by
  set x := triPoint P Q R z₀ with hx
  set a := Q - P
  set b := R - P
  let Φ : ℝ × ℝ → ℝ := fun p => (w - (p.1 • a + p.2 • b)).field (a.cross b)
  -- change of variables
  have hsub : ∀ m : ℝ, 0 < m → flux P Q R (x + m • w) =
      ∫ p : ℝ × ℝ, (refCell .triangle).indicator (fun _ => (1 : ℝ)) (z₀ + m • p) * Φ p := by
    intro m hm
    unfold flux
    rw [← integral_indicator (refCell_measurable _), ← integral_add_left_eq_self _ z₀]
    have := Measure.integral_comp_smul (μ := (volume : Measure (ℝ × ℝ))) (fun p => (refCell .triangle).indicator
      (fun z => (x + m • w - triPoint P Q R z).field (a.cross b)) (z₀ + p)) m
    rw [Module.finrank_prod, Module.finrank_self, abs_of_pos (by positivity), smul_eq_mul, eq_inv_mul_iff_mul_eq₀
      (by positivity)] at this
    rw [← this, ← integral_const_mul]
    congr 1
    funext p
    by_cases hp : z₀ + m • p ∈ refCell .triangle
    · rw [indicator_of_mem hp, indicator_of_mem hp, one_mul]
      have e : x + m • w - triPoint P Q R (z₀ + m • p) = m • (w - (p.1 • a + p.2 • b)) := by
        rw [hx]
        unfold triPoint
        ext <;> simp [a, b] <;> ring
      rw [e, Vec.field_smul hm]
      simp only [Φ]
      field_simp
    · rw [indicator_of_notMem hp, indicator_of_notMem hp, mul_zero, zero_mul]
  have hlim : Tendsto (fun m : ℝ => ∫ p : ℝ × ℝ, (refCell .triangle).indicator (fun _ => (1 : ℝ)) (z₀ + m • p) * Φ p)
      (𝓝[>] 0) (𝓝 (∫ p, Φ p)) := by
    refine tendsto_integral_filter_of_dominated_convergence (fun p => ‖Φ p‖) ?_ ?_ hint.norm ?_
    · refine Eventually.of_forall fun m => AEStronglyMeasurable.mul ?_ hint.aestronglyMeasurable
      exact ((measurable_const.indicator (refCell_measurable _)).comp (by fun_prop)).aestronglyMeasurable
    · refine Eventually.of_forall fun m => ae_of_all _ fun p => ?_
      rw [norm_mul]
      refine mul_le_of_le_one_left (norm_nonneg _) ?_
      by_cases hp : z₀ + m • p ∈ refCell .triangle
      · rw [indicator_of_mem hp]; simp
      · rw [indicator_of_notMem hp]; simp
    · refine ae_of_all _ fun p => ?_
      refine tendsto_const_nhds.congr' ?_
      have hc : Tendsto (fun m : ℝ => z₀ + m • p) (𝓝[>] 0) (𝓝 z₀) := by
        have : Continuous fun m : ℝ => z₀ + m • p := by fun_prop
        have := this.tendsto 0
        rw [zero_smul, add_zero] at this
        exact this.mono_left nhdsWithin_le_nhds
      filter_upwards [hc (mem_interior_iff_mem_nhds.mp hz)] with m hm
      rw [indicator_of_mem (show z₀ + m • p ∈ refCell .triangle from hm), one_mul]
  rw [hval] at hlim
  refine hlim.congr' ?_
  filter_upwards [self_mem_nhdsWithin] with m hm
  exact (hsub m (mem_Ioi.mp hm)).symm

/-- When a point approaches an interior point of a triangle from outside, the flux tends to `2 π`. -/
theorem flux_limit {P Q R : Vec} {z₀ : ℝ × ℝ} (hz : z₀ ∈ interior (refCell .triangle))
    (hd : 0 < (triPoint P Q R z₀).dot ((Q - P).cross (R - P))) :
    Tendsto (fun r : ℝ => flux P Q R (r • triPoint P Q R z₀)) (𝓝[>] 1) (𝓝 (2 * Real.pi)) := by
  obtain ⟨hint, hval⟩ := plane_flux hd
  have hshift : Tendsto (fun r : ℝ => r - 1) (𝓝[>] 1) (𝓝[>] 0) := by
    refine tendsto_nhdsWithin_iff.mpr ⟨?_, ?_⟩
    · have : Tendsto (fun r : ℝ => r - 1) (𝓝 1) (𝓝 (1 - 1)) := (continuous_id.sub continuous_const).tendsto 1
      rw [sub_self] at this
      exact this.mono_left nhdsWithin_le_nhds
    · filter_upwards [self_mem_nhdsWithin] with r hr
      exact sub_pos.mpr (mem_Ioi.mp hr)
  refine ((flux_approach hz hint hval).comp hshift).congr fun r => ?_
  simp only [Function.comp_apply]
  congr 1
  rw [sub_smul, one_smul, add_sub_cancel]

/-- When a point approaches an interior point of a triangle from inside, the flux tends to `-2 π`. -/
theorem flux_limit_inside {P Q R : Vec} {z₀ : ℝ × ℝ} (hz : z₀ ∈ interior (refCell .triangle))
    (hd : 0 < (triPoint P Q R z₀).dot ((Q - P).cross (R - P))) :
    Tendsto (fun r : ℝ => flux P Q R (r • triPoint P Q R z₀)) (𝓝[<] 1) (𝓝 (-(2 * Real.pi))) := by
  obtain ⟨hint, hval⟩ := plane_flux hd
  have e : ∀ p : ℝ × ℝ, (-triPoint P Q R z₀ - (p.1 • (Q - P) + p.2 • (R - P))).field ((Q - P).cross (R - P)) =
      -(triPoint P Q R z₀ - ((-p).1 • (Q - P) + (-p).2 • (R - P))).field ((Q - P).cross (R - P)) := by
    intro p
    rw [show -triPoint P Q R z₀ - (p.1 • (Q - P) + p.2 • (R - P)) =
      -(triPoint P Q R z₀ - ((-p).1 • (Q - P) + (-p).2 • (R - P))) by simp; abel]
    generalize triPoint P Q R z₀ - ((-p).1 • (Q - P) + (-p).2 • (R - P)) = y
    have h1 : Vec.len (-y) = y.len := by simp [Vec.len, Vec.dot]
    have h2 : ∀ N : Vec, Vec.dot (-y) N = -y.dot N := fun N => by
      simp only [Vec.dot, Prod.fst_neg, Prod.snd_neg]
      ring
    rw [Vec.field, Vec.field, h1, h2, neg_div]
  have hint' : Integrable (fun p : ℝ × ℝ =>
      (-triPoint P Q R z₀ - (p.1 • (Q - P) + p.2 • (R - P))).field ((Q - P).cross (R - P))) := by
    simp only [e]
    exact (hint.comp_neg).neg
  have hval' : ∫ p : ℝ × ℝ, (-triPoint P Q R z₀ - (p.1 • (Q - P) + p.2 • (R - P))).field ((Q - P).cross (R - P)) =
      -(2 * Real.pi) := by
    simp only [e]
    rw [integral_neg, ← hval]
    congr 1
    exact integral_neg_eq_self (fun p : ℝ × ℝ =>
      (triPoint P Q R z₀ - (p.1 • (Q - P) + p.2 • (R - P))).field ((Q - P).cross (R - P))) _
  have hshift : Tendsto (fun r : ℝ => 1 - r) (𝓝[<] 1) (𝓝[>] 0) := by
    refine tendsto_nhdsWithin_iff.mpr ⟨?_, ?_⟩
    · have : Tendsto (fun r : ℝ => 1 - r) (𝓝 1) (𝓝 (1 - 1)) := (continuous_const.sub continuous_id).tendsto 1
      rw [sub_self] at this
      exact this.mono_left nhdsWithin_le_nhds
    · filter_upwards [self_mem_nhdsWithin] with r hr
      exact sub_pos.mpr (mem_Iio.mp hr)
  refine ((flux_approach hz hint' hval').comp hshift).congr fun r => ?_
  simp only [Function.comp_apply]
  congr 1
  rw [sub_smul, one_smul, smul_neg]
  abel

/-- A point of the plane of a triangle sees nothing of it. -/
theorem flux_plane (P Q R : Vec) (z₀ : ℝ × ℝ) : flux P Q R (triPoint P Q R z₀) = 0 := by
  unfold flux
  rw [show (fun z => (triPoint P Q R z₀ - triPoint P Q R z).field ((Q - P).cross (R - P))) = fun _ => (0 : ℝ) from ?_]
  · simp
  funext z
  unfold Vec.field
  rw [show (triPoint P Q R z₀ - triPoint P Q R z).dot ((Q - P).cross (R - P)) = 0 from ?_, zero_div]
  simp only [triPoint, Vec.dot, Vec.cross, Prod.fst_sub, Prod.snd_sub, Prod.fst_add, Prod.snd_add, Prod.smul_fst,
    Prod.smul_snd, smul_eq_mul]
  ring

theorem Vec.norm_le_len (z : Vec) : ‖z‖ ≤ z.len := by
  have h : ∀ y : ℝ, y * y ≤ z.dot z → ‖y‖ ≤ z.len := fun y hy => by
    rw [Real.norm_eq_abs, ← Real.sqrt_mul_self_eq_abs]
    exact Real.sqrt_le_sqrt hy
  have h0 := mul_self_nonneg z.1
  have h1 := mul_self_nonneg z.2.1
  have h2 := mul_self_nonneg z.2.2
  rw [Prod.norm_def, Prod.norm_def]
  refine max_le (h _ ?_) (max_le (h _ ?_) (h _ ?_)) <;> unfold Vec.dot <;> linarith

theorem Vec.field_le {z : Vec} (hz : z ≠ 0) (N : Vec) : ‖z.field N‖ ≤ 3 * ‖N‖ / ‖z‖ ^ 2 := by
  have hl := Vec.len_pos hz
  have hn : 0 < ‖z‖ := norm_pos_iff.mpr hz
  have hle := z.norm_le_len
  have hdot : |z.dot N| ≤ 3 * ‖N‖ * z.len := by
    have c : ∀ y n : ℝ, ‖y‖ ≤ ‖z‖ → ‖n‖ ≤ ‖N‖ → |y * n| ≤ ‖N‖ * z.len := fun y n hy hn => by
      rw [abs_mul, mul_comm]
      exact mul_le_mul hn (hy.trans hle) (abs_nonneg _) (norm_nonneg _)
    unfold Vec.dot
    have h1 := c z.1 N.1 (norm_fst_le z) (norm_fst_le N)
    have h2 := c z.2.1 N.2.1 ((norm_fst_le z.2).trans (norm_snd_le z)) ((norm_fst_le N.2).trans (norm_snd_le N))
    have h3 := c z.2.2 N.2.2 ((norm_snd_le z.2).trans (norm_snd_le z)) ((norm_snd_le N.2).trans (norm_snd_le N))
    have := (abs_add_le (z.1 * N.1 + z.2.1 * N.2.1) (z.2.2 * N.2.2)).trans
      (add_le_add_left (abs_add_le (z.1 * N.1) (z.2.1 * N.2.1)) _)
    linarith
  unfold Vec.field
  rw [Real.norm_eq_abs, abs_div, abs_of_pos (pow_pos hl 3)]
  calc |z.dot N| / z.len ^ 3 ≤ 3 * ‖N‖ * z.len / z.len ^ 3 := by gcongr
    _ = 3 * ‖N‖ / z.len ^ 2 := by field_simp
    _ ≤ 3 * ‖N‖ / ‖z‖ ^ 2 := by gcongr

/-- From far away a triangle looks small. -/
theorem flux_far {x : Vec} (hx : x ≠ 0) (P Q R : Vec) : Tendsto (fun r : ℝ => flux P Q R (r • x)) atTop (𝓝 0) := by
  obtain ⟨D, hD⟩ := (refCell_isCompact .triangle).exists_bound_of_continuousOn (triPoint_continuous P Q R).continuousOn
  have hn : 0 < ‖x‖ := norm_pos_iff.mpr hx
  have hfar : Tendsto (fun r : ℝ => r * ‖x‖ - D) atTop atTop :=
    tendsto_atTop_add_const_right _ _ (tendsto_id.atTop_mul_const hn)
  have hbound : Tendsto (fun r : ℝ => 3 * ‖(Q - P).cross (R - P)‖ / (r * ‖x‖ - D) ^ 2 * volume.real (refCell .triangle))
      atTop (𝓝 0) := by
    have := (((tendsto_pow_atTop two_ne_zero).comp hfar).inv_tendsto_atTop).const_mul (3 * ‖(Q - P).cross (R - P)‖)
      |>.mul_const (volume.real (refCell .triangle))
    simpa [div_eq_mul_inv] using this
  refine squeeze_zero_norm' ?_ hbound
  filter_upwards [hfar.eventually_gt_atTop 0, eventually_ge_atTop 0] with r hr hr0
  refine norm_setIntegral_le_of_norm_le_const (refCell_isCompact _).measure_lt_top fun z hz => ?_
  have hnorm : r * ‖x‖ - D ≤ ‖r • x - triPoint P Q R z‖ := by
    have h1 := norm_sub_norm_le (r • x) (triPoint P Q R z)
    rw [norm_smul, Real.norm_of_nonneg hr0] at h1
    linarith [hD z hz]
  have hne : r • x - triPoint P Q R z ≠ 0 := norm_pos_iff.mp (hr.trans_le hnorm)
  refine (Vec.field_le hne _).trans ?_
  gcongr

theorem tendsto_list_map_sum {α β : Type*} (l : List α) {f : α → β → ℝ} {c : α → ℝ} {F : Filter β}
    (h : ∀ a ∈ l, Tendsto (f a) F (𝓝 (c a))) : Tendsto (fun r => (l.map fun a => f a r).sum) F (𝓝 (l.map c).sum) := by
  induction l with
  | nil => simpa using tendsto_const_nhds
  | cons a l ih =>
    simp only [List.map_cons, List.sum_cons]
    exact (h a (by simp)).add (ih fun b hb => h b (by simp [hb]))

theorem hasDerivAt_list_map_sum {α : Type*} (l : List α) {f : α → ℝ → ℝ} {c : α → ℝ} {r : ℝ}
    (h : ∀ a ∈ l, HasDerivAt (f a) (c a) r) : HasDerivAt (fun r => (l.map fun a => f a r).sum) (l.map c).sum r := by
  induction l with
  | nil => simpa using hasDerivAt_const r (0 : ℝ)
  | cons a l ih =>
    simp only [List.map_cons, List.sum_cons]
    exact (h a (by simp)).fun_add (ih fun b hb => h b (by simp [hb]))

/-- The flux through a closed surface around a point in the interior of one of its triangles. The sides of the triangles
cancel in pairs, rays from the point leave the surface, and the point is on no other triangle. -/
theorem solid_angle {α : Type*} [DecidableEq α] {l : List α} (hl : l.Nodup) {P Q R : α → Vec} {c₀ : α} (hc₀ : c₀ ∈ l)
    (hclosed : ∀ L : Vec → Vec → ℝ, (∀ p q, L q p = -L p q) →
      (l.map fun c => L (P c) (Q c) + L (Q c) (R c) + L (R c) (P c)).sum = 0)
    {z₀ : ℝ × ℝ} (hz : z₀ ∈ interior (refCell .triangle))
    (hd : 0 < (triPoint (P c₀) (Q c₀) (R c₀) z₀).dot ((Q c₀ - P c₀).cross (R c₀ - P c₀)))
    (hray : ∀ r : ℝ, 1 ≤ r → ∀ c ∈ l, ∀ z ∈ refCell .triangle,
      r • triPoint (P c₀) (Q c₀) (R c₀) z₀ = triPoint (P c) (Q c) (R c) z → r = 1 ∧ c = c₀) :
    (l.map fun c => flux (P c) (Q c) (R c) (triPoint (P c₀) (Q c₀) (R c₀) z₀)).sum = -(2 * Real.pi) := by
  set x := triPoint (P c₀) (Q c₀) (R c₀) z₀ with hx
  have hx0 : x ≠ 0 := by
    intro h
    rw [h] at hd
    simp [Vec.dot] at hd
  let f : ℝ → ℝ := fun r => (l.map fun c => flux (P c) (Q c) (R c) (r • x)).sum
  have hderiv : ∀ r : ℝ, 1 < r → HasDerivAt f 0 r := by
    intro r hr
    have h := hasDerivAt_list_map_sum l (f := fun c r => flux (P c) (Q c) (R c) (r • x)) (r := r) fun c hc =>
      flux_hasDerivAt fun z hz' e => hr.ne' (hray r hr.le c hc z hz' (sub_eq_zero.mp e)).1
    rwa [hclosed (sideIntegral (r • x) x) (fun p q => sideIntegral_neg _ _ _ _)] at h
  have hconst : ∀ r s : ℝ, 1 < r → 1 < s → f r = f s := by
    intro r s hr hs
    exact (convex_Ioi (1 : ℝ)).is_const_of_fderivWithin_eq_zero (𝕜 := ℝ) (f := f)
      (fun y hy => (hderiv y hy).differentiableAt.differentiableWithinAt) (fun y hy => by
        rw [fderivWithin_of_isOpen isOpen_Ioi hy]
        ext
        simp [(hderiv y hy).deriv]) hr hs
  have hzero : ∀ r : ℝ, 1 < r → f r = 0 := by
    intro r hr
    have hfar : Tendsto f atTop (𝓝 0) := by
      have := tendsto_list_map_sum l (f := fun c r => flux (P c) (Q c) (R c) (r • x)) fun c _ => flux_far hx0 _ _ _
      simpa using this
    refine tendsto_nhds_unique (tendsto_const_nhds.congr' ?_) hfar
    filter_upwards [eventually_gt_atTop 1] with s hs
    exact hconst r s hr hs
  have hlim : Tendsto f (𝓝[>] 1) (𝓝 (l.map fun c => flux (P c) (Q c) (R c) x +
      if c = c₀ then 2 * Real.pi else 0).sum) := by
    refine tendsto_list_map_sum l fun c hc => ?_
    by_cases hcc : c = c₀
    · rw [if_pos hcc, hcc, hx, flux_plane, zero_add]
      exact flux_limit hz hd
    · rw [if_neg hcc, add_zero]
      have h := (flux_hasDerivAt (P := P c) (Q := Q c) (R := R c) (x := x) (r := 1) fun z hz' e =>
        hcc (hray 1 le_rfl c hc z hz' (sub_eq_zero.mp e)).2).continuousAt.tendsto
      rw [one_smul] at h
      exact h.mono_left nhdsWithin_le_nhds
  have h0 : (l.map fun c => flux (P c) (Q c) (R c) x + if c = c₀ then 2 * Real.pi else 0).sum = 0 := by
    refine tendsto_nhds_unique hlim (tendsto_const_nhds.congr' ?_)
    filter_upwards [self_mem_nhdsWithin] with r hr
    exact (hzero r hr).symm
  rw [List.sum_map_add] at h0
  have h1 : (l.map fun c => if c = c₀ then 2 * Real.pi else 0).sum = 2 * Real.pi := by
    rw [← List.sum_toFinset _ hl, Finset.sum_ite_eq']
    rw [if_pos (List.mem_toFinset.mpr hc₀)]
  linarith

/-- From the origin, a closed surface around it is seen under the solid angle `4 π`. -/
theorem solid_angle_origin {α : Type*} [DecidableEq α] {l : List α} (hl : l.Nodup) {P Q R : α → Vec} {c₀ : α} (hc₀ : c₀ ∈ l)
    (hclosed : ∀ L : Vec → Vec → ℝ, (∀ p q, L q p = -L p q) →
      (l.map fun c => L (P c) (Q c) + L (Q c) (R c) + L (R c) (P c)).sum = 0)
    {z₀ : ℝ × ℝ} (hz : z₀ ∈ interior (refCell .triangle))
    (hd : 0 < (triPoint (P c₀) (Q c₀) (R c₀) z₀).dot ((Q c₀ - P c₀).cross (R c₀ - P c₀)))
    (hray : ∀ r : ℝ, 0 ≤ r → ∀ c ∈ l, ∀ z ∈ refCell .triangle,
      r • triPoint (P c₀) (Q c₀) (R c₀) z₀ = triPoint (P c) (Q c) (R c) z → r = 1 ∧ c = c₀) :
    (l.map fun c => flux (P c) (Q c) (R c) 0).sum = -(4 * Real.pi) := by
  have hsurf := solid_angle hl hc₀ hclosed hz hd fun r hr => hray r (by linarith)
  set x := triPoint (P c₀) (Q c₀) (R c₀) z₀ with hx
  let f : ℝ → ℝ := fun r => (l.map fun c => flux (P c) (Q c) (R c) (r • x)).sum
  have hderiv : ∀ r : ℝ, 0 ≤ r → r < 1 → HasDerivAt f 0 r := by
    intro r h0 hr
    have h := hasDerivAt_list_map_sum l (f := fun c r => flux (P c) (Q c) (R c) (r • x)) (r := r) fun c hc =>
      flux_hasDerivAt fun z hz' e => hr.ne (hray r h0 c hc z hz' (sub_eq_zero.mp e)).1
    rwa [hclosed (sideIntegral (r • x) x) (fun p q => sideIntegral_neg _ _ _ _)] at h
  have hconst : ∀ r : ℝ, 0 ≤ r → r < 1 → f r = f 0 := by
    intro r h0 hr
    refine constant_of_has_deriv_right_zero (a := 0) (b := r) ?_ ?_ r ⟨h0, le_rfl⟩
    · exact fun y hy => (hderiv y hy.1 (lt_of_le_of_lt hy.2 hr)).continuousAt.continuousWithinAt
    · exact fun y hy => (hderiv y hy.1 (hy.2.trans hr)).hasDerivWithinAt
  have hlim : Tendsto f (𝓝[<] 1) (𝓝 (l.map fun c => flux (P c) (Q c) (R c) x +
      if c = c₀ then -(2 * Real.pi) else 0).sum) := by
    refine tendsto_list_map_sum l fun c hc => ?_
    by_cases hcc : c = c₀
    · rw [if_pos hcc, hcc, hx, flux_plane, zero_add]
      exact flux_limit_inside hz hd
    · rw [if_neg hcc, add_zero]
      have h := (flux_hasDerivAt (P := P c) (Q := Q c) (R := R c) (x := x) (r := 1) fun z hz' e =>
        hcc (hray 1 zero_le_one c hc z hz' (sub_eq_zero.mp e)).2).continuousAt.tendsto
      rw [one_smul] at h
      exact h.mono_left nhdsWithin_le_nhds
  have h0 : (l.map fun c => flux (P c) (Q c) (R c) x + if c = c₀ then -(2 * Real.pi) else 0).sum = f 0 := by
    refine tendsto_nhds_unique hlim (tendsto_const_nhds.congr' ?_)
    have : ∀ᶠ r : ℝ in 𝓝[<] 1, 0 < r := (lt_mem_nhds one_pos).filter_mono nhdsWithin_le_nhds
    filter_upwards [self_mem_nhdsWithin, this] with r hr hr0
    exact (hconst r hr0.le (mem_Iio.mp hr)).symm
  rw [List.sum_map_add, hsurf] at h0
  have h1 : (l.map fun c => if c = c₀ then -(2 * Real.pi) else 0).sum = -(2 * Real.pi) := by
    rw [← List.sum_toFinset _ hl, Finset.sum_ite_eq', if_pos (List.mem_toFinset.mpr hc₀)]
  have h2 : f 0 = (l.map fun c => flux (P c) (Q c) (R c) 0).sum := by
    simp only [f, zero_smul]
  linarith

end Bempp
