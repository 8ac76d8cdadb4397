import Verif.Proofs.Gauss
import Verif.Props.SphereQuality
/-
The area of the triangles of a sphere and the solid angles under which they are seen from the origin.
-/
open MeasureTheory Set Filter Topology

namespace Bempp

/-- The integral of a quadratic polynomial over the reference triangle. -/
theorem triangle_quadratic (α β γ : ℝ) :
    ∫ z in refCell .triangle, (1 + 3 / 2 * ((1 - z.1 - z.2) * z.1 * γ + (1 - z.1 - z.2) * z.2 * β + z.1 * z.2 * α)) =
      1 / 2 * (1 + (α + β + γ) / 8) := by
  rw [triangle_iterated (by fun_prop)]
  have inner : ∀ s : ℝ, ∫ t in (0 : ℝ)..(1 - s), (1 + 3 / 2 * ((1 - s - t) * s * γ + (1 - s - t) * t * β + s * t * α)) =
      (1 - s) + 3 / 2 * (s * (1 - s) ^ 2 / 2 * γ + (1 - s) ^ 3 / 6 * β + s * (1 - s) ^ 2 / 2 * α) := by
    intro s
    have e : ∀ t : ℝ, (1 + 3 / 2 * ((1 - s - t) * s * γ + (1 - s - t) * t * β + s * t * α)) =
        (1 + 3 / 2 * ((1 - s) * s * γ)) + (3 / 2 * (-(s * γ) + (1 - s) * β + s * α)) * t ^ 1 + (-(3 / 2 * β)) * t ^ 2 := by
      intro t
      ring
    simp only [e]
    rw [intervalIntegral.integral_add (by apply Continuous.intervalIntegrable; fun_prop) (by apply Continuous.intervalIntegrable; fun_prop),
      intervalIntegral.integral_add (by apply Continuous.intervalIntegrable; fun_prop) (by apply Continuous.intervalIntegrable; fun_prop)]
    simp only [intervalIntegral.integral_const, intervalIntegral.integral_const_mul, integral_pow, smul_eq_mul]
    norm_num
    ring
  simp only [inner]
  have e : ∀ s : ℝ, (1 - s) + 3 / 2 * (s * (1 - s) ^ 2 / 2 * γ + (1 - s) ^ 3 / 6 * β + s * (1 - s) ^ 2 / 2 * α) =
      (1 + β / 4) + (-1 + 3 / 4 * γ - 3 / 4 * β + 3 / 4 * α) * s ^ 1 + (-(3 / 2) * γ + 3 / 4 * β - 3 / 2 * α) * s ^ 2 +
        (3 / 4 * γ - β / 4 + 3 / 4 * α) * s ^ 3 := by
    intro s
    ring
  simp only [e]
  rw [intervalIntegral.integral_add (by apply Continuous.intervalIntegrable; fun_prop) (by apply Continuous.intervalIntegrable; fun_prop),
    intervalIntegral.integral_add (by apply Continuous.intervalIntegrable; fun_prop) (by apply Continuous.intervalIntegrable; fun_prop),
    intervalIntegral.integral_add (by apply Continuous.intervalIntegrable; fun_prop) (by apply Continuous.intervalIntegrable; fun_prop)]
  simp only [intervalIntegral.integral_const, intervalIntegral.integral_const_mul, integral_pow, smul_eq_mul]
  norm_num
  ring

/-- The square of the distance of a point of a triangle with corners on the unit sphere. -/
theorem triPoint_sq {P Q R : Vec} (hP : Vec.dot P P = 1) (hQ : Vec.dot Q Q = 1) (hR : Vec.dot R R = 1) (z : ℝ × ℝ) :
    Vec.dot (triPoint P Q R z) (triPoint P Q R z) = 1 - ((1 - z.1 - z.2) * z.1 * Vec.distSq P Q +
      (1 - z.1 - z.2) * z.2 * Vec.distSq P R + z.1 * z.2 * Vec.distSq Q R) := by
  have e : Vec.dot (triPoint P Q R z) (triPoint P Q R z) = (1 - z.1 - z.2) ^ 2 * Vec.dot P P + z.1 ^ 2 * Vec.dot Q Q +
      z.2 ^ 2 * Vec.dot R R + 2 * (1 - z.1 - z.2) * z.1 * Vec.dot P Q + 2 * (1 - z.1 - z.2) * z.2 * Vec.dot P R +
      2 * z.1 * z.2 * Vec.dot Q R := by
    simp only [triPoint, Vec.dot, Prod.fst_sub, Prod.snd_sub, Prod.fst_add, Prod.snd_add, Prod.smul_fst, Prod.smul_snd, smul_eq_mul]
    ring
  rw [e, Vec.distSq, Vec.distSq, Vec.distSq, dist_sq hP hQ, dist_sq hP hR, dist_sq hQ hR, hP, hQ, hR]
  ring

theorem triPoint_normal (P Q R : Vec) (z : ℝ × ℝ) :
    Vec.dot (triPoint P Q R z) ((Q - P).cross (R - P)) = Vec.dot P ((Q - P).cross (R - P)) := by
  simp only [triPoint, Vec.dot, Vec.cross, Prod.fst_sub, Prod.snd_sub, Prod.fst_add, Prod.snd_add, Prod.smul_fst, Prod.smul_snd, smul_eq_mul]
  ring

theorem inverse_cube {L : ℝ} (h : 0 < L) : 1 + 3 / 2 * (1 - L ^ 2) ≤ 1 / L ^ 3 := by
  rw [le_div_iff₀ (by positivity)]
  have : 0 ≤ (L - 1) ^ 2 * (3 * L ^ 3 + 6 * L ^ 2 + 4 * L + 2) := by positivity
  nlinarith


theorem refTriangle_area : ∫ _ in refCell .triangle, (1 : ℝ) = 1 / 2 := by
  have := triangle_quadratic 0 0 0
  simpa using this

/-- The area of a triangle with corners on the unit sphere, compared with the solid angle under which it is seen. -/
theorem triangle_area {n : Nat} {P Q R : Vec} (h : NonObtuse (1 / 4 ^ n) P Q R) (c1 : cosine n ≤ Vec.dot P Q)
    (c2 : cosine n ≤ Vec.dot P R) (c3 : cosine n ≤ Vec.dot Q R) (hd : 0 < Vec.dot P ((Q - P).cross (R - P))) :
    ((Q - P).cross (R - P)).len / 2 ≤ -flux P Q R 0 ∧
      4 ^ n / (4 ^ n + 2) * -flux P Q R 0 ≤ ((Q - P).cross (R - P)).len / 2 := by
  have h4 : (0 : ℝ) < 4 ^ n := by positivity
  have h41 : (1 : ℝ) ≤ 4 ^ n := one_le_pow₀ (by norm_num)
  obtain ⟨a1, a2, -, -, a5⟩ := quality_of h c1 c2 c3
  obtain ⟨b1, b2, -⟩ := quality_of h.rotate c3 (by rwa [dot_comm]) (by rwa [dot_comm])
  obtain ⟨d1, d2, -⟩ := quality_of h.swap.rotate c2 c1 (by rwa [dot_comm])
  have pd := plane_distance h.x1 h.y1 h.z1
  have f1 := h.flat'
  have f2 := h.swap.flat'
  have f3 := h.rotate.rotate.flat'
  rw [dot_comm Q P] at f2
  rw [dot_comm R P, dot_comm R Q] at f3
  have sq := triPoint_sq h.x1 h.y1 h.z1
  have t : Vec.dot (Q - P) (R - P) = 1 + Vec.dot Q R - Vec.dot P Q - Vec.dot P R := by
    have : Vec.dot (Q - P) (R - P) = Vec.dot Q R - Vec.dot P Q - Vec.dot P R + Vec.dot P P := by
      simp only [Vec.dot, Prod.fst_sub, Prod.snd_sub]
      ring
    rw [this, h.x1]
    ring
  have G : 4 * Vec.dot ((Q - P).cross (R - P)) ((Q - P).cross (R - P)) =
      2 * (Vec.distSq Q R * Vec.distSq P R + Vec.distSq P R * Vec.distSq P Q + Vec.distSq P Q * Vec.distSq Q R) -
      Vec.distSq Q R ^ 2 - Vec.distSq P R ^ 2 - Vec.distSq P Q ^ 2 := by
    rw [lagrange, t, Vec.distSq, Vec.distSq, Vec.distSq, dist_sq h.x1 h.y1, dist_sq h.x1 h.z1, dist_sq h.y1 h.z1,
      dist_sq h.y1 h.x1, dist_sq h.z1 h.x1, dot_comm Q P, dot_comm R P]
    ring
  have eα : Vec.distSq Q R = 2 * (1 - Vec.dot Q R) := dist_sq h.y1 h.z1
  have eβ : Vec.distSq P R = 2 * (1 - Vec.dot P R) := dist_sq h.x1 h.z1
  have eγ : Vec.distSq P Q = 2 * (1 - Vec.dot P Q) := dist_sq h.x1 h.y1
  have g1 : Vec.distSq Q R ≤ Vec.distSq P R + Vec.distSq P Q := by rw [eα, eβ, eγ]; linarith
  have g2 : Vec.distSq P R ≤ Vec.distSq Q R + Vec.distSq P Q := by rw [eα, eβ, eγ]; linarith
  have g3 : Vec.distSq P Q ≤ Vec.distSq Q R + Vec.distSq P R := by rw [eα, eβ, eγ]; linarith
  clear eα eβ eγ t f1 f2 f3
  set N := (Q - P).cross (R - P) with hN
  set α := Vec.distSq Q R
  set β := Vec.distSq P R
  set γ := Vec.distSq P Q
  set d := Vec.dot P N with hddef
  have hlen : N.len ^ 2 = Vec.dot N N := Vec.len_pow N
  rw [← hlen] at a5 pd G
  have hl0 : 0 ≤ N.len := N.len_nonneg
  have m0 : (0 : ℝ) < 2 / 4 ^ n := by positivity
  -- the points of the triangle
  have hX : ∀ z ∈ refCell .triangle, 4 ^ n / (4 ^ n + 2) ≤ (triPoint P Q R z).len ^ 2 ∧ (triPoint P Q R z).len ^ 2 =
      1 - ((1 - z.1 - z.2) * z.1 * γ + (1 - z.1 - z.2) * z.2 * β + z.1 * z.2 * α) ∧ 0 < (triPoint P Q R z).len ∧
      triPoint P Q R z ≠ 0 := by
    rintro z ⟨z1, z2, z3⟩
    have z0 : 0 ≤ 1 - z.1 - z.2 := by linarith
    have e : (triPoint P Q R z).len ^ 2 = _ := (Vec.len_pow _).trans (sq z)
    have low : 4 ^ n / (4 ^ n + 2) ≤ (triPoint P Q R z).len ^ 2 := by
      rw [e]
      have q1 := mul_le_mul_of_nonneg_left a2 (mul_nonneg z0 z1)
      have q2 := mul_le_mul_of_nonneg_left d2 (mul_nonneg z0 z2)
      have q3 := mul_le_mul_of_nonneg_left b2 (mul_nonneg z1 z2)
      have q4 : (1 - z.1 - z.2) * z.1 + (1 - z.1 - z.2) * z.2 + z.1 * z.2 ≤ 1 / 3 := by
        nlinarith [sq_nonneg (z.1 - z.2), sq_nonneg (z.1 + z.2 - 2 / 3)]
      have q5 := mul_le_mul_of_nonneg_left q4 (show (0 : ℝ) ≤ 6 / (4 ^ n + 2) by positivity)
      have q6 : (4 : ℝ) ^ n / (4 ^ n + 2) = 1 - 6 / (4 ^ n + 2) * (1 / 3) := by field_simp; ring
      linarith
    have hne : triPoint P Q R z ≠ 0 := by
      intro h0
      have : 0 < (triPoint P Q R z).len ^ 2 := lt_of_lt_of_le (by positivity) low
      rw [Vec.len_eq_zero.mpr h0] at this
      norm_num at this
    exact ⟨low, e, Vec.len_pos hne, hne⟩
  have hflux : -flux P Q R 0 = ∫ z in refCell .triangle, d * (1 / (triPoint P Q R z).len ^ 3) := by
    unfold flux
    rw [← integral_neg]
    congr 1
    funext z
    rw [zero_sub, Vec.field, Vec.len_neg, ← hN]
    have : Vec.dot (-triPoint P Q R z) N = -d := by
      rw [hddef, hN, ← triPoint_normal P Q R z]
      simp only [Vec.dot, Prod.fst_neg, Prod.snd_neg]
      ring
    rw [this]
    ring
  have hcont : ContinuousOn (fun z => d * (1 / (triPoint P Q R z).len ^ 3)) (refCell .triangle) := by
    refine ContinuousOn.mul continuousOn_const (ContinuousOn.div continuousOn_const ?_ fun z hz => (pow_pos (hX z hz).2.2.1 3).ne')
    exact ((Vec.len_continuous.comp (triPoint_continuous P Q R)).pow 3).continuousOn
  have hint : IntegrableOn (fun z => d * (1 / (triPoint P Q R z).len ^ 3)) (refCell .triangle) :=
    hcont.integrableOn_compact (refCell_isCompact _)
  refine ⟨?_, ?_⟩
  · -- the lower bound
    have hlow : d * (1 / 2 * (1 + (α + β + γ) / 8)) ≤ -flux P Q R 0 := by
      rw [hflux, ← triangle_quadratic, ← integral_const_mul]
      refine setIntegral_mono_on ?_ hint (refCell_measurable _) fun z hz => ?_
      · exact ContinuousOn.integrableOn_compact (refCell_isCompact _) (by fun_prop)
      · refine mul_le_mul_of_nonneg_left ?_ hd.le
        have := inverse_cube (hX z hz).2.2.1
        rw [(hX z hz).2.1] at this
        linarith
    have key : N.len ≤ d * (1 + (α + β + γ) / 8) := by
      have hs0 : 0 ≤ (α + β + γ) / 8 := by linarith
      refine le_of_sq_le_sq ?_ (mul_nonneg hd.le (by linarith))
      rw [mul_pow]
      have hd2 : 0 ≤ d ^ 2 := sq_nonneg d
      rcases Nat.eq_zero_or_pos n with rfl | hn
      · norm_num at a5 a1 b1 d1
        have hs : 7 / 4 ≤ 1 + (α + β + γ) / 8 := by linarith
        have := mul_le_mul_of_nonneg_left (pow_le_pow_left₀ (by norm_num) hs 2) hd2
        linarith
      · have h44 : (4 : ℝ) ≤ 4 ^ n := le_self_pow₀ (by norm_num) (by omega)
        have hM : (6 : ℝ) / (4 ^ n + 2) ≤ 1 := by rw [div_le_one (by positivity)]; linarith
        have hs : (α + β + γ) / 8 ≤ 3 / 8 := by linarith
        have hprod : 0 ≤ (β + γ - α) * (α + γ - β) * (α + β - γ) :=
          mul_nonneg (mul_nonneg (by linarith) (by linarith)) (by linarith)
        have h1 : N.len ^ 2 * (1 - (α + β + γ) / 8) ≤ d ^ 2 := by
          have e : (β + γ - α) * (α + γ - β) * (α + β - γ) = (α + β + γ) * (4 * N.len ^ 2) - 8 * (γ * β * α) := by
            rw [G]
            ring
          linarith
        set s := (α + β + γ) / 8
        have h2 : 1 ≤ (1 - s) * (1 + s) ^ 2 := by
          have : 0 ≤ s * (1 - s - s ^ 2) := mul_nonneg hs0 (by nlinarith)
          linarith
        calc N.len ^ 2 = N.len ^ 2 * 1 := (mul_one _).symm
          _ ≤ N.len ^ 2 * ((1 - s) * (1 + s) ^ 2) := mul_le_mul_of_nonneg_left h2 (sq_nonneg _)
          _ = N.len ^ 2 * (1 - s) * (1 + s) ^ 2 := by ring
          _ ≤ d ^ 2 * (1 + s) ^ 2 := mul_le_mul_of_nonneg_right h1 (sq_nonneg _)
    linarith
  · rw [hflux, ← integral_const_mul]
    have e : N.len / 2 = ∫ _ in refCell .triangle, N.len := by
      have := integral_const_mul (μ := volume.restrict (refCell .triangle)) N.len (fun _ => (1 : ℝ))
      rw [refTriangle_area] at this
      simp only [mul_one] at this
      rw [this]
      ring
    rw [e]
    refine setIntegral_mono_on (hint.const_mul _) ?_ (refCell_measurable _) fun z hz => ?_
    · exact continuousOn_const.integrableOn_compact (refCell_isCompact _)
    · obtain ⟨low, -, pos, -⟩ := hX z hz
      have hdl : d ≤ (triPoint P Q R z).len * N.len := by
        rw [hddef, hN, ← triPoint_normal P Q R z]
        exact dot_le_len _ _
      set L := (triPoint P Q R z).len
      rw [show 4 ^ n / (4 ^ n + 2) * (d * (1 / L ^ 3)) = 4 ^ n / (4 ^ n + 2) * d / L ^ 3 by ring, div_le_iff₀ (by positivity)]
      calc 4 ^ n / (4 ^ n + 2) * d ≤ L ^ 2 * (L * N.len) := mul_le_mul low hdl hd.le (by positivity)
        _ = N.len * L ^ 3 := by ring

end Bempp
