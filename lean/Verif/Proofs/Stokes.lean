import Verif.Spec.Shapes
import Verif.Spec.Convergence
import Verif.Proofs.PositiveSurface
import Verif.Proofs.ShapeClose
import Mathlib.MeasureTheory.Integral.IntervalIntegral.FundThmCalculus
import Mathlib.MeasureTheory.Integral.Prod
import Mathlib.Analysis.Calculus.ParametricIntegral
/-
The theorem of Stokes on triangles, for the field `z / |z|³`.
-/
namespace Bempp
open MeasureTheory Set

/-- Integrals over the reference triangle as iterated integrals. -/
theorem triangle_iterated {f : ℝ × ℝ → ℝ} (hf : ContinuousOn f (refCell .triangle)) :
    ∫ z in refCell .triangle, f z = ∫ s in (0 : ℝ)..1, ∫ t in (0 : ℝ)..(1 - s), f (s, t) := by
  have hi : IntegrableOn f (refCell .triangle) := hf.integrableOn_compact (refCell_isCompact _)
  rw [← integral_indicator (refCell_measurable _)]
  have hi' := (integrable_indicator_iff (refCell_measurable _)).mpr hi
  rw [Measure.volume_eq_prod] at hi' ⊢
  rw [integral_prod _ hi', intervalIntegral.integral_of_le zero_le_one, ← integral_Icc_eq_integral_Ioc,
    ← integral_indicator measurableSet_Icc]
  congr 1
  funext s
  by_cases hs : s ∈ Icc (0 : ℝ) 1
  · rw [indicator_of_mem hs, intervalIntegral.integral_of_le (by linarith [hs.2]), ← integral_Icc_eq_integral_Ioc,
      ← integral_indicator measurableSet_Icc]
    congr 1
    funext t
    by_cases ht : t ∈ Icc (0 : ℝ) (1 - s)
    · rw [indicator_of_mem ht, indicator_of_mem (show (s, t) ∈ refCell .triangle from ⟨hs.1, ht.1, by linarith [ht.2]⟩)]
    · rw [indicator_of_notMem ht, indicator_of_notMem]
      rintro ⟨-, h1, h2⟩
      exact ht ⟨h1, by simp only at h2; linarith⟩
  · rw [indicator_of_notMem hs]
    have : ∀ t, (refCell .triangle).indicator f (s, t) = 0 := by
      intro t
      rw [indicator_of_notMem]
      rintro ⟨h0, h1, h2⟩
      exact hs ⟨h0, by simp only at h0 h1 h2; linarith⟩
    simp [this]

theorem triangle_swap (f : ℝ × ℝ → ℝ) :
    ∫ z in refCell .triangle, f z = ∫ z in refCell .triangle, f z.swap := by
  have e : refCell .triangle = Prod.swap ⁻¹' refCell .triangle := by
    ext z
    show (0 ≤ z.1 ∧ 0 ≤ z.2 ∧ z.1 + z.2 ≤ 1) ↔ (0 ≤ z.2 ∧ 0 ≤ z.1 ∧ z.2 + z.1 ≤ 1)
    rw [add_comm]
    tauto
  have hm : MeasurePreserving (Prod.swap : ℝ × ℝ → ℝ × ℝ) volume volume := by
    rw [Measure.volume_eq_prod]
    exact Measure.measurePreserving_swap
  rw [← hm.setIntegral_preimage_emb (MeasurableEquiv.prodComm (α := ℝ) (β := ℝ)).measurableEmbedding f, ← e]

theorem triangle_iterated' {f : ℝ × ℝ → ℝ} (hf : ContinuousOn f (refCell .triangle)) :
    ∫ z in refCell .triangle, f z = ∫ t in (0 : ℝ)..1, ∫ s in (0 : ℝ)..(1 - t), f (s, t) := by
  rw [triangle_swap, triangle_iterated (f := fun z => f z.swap)]
  · rfl
  · refine hf.comp continuous_swap.continuousOn ?_
    rintro z ⟨h0, h1, h2⟩
    exact ⟨h1, h0, by simpa [add_comm] using h2⟩

/-- Green's theorem on the reference triangle. -/
theorem triangle_green {g k g' k' : ℝ × ℝ → ℝ}
    (hg : ∀ z ∈ refCell .triangle, HasDerivAt (fun s => g (s, z.2)) (g' z) z.1)
    (hk : ∀ z ∈ refCell .triangle, HasDerivAt (fun t => k (z.1, t)) (k' z) z.2)
    (cg : ContinuousOn g' (refCell .triangle)) (ck : ContinuousOn k' (refCell .triangle)) :
    ∫ z in refCell .triangle, (g' z - k' z) =
      (∫ t in (0 : ℝ)..1, (g (1 - t, t) - g (0, t))) - ∫ s in (0 : ℝ)..1, (k (s, 1 - s) - k (s, 0)) := by
  rw [integral_sub (cg.integrableOn_compact (refCell_isCompact _)) (ck.integrableOn_compact (refCell_isCompact _)),
    triangle_iterated' cg, triangle_iterated ck]
  congr 1
  · refine intervalIntegral.integral_congr fun t ht => ?_
    rw [uIcc_of_le zero_le_one] at ht
    have hle : (0 : ℝ) ≤ 1 - t := by linarith [ht.2]
    have hmem : ∀ s ∈ uIcc (0 : ℝ) (1 - t), (s, t) ∈ refCell .triangle := by
      intro s hs
      rw [uIcc_of_le hle] at hs
      exact ⟨hs.1, ht.1, by simp only; linarith [hs.2]⟩
    refine intervalIntegral.integral_eq_sub_of_hasDerivAt (f := fun s => g (s, t)) (fun s hs => hg _ (hmem s hs)) ?_
    exact (cg.comp (by fun_prop : Continuous fun s : ℝ => (s, t)).continuousOn hmem).intervalIntegrable
  · refine intervalIntegral.integral_congr fun s hs => ?_
    rw [uIcc_of_le zero_le_one] at hs
    have hle : (0 : ℝ) ≤ 1 - s := by linarith [hs.2]
    have hmem : ∀ t ∈ uIcc (0 : ℝ) (1 - s), (s, t) ∈ refCell .triangle := by
      intro t ht
      rw [uIcc_of_le hle] at ht
      exact ⟨hs.1, ht.1, by simp only; linarith [ht.2]⟩
    refine intervalIntegral.integral_eq_sub_of_hasDerivAt (f := fun t => k (s, t)) (fun t ht => hk _ (hmem t ht)) ?_
    exact (ck.comp (by fun_prop : Continuous fun t : ℝ => (s, t)).continuousOn hmem).intervalIntegrable

namespace Vec

/-- The component of `z / |z|³` in the direction of `N`. -/
noncomputable def field (z N : Vec) : ℝ := z.dot N / z.len ^ 3

/-- The derivative of the field in the direction `w`. -/
noncomputable def dfield (z w N : Vec) : ℝ := w.dot N / z.len ^ 3 - 3 * z.dot w * z.dot N / z.len ^ 5

theorem len_pow (z : Vec) : z.len ^ 2 = z.dot z := Real.sq_sqrt (dot_self_nonneg z)

theorem len_eq_zero {z : Vec} : z.len = 0 ↔ z = 0 := by
  constructor
  · intro h
    have h2 := z.len_pow
    rw [h] at h2
    unfold dot at h2
    have h0 := mul_self_nonneg z.1
    have h1 := mul_self_nonneg z.2.1
    have h3 := mul_self_nonneg z.2.2
    refine Prod.ext ?_ (Prod.ext ?_ ?_)
    · exact mul_self_eq_zero.mp (by linarith)
    · exact mul_self_eq_zero.mp (by linarith)
    · exact mul_self_eq_zero.mp (by linarith)
  · rintro rfl
    simp [len, dot]

theorem field_hasDerivAt {c : ℝ → Vec} {c' : Vec} {τ : ℝ} (hc : HasDerivAt c c' τ) (h : c τ ≠ 0) (N : Vec) :
    HasDerivAt (fun τ => field (c τ) N) (dfield (c τ) c' N) τ := by
  have h1 : HasDerivAt (fun τ => (c τ).1) c'.1 τ := hc.fst
  have h2 : HasDerivAt (fun τ => (c τ).2.1) c'.2.1 τ := hc.snd.fst
  have h3 : HasDerivAt (fun τ => (c τ).2.2) c'.2.2 τ := hc.snd.snd
  have hp := len_pos h
  have hd : HasDerivAt (fun τ => (c τ).dot (c τ)) (2 * (c τ).dot c') τ := by
    refine (((h1.mul h1).add (h2.mul h2)).add (h3.mul h3)).congr_deriv ?_
    unfold dot
    ring
  have hne : (c τ).dot (c τ) ≠ 0 := by
    rw [← len_pow]
    positivity
  have hl : HasDerivAt (fun τ => (c τ).len) ((c τ).dot c' / (c τ).len) τ := by
    refine (hd.sqrt hne).congr_deriv ?_
    show _ / (2 * (c τ).len) = _
    field_simp
  have hn : HasDerivAt (fun τ => (c τ).dot N) (c'.dot N) τ :=
    ((h1.mul_const _).add (h2.mul_const _)).add (h3.mul_const _)
  have h3l : HasDerivAt (fun τ => (c τ).len ^ 3) (3 * (c τ).len ^ 2 * ((c τ).dot c' / (c τ).len)) τ := by
    simpa using hl.fun_pow 3
  refine (hn.div h3l (pow_ne_zero _ hp.ne')).congr_deriv ?_
  unfold dfield
  field_simp

theorem dot_continuous {X : Type*} [TopologicalSpace X] {f g : X → Vec} (hf : Continuous f) (hg : Continuous g) :
    Continuous fun x => (f x).dot (g x) := by
  unfold dot
  fun_prop

theorem len_continuous : Continuous len := Real.continuous_sqrt.comp (dot_continuous continuous_id continuous_id)

theorem field_continuousAt {z : Vec} (h : z ≠ 0) (N : Vec) : ContinuousAt (fun z => field z N) z := by
  unfold field
  exact (dot_continuous continuous_id continuous_const).continuousAt.div (len_continuous.pow 3).continuousAt
    (pow_ne_zero _ (len_pos h).ne')

theorem dfield_continuousAt {z : Vec} (h : z ≠ 0) (w N : Vec) : ContinuousAt (fun z => dfield z w N) z := by
  unfold dfield
  refine ContinuousAt.sub ?_ ?_
  · exact continuousAt_const.div (len_continuous.pow 3).continuousAt (pow_ne_zero _ (len_pos h).ne')
  · refine ContinuousAt.div ?_ (len_continuous.pow 5).continuousAt (pow_ne_zero _ (len_pos h).ne')
    exact ((continuous_const.mul (dot_continuous continuous_id continuous_const)).mul
      (dot_continuous continuous_id continuous_const)).continuousAt

/-- The field has no divergence: its derivative in direction `v` is a curl. -/
theorem dfield_curl {z : Vec} (h : z ≠ 0) (a b v : Vec) :
    dfield z (-a) (b.cross v) - dfield z (-b) (a.cross v) = dfield z v (a.cross b) := by
  have hp := len_pos h
  have h2 := z.len_pow
  have e : ∀ w N : Vec, dfield z w N = (w.dot N * z.len ^ 2 - 3 * z.dot w * z.dot N) / z.len ^ 5 := by
    intro w N
    unfold dfield
    field_simp
  rw [e, e, e, ← sub_div]
  congr 1
  rw [h2]
  simp only [dot, cross, Prod.fst_neg, Prod.snd_neg]
  ring

end Vec

/-- The point of the triangle with corners `P`, `Q`, `R`. -/
def triPoint (P Q R : Vec) (z : ℝ × ℝ) : Vec := P + z.1 • (Q - P) + z.2 • (R - P)

/-- The flux through a triangle of the field around `x`. -/
noncomputable def flux (P Q R x : Vec) : ℝ :=
  ∫ z in refCell .triangle, (x - triPoint P Q R z).field ((Q - P).cross (R - P))

/-- The integral along a side whose derivative the flux has when `x` moves in direction `v`. -/
noncomputable def sideIntegral (x v P Q : Vec) : ℝ :=
  ∫ t in (0 : ℝ)..1, (x - (P + t • (Q - P))).field ((Q - P).cross v)

theorem triPoint_continuous (P Q R : Vec) : Continuous (triPoint P Q R) := by
  unfold triPoint
  fun_prop

theorem sideIntegral_neg (x v P Q : Vec) : sideIntegral x v Q P = -sideIntegral x v P Q := by
  unfold sideIntegral
  have := intervalIntegral.integral_comp_sub_left (a := 0) (b := 1)
    (fun t => (x - (P + t • (Q - P))).field ((Q - P).cross v)) 1
  rw [sub_self, sub_zero] at this
  rw [← this, ← intervalIntegral.integral_neg]
  congr 1
  funext t
  have e : Q + t • (P - Q) = P + (1 - t) • (Q - P) := by
    ext <;> simp <;> ring
  rw [e]
  unfold Vec.field
  rw [← neg_div]
  congr 1
  simp only [Vec.dot, Vec.cross, Prod.fst_sub, Prod.snd_sub]
  ring

/-- Stokes' theorem for the derivative of the field in direction `v`. -/
theorem stokes {P Q R x : Vec} (v : Vec) (h : ∀ z ∈ refCell .triangle, x - triPoint P Q R z ≠ 0) :
    ∫ z in refCell .triangle, (x - triPoint P Q R z).dfield v ((Q - P).cross (R - P)) =
      sideIntegral x v P Q + sideIntegral x v Q R + sideIntegral x v R P := by
  have hcont : ∀ w N : Vec, ContinuousOn (fun z => (x - triPoint P Q R z).dfield w N) (refCell .triangle) := fun w N z hz =>
    (ContinuousAt.comp (g := fun z => Vec.dfield z w N) (f := fun z => x - triPoint P Q R z)
      (Vec.dfield_continuousAt (h z hz) w N) (by have := triPoint_continuous P Q R; fun_prop)).continuousWithinAt
  have hfield : ∀ N : Vec, ContinuousOn (fun z => (x - triPoint P Q R z).field N) (refCell .triangle) := fun N z hz =>
    (ContinuousAt.comp (g := fun z => Vec.field z N) (f := fun z => x - triPoint P Q R z)
      (Vec.field_continuousAt (h z hz) N) (by have := triPoint_continuous P Q R; fun_prop)).continuousWithinAt
  have key := triangle_green
    (g := fun z => (x - triPoint P Q R z).field ((R - P).cross v))
    (k := fun z => (x - triPoint P Q R z).field ((Q - P).cross v))
    (g' := fun z => (x - triPoint P Q R z).dfield (-(Q - P)) ((R - P).cross v))
    (k' := fun z => (x - triPoint P Q R z).dfield (-(R - P)) ((Q - P).cross v))
    (fun z hz => Vec.field_hasDerivAt (c := fun s => x - triPoint P Q R (s, z.2)) (by
      have : HasDerivAt (fun s : ℝ => x - (P + s • (Q - P) + z.2 • (R - P))) (-((1 : ℝ) • (Q - P))) z.1 :=
        ((((hasDerivAt_id z.1).smul_const (Q - P)).const_add P).add_const _).const_sub x
      simpa [triPoint] using this) (h z hz) _)
    (fun z hz => Vec.field_hasDerivAt (c := fun t => x - triPoint P Q R (z.1, t)) (by
      have : HasDerivAt (fun t : ℝ => x - (P + z.1 • (Q - P) + t • (R - P))) (-((1 : ℝ) • (R - P))) z.2 :=
        (((hasDerivAt_id z.2).smul_const (R - P)).const_add (P + z.1 • (Q - P))).const_sub x
      simpa [triPoint] using this) (h z hz) _)
    (hcont _ _) (hcont _ _)
  rw [setIntegral_congr_fun (refCell_measurable _) fun z hz => (Vec.dfield_curl (h z hz) (Q - P) (R - P) v).symm, key]
  -- the sides
  have m1 : ∀ t ∈ uIcc (0 : ℝ) 1, ((1 - t, t) : ℝ × ℝ) ∈ refCell .triangle := by
    intro t ht
    rw [uIcc_of_le zero_le_one] at ht
    exact ⟨by simp only; linarith [ht.2], ht.1, by simp⟩
  have m2 : ∀ t ∈ uIcc (0 : ℝ) 1, ((0, t) : ℝ × ℝ) ∈ refCell .triangle := by
    intro t ht
    rw [uIcc_of_le zero_le_one] at ht
    exact ⟨le_rfl, ht.1, by simpa using ht.2⟩
  have m3 : ∀ t ∈ uIcc (0 : ℝ) 1, ((t, 0) : ℝ × ℝ) ∈ refCell .triangle := by
    intro t ht
    rw [uIcc_of_le zero_le_one] at ht
    exact ⟨ht.1, le_rfl, by simpa using ht.2⟩
  have i1 : ∀ N, IntervalIntegrable (fun t : ℝ => (x - triPoint P Q R (1 - t, t)).field N) volume 0 1 := fun N =>
    ((hfield N).comp (by fun_prop : Continuous fun t : ℝ => (1 - t, t)).continuousOn m1).intervalIntegrable
  have i2 : ∀ N, IntervalIntegrable (fun t : ℝ => (x - triPoint P Q R (0, t)).field N) volume 0 1 := fun N =>
    ((hfield N).comp (by fun_prop : Continuous fun t : ℝ => ((0 : ℝ), t)).continuousOn m2).intervalIntegrable
  have i3 : ∀ N, IntervalIntegrable (fun t : ℝ => (x - triPoint P Q R (t, 0)).field N) volume 0 1 := fun N =>
    ((hfield N).comp (by fun_prop : Continuous fun t : ℝ => (t, (0 : ℝ))).continuousOn m3).intervalIntegrable
  have i4 : ∀ N, IntervalIntegrable (fun t : ℝ => (x - triPoint P Q R (t, 1 - t)).field N) volume 0 1 := fun N =>
    ((hfield N).comp (by fun_prop : Continuous fun t : ℝ => (t, 1 - t)).continuousOn (fun t ht => by
      rw [uIcc_of_le zero_le_one] at ht
      exact ⟨ht.1, by simp only; linarith [ht.2], by simp⟩)).intervalIntegrable
  rw [intervalIntegral.integral_sub (i1 _) (i2 _), intervalIntegral.integral_sub (i4 _) (i3 _)]
  have flip : ∫ s in (0 : ℝ)..1, (x - triPoint P Q R (s, 1 - s)).field ((Q - P).cross v) =
      ∫ t in (0 : ℝ)..1, (x - triPoint P Q R (1 - t, t)).field ((Q - P).cross v) := by
    have := intervalIntegral.integral_comp_sub_left (a := 0) (b := 1)
      (fun s => (x - triPoint P Q R (s, 1 - s)).field ((Q - P).cross v)) 1
    rw [sub_self, sub_zero] at this
    rw [← this]
    simp only [sub_sub_cancel]
  have e1 : sideIntegral x v P Q = ∫ s in (0 : ℝ)..1, (x - triPoint P Q R (s, 0)).field ((Q - P).cross v) := by
    simp [sideIntegral, triPoint]
  have e2 : sideIntegral x v P R = ∫ t in (0 : ℝ)..1, (x - triPoint P Q R (0, t)).field ((R - P).cross v) := by
    simp [sideIntegral, triPoint]
  have e3 : sideIntegral x v Q R = (∫ t in (0 : ℝ)..1, (x - triPoint P Q R (1 - t, t)).field ((R - P).cross v)) -
      ∫ t in (0 : ℝ)..1, (x - triPoint P Q R (1 - t, t)).field ((Q - P).cross v) := by
    rw [← intervalIntegral.integral_sub (i1 _) (i1 _)]
    unfold sideIntegral
    congr 1
    funext t
    have e : Q + t • (R - Q) = triPoint P Q R (1 - t, t) := by
      unfold triPoint
      ext <;> simp <;> ring
    rw [e]
    unfold Vec.field
    rw [← sub_div]
    congr 1
    simp only [Vec.dot, Vec.cross, Prod.fst_sub, Prod.snd_sub]
    ring
  rw [sideIntegral_neg x v P R, e1, e2, e3, flip]
  ring

/-- How the flux changes when the point moves. -/
theorem flux_hasDerivAt {P Q R x : Vec} {r : ℝ} (h : ∀ z ∈ refCell .triangle, r • x - triPoint P Q R z ≠ 0) :
    HasDerivAt (fun r : ℝ => flux P Q R (r • x))
      (sideIntegral (r • x) x P Q + sideIntegral (r • x) x Q R + sideIntegral (r • x) x R P) r := by
  rw [← stokes x h]
  have hc : Continuous fun p : ℝ × (ℝ × ℝ) => p.1 • x - triPoint P Q R p.2 := by
    have := triPoint_continuous P Q R
    fun_prop
  have hopen : IsOpen {p : ℝ × (ℝ × ℝ) | p.1 • x - triPoint P Q R p.2 ≠ 0} := isOpen_ne_fun hc continuous_const
  obtain ⟨u, v, hu, -, hru, hv, huv⟩ := generalized_tube_lemma (isCompact_singleton (x := r)) (refCell_isCompact .triangle)
    hopen (by
      rintro ⟨a, z⟩ ⟨ha, hz⟩
      obtain rfl : a = r := ha
      exact h z hz)
  obtain ⟨ε, hε, hball⟩ := Metric.nhds_basis_closedBall.mem_iff.mp (hu.mem_nhds (hru rfl))
  have hne : ∀ a ∈ Metric.closedBall r ε, ∀ z ∈ refCell .triangle, a • x - triPoint P Q R z ≠ 0 := fun a ha z hz =>
    huv (mk_mem_prod (hball ha) (hv hz))
  have hfc : ∀ a ∈ Metric.closedBall r ε, ∀ N, ContinuousOn (fun z => (a • x - triPoint P Q R z).field N)
      (refCell .triangle) := fun a ha N z hz =>
    (ContinuousAt.comp (g := fun z => Vec.field z N) (f := fun z => a • x - triPoint P Q R z)
      (Vec.field_continuousAt (hne a ha z hz) N) (by have := triPoint_continuous P Q R; fun_prop)).continuousWithinAt
  have hdc : ContinuousOn (fun p : ℝ × (ℝ × ℝ) => (p.1 • x - triPoint P Q R p.2).dfield x ((Q - P).cross (R - P)))
      (Metric.closedBall r ε ×ˢ refCell .triangle) := fun p hp =>
    (ContinuousAt.comp (g := fun z => Vec.dfield z x ((Q - P).cross (R - P)))
      (f := fun p : ℝ × (ℝ × ℝ) => p.1 • x - triPoint P Q R p.2)
      (Vec.dfield_continuousAt (hne _ hp.1 _ hp.2) _ _) hc.continuousAt).continuousWithinAt
  obtain ⟨C, hC⟩ := ((isCompact_closedBall r ε).prod (refCell_isCompact .triangle)).exists_bound_of_continuousOn hdc
  have hr : r ∈ Metric.closedBall r ε := Metric.mem_closedBall_self hε.le
  refine (hasDerivAt_integral_of_dominated_loc_of_deriv_le (μ := volume.restrict (refCell .triangle))
    (F := fun a z => (a • x - triPoint P Q R z).field ((Q - P).cross (R - P)))
    (F' := fun a z => (a • x - triPoint P Q R z).dfield x ((Q - P).cross (R - P))) (x₀ := r) (bound := fun _ => C)
    (Metric.ball_mem_nhds r hε) ?_ ?_ ?_ ?_ ?_ ?_).2
  · filter_upwards [Metric.closedBall_mem_nhds r hε] with a ha
    exact (hfc a ha _).aestronglyMeasurable (refCell_measurable _)
  · exact (hfc r hr _).integrableOn_compact (refCell_isCompact _)
  · refine ContinuousOn.aestronglyMeasurable ?_ (refCell_measurable _)
    exact fun z hz => (ContinuousAt.comp (g := fun z => Vec.dfield z x ((Q - P).cross (R - P)))
      (f := fun z => r • x - triPoint P Q R z) (Vec.dfield_continuousAt (hne r hr z hz) _ _)
      (by have := triPoint_continuous P Q R; fun_prop)).continuousWithinAt
  · filter_upwards [ae_restrict_mem (refCell_measurable _)] with z hz a ha
    exact hC (a, z) (mk_mem_prod (Metric.ball_subset_closedBall ha) hz)
  · have : IsFiniteMeasure (volume.restrict (refCell .triangle)) :=
      ⟨by rw [Measure.restrict_apply_univ]; exact (refCell_isCompact .triangle).measure_lt_top⟩
    exact integrable_const C
  · filter_upwards [ae_restrict_mem (refCell_measurable _)] with z hz a ha
    refine Vec.field_hasDerivAt (c := fun a : ℝ => a • x - triPoint P Q R z) ?_
      (hne a (Metric.ball_subset_closedBall ha) z hz) _
    simpa using ((hasDerivAt_id a).smul_const x).sub_const (triPoint P Q R z)

end Bempp
