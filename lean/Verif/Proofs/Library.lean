import Verif.Spec.Library
import Mathlib.Topology.MetricSpace.Pseudo.Pi
/-
Small errors of vertices and of the values from the libraries are small errors of the data of an operator.
-/
namespace Bempp
open Filter Topology

/-- Finitely many conditions on small numbers are met together. -/
theorem exists_common {α : Type} {S : Set α} (hS : S.Finite) {P : α → ℝ → Prop}
    (mono : ∀ a ∈ S, ∀ d d', 0 < d' → d' ≤ d → P a d → P a d') (h : ∀ a ∈ S, ∃ d > 0, P a d) :
    ∃ d > 0, ∀ a ∈ S, P a d := by
  choose! f hf using h
  rcases S.eq_empty_or_nonempty with rfl | hne
  · exact ⟨1, one_pos, fun a ha => absurd ha (Set.notMem_empty a)⟩
  · obtain ⟨b, hb, hmin⟩ := hS.exists_minimalFor f S hne
    refine ⟨f b, (hf b hb).1, fun a ha => mono a ha (f a) (f b) (hf b hb).1 ?_ (hf a ha).2⟩
    rcases le_total (f b) (f a) with h | h
    · exact h
    · exact hmin ha h

/-- A continuous function of the `n` vertices of a cell. -/
theorem near_of_continuousAt (n : Nat) {W : Nat → Nat → ℝ} {f : (Nat → Nat → ℝ) → ℝ} (hf : ContinuousAt f W)
    (hloc : ∀ W₁ W₂, (∀ k i, k < n → i < 3 → W₁ k i = W₂ k i) → f W₁ = f W₂) {e : ℝ} (he : 0 < e) :
    ∃ d > 0, ∀ W', (∀ k i, k < n → i < 3 → |W' k i - W k i| ≤ d) → |f W' - f W| ≤ e := by
  let E : (Fin n → Fin 3 → ℝ) → (Nat → Nat → ℝ) := fun w k i => if h : k < n ∧ i < 3 then w ⟨k, h.1⟩ ⟨i, h.2⟩ else W k i
  let w₀ : Fin n → Fin 3 → ℝ := fun k i => W k i
  have hE : Continuous E := by
    refine continuous_pi fun k => continuous_pi fun i => ?_
    by_cases h : k < n ∧ i < 3
    · simp only [E, h, dif_pos, and_self]
      exact (continuous_apply (⟨i, h.2⟩ : Fin 3)).comp (continuous_apply (⟨k, h.1⟩ : Fin n))
    · simp only [E, h, dif_neg, not_false_eq_true]
      exact continuous_const
  have h0 : E w₀ = W := by
    funext k i
    by_cases h : k < n ∧ i < 3
    · simp only [E, h, dif_pos, and_self, w₀]
    · simp only [E, h, dif_neg, not_false_eq_true]
  have hc : ContinuousAt (fun w => f (E w)) w₀ := by
    refine ContinuousAt.comp ?_ hE.continuousAt
    rw [h0]
    exact hf
  obtain ⟨d, hd, hb⟩ := Metric.continuousAt_iff.mp hc e he
  refine ⟨d / 2, by positivity, fun W' hW' => ?_⟩
  have h1 := hb (x := fun k i => W' k i) (lt_of_le_of_lt ((dist_pi_le_iff (by positivity)).mpr fun k =>
    (dist_pi_le_iff (by positivity)).mpr fun i => by
      rw [Real.dist_eq]
      exact hW' k i k.2 i.2) (half_lt_self hd))
  have h2 : f (E fun k i => W' k i) = f W' := hloc _ _ fun k i hk hi => by simp only [E, hk, hi, and_self, dif_pos]
  rw [Real.dist_eq, h2, h0] at h1
  exact h1.le

theorem near_trans {E : Type} [NormedAddCommGroup E] (v : E) {e : ℝ} (he : 0 < e) :
    ∃ d > 0, ∀ (d' : ℝ) (a v' : E), 0 ≤ d' → d' ≤ d → ‖v' - v‖ ≤ d → ‖a - v'‖ ≤ d' * (1 + ‖v'‖) → ‖a - v‖ ≤ e := by
  have h3 : 0 < 3 + ‖v‖ := by positivity
  refine ⟨min 1 (e / (3 + ‖v‖)), lt_min one_pos (by positivity), fun d' a v' h0 h1 h2 h4 => ?_⟩
  have hd : d' ≤ e / (3 + ‖v‖) := h1.trans (min_le_right _ _)
  have h5 : ‖v' - v‖ ≤ e / (3 + ‖v‖) := h2.trans (min_le_right _ _)
  have h6 : 1 + ‖v'‖ ≤ 2 + ‖v‖ := by
    have := norm_sub_norm_le v' v
    linarith [h2.trans (min_le_left _ _)]
  calc ‖a - v‖ ≤ ‖a - v'‖ + ‖v' - v‖ := norm_sub_le_norm_sub_add_norm_sub ..
    _ ≤ d' * (1 + ‖v'‖) + e / (3 + ‖v‖) := add_le_add h4 h5
    _ ≤ e / (3 + ‖v‖) * (2 + ‖v‖) + e / (3 + ‖v‖) := by gcongr
    _ = e := by field_simp; ring

section
variable (N : ShapeFunctions)

theorem tangent_continuous (x : List ℝ) (j i : Nat) :
    Continuous fun W : Nat → Nat → ℝ => ((List.range N.n).map fun k => N.deriv j k x * W k i).sum := by
  refine continuous_list_sum _ fun k _ => ?_
  fun_prop

theorem tangent_local {x : List ℝ} {j i : Nat} (hi : i < 3) {W₁ W₂ : Nat → Nat → ℝ}
    (h : ∀ k i, k < N.n → i < 3 → W₁ k i = W₂ k i) :
    ((List.range N.n).map fun k => N.deriv j k x * W₁ k i).sum = ((List.range N.n).map fun k => N.deriv j k x * W₂ k i).sum := by
  congr 1
  refine List.map_congr_left fun k hk => ?_
  rw [h k i (List.mem_range.mp hk) hi]

theorem cross3_local {u u' v v' : Nat → ℝ} (hu : ∀ i, i < 3 → u i = u' i) (hv : ∀ i, i < 3 → v i = v' i) (i : Nat) :
    cross3 u v i = cross3 u' v' i := by
  have a0 := hu 0 (by omega); have a1 := hu 1 (by omega); have a2 := hu 2 (by omega)
  have b0 := hv 0 (by omega); have b1 := hv 1 (by omega); have b2 := hv 2 (by omega)
  match i with
  | 0 => simp only [cross3, a1, a2, b1, b2]
  | 1 => simp only [cross3, a0, a2, b0, b2]
  | i + 2 => simp only [cross3, a0, a1, b0, b1]

theorem cross3_continuous {u v : (Nat → Nat → ℝ) → Nat → ℝ} (hu : ∀ i, Continuous fun W => u W i)
    (hv : ∀ i, Continuous fun W => v W i) (i : Nat) : Continuous fun W => cross3 (u W) (v W) i := by
  match i with
  | 0 => exact ((hu 1).mul (hv 2)).sub ((hu 2).mul (hv 1))
  | 1 => exact ((hu 2).mul (hv 0)).sub ((hu 0).mul (hv 2))
  | i + 2 => exact ((hu 0).mul (hv 1)).sub ((hu 1).mul (hv 0))

theorem norm3_continuous {u : (Nat → Nat → ℝ) → Nat → ℝ} (hu : ∀ i, Continuous fun W => u W i) :
    Continuous fun W => norm3 (u W) := by
  unfold norm3
  exact (((hu 0).mul (hu 0)).add ((hu 1).mul (hu 1))).add ((hu 2).mul (hu 2)) |>.sqrt

/-- The values for the vertices `V` and for vertices that are close to `V`. -/
theorem near_geometry (V : Nat → Nat → Nat → ℝ) (c : Nat) (x' : List ℝ) (hj : (vertexGeometry N V).jdet c x' ≠ 0) {e : ℝ}
    (he : 0 < e) :
    ∃ d > 0, ∀ d', 0 ≤ d' → d' ≤ d → ∀ V' G x, (∀ k i, k < N.n → i < 3 → |V' c k i - V c k i| ≤ d') →
      Geometry.NearAt d' G (vertexGeometry N V') c x x' →
      (∀ i, i < 3 → |G.point c x i - (vertexGeometry N V).point c x' i| ≤ e) ∧
      (∀ i, i < 3 → |G.normal c x i - (vertexGeometry N V).normal c x' i| ≤ e) ∧
      (∀ i, i < 6 → |G.jacobian c x i - (vertexGeometry N V).jacobian c x' i| ≤ e) ∧
      |G.jdet c x - (vertexGeometry N V).jdet c x'| ≤ e := by
  have key : ∀ (f : (Nat → Nat → ℝ) → ℝ), ContinuousAt f (V c) →
      (∀ W₁ W₂, (∀ k i, k < N.n → i < 3 → W₁ k i = W₂ k i) → f W₁ = f W₂) →
      ∃ d > 0, ∀ d', 0 ≤ d' → d' ≤ d → ∀ (W' : Nat → Nat → ℝ) (a : ℝ), (∀ k i, k < N.n → i < 3 → |W' k i - V c k i| ≤ d') →
        |a - f W'| ≤ d' * (1 + |f W'|) → |a - f (V c)| ≤ e := by
    intro f hf hl
    obtain ⟨d1, hd1, h1⟩ := near_trans (f (V c)) he
    obtain ⟨d2, hd2, h2⟩ := near_of_continuousAt N.n hf hl hd1
    refine ⟨min d1 d2, lt_min hd1 hd2, fun d' h0 hd' W' a hW ha => ?_⟩
    exact h1 d' a _ h0 (hd'.trans (min_le_left _ _)) (h2 W' fun k i hk hi => (hW k i hk hi).trans (hd'.trans (min_le_right _ _))) ha
  have hc : ∀ i, Continuous fun W : Nat → Nat → ℝ =>
      cross3 (fun i => ((List.range N.n).map fun k => N.deriv 0 k x' * W k i).sum)
        (fun i => ((List.range N.n).map fun k => N.deriv 1 k x' * W k i).sum) i := fun i =>
    cross3_continuous (fun i => tangent_continuous N x' 0 i) (fun i => tangent_continuous N x' 1 i) i
  have hcl : ∀ (i : Nat) (W₁ W₂ : Nat → Nat → ℝ), (∀ k i, k < N.n → i < 3 → W₁ k i = W₂ k i) →
      cross3 (fun i => ((List.range N.n).map fun k => N.deriv 0 k x' * W₁ k i).sum)
        (fun i => ((List.range N.n).map fun k => N.deriv 1 k x' * W₁ k i).sum) i =
      cross3 (fun i => ((List.range N.n).map fun k => N.deriv 0 k x' * W₂ k i).sum)
        (fun i => ((List.range N.n).map fun k => N.deriv 1 k x' * W₂ k i).sum) i := fun i W₁ W₂ h =>
    cross3_local (fun i hi => tangent_local N hi h) (fun i hi => tangent_local N hi h) i
  have hnl : ∀ (W₁ W₂ : Nat → Nat → ℝ), (∀ k i, k < N.n → i < 3 → W₁ k i = W₂ k i) →
      norm3 (cross3 (fun i => ((List.range N.n).map fun k => N.deriv 0 k x' * W₁ k i).sum)
        (fun i => ((List.range N.n).map fun k => N.deriv 1 k x' * W₁ k i).sum)) =
      norm3 (cross3 (fun i => ((List.range N.n).map fun k => N.deriv 0 k x' * W₂ k i).sum)
        (fun i => ((List.range N.n).map fun k => N.deriv 1 k x' * W₂ k i).sum)) := fun W₁ W₂ h => by
    unfold norm3
    rw [hcl 0 W₁ W₂ h, hcl 1 W₁ W₂ h, hcl 2 W₁ W₂ h]
  obtain ⟨dp, hdp, hp⟩ := exists_common (Set.finite_lt_nat 3)
    (P := fun i d => ∀ d', 0 ≤ d' → d' ≤ d → ∀ (W' : Nat → Nat → ℝ) (a : ℝ),
      (∀ k i, k < N.n → i < 3 → |W' k i - V c k i| ≤ d') →
        |a - ((List.range N.n).map fun k => N.value k x' * W' k i).sum| ≤
          d' * (1 + |((List.range N.n).map fun k => N.value k x' * W' k i).sum|) →
        |a - ((List.range N.n).map fun k => N.value k x' * V c k i).sum| ≤ e)
    (fun i _ d d1 _ h1 h d' h0 h2 => h d' h0 (h2.trans h1)) (fun i hi => key
      (fun W => ((List.range N.n).map fun k => N.value k x' * W k i).sum)
      (continuous_list_sum _ fun k _ => by fun_prop).continuousAt (fun W₁ W₂ h => by
        congr 1
        exact List.map_congr_left fun k hk => by rw [h k i (List.mem_range.mp hk) hi]))
  obtain ⟨dn, hdn, hn⟩ := exists_common (Set.finite_lt_nat 3)
    (P := fun i d => ∀ d', 0 ≤ d' → d' ≤ d → ∀ (W' : Nat → Nat → ℝ) (a : ℝ),
      (∀ k i, k < N.n → i < 3 → |W' k i - V c k i| ≤ d') →
        |a - (vertexGeometry N fun _ => W').normal c x' i| ≤ d' * (1 + |(vertexGeometry N fun _ => W').normal c x' i|) →
        |a - (vertexGeometry N V).normal c x' i| ≤ e)
    (fun i _ d d1 _ h1 h d' h0 h2 => h d' h0 (h2.trans h1)) (fun i hi => key
      (fun W => (vertexGeometry N fun _ => W).normal c x' i)
      ((hc i).continuousAt.div (norm3_continuous hc).continuousAt hj) (fun W₁ W₂ h => by
        show _ / _ = _ / _
        rw [hnl W₁ W₂ h]
        exact congrArg (· / _) (hcl i W₁ W₂ h)))
  obtain ⟨dj, hdj, hja⟩ := exists_common (Set.finite_lt_nat 6)
    (P := fun i d => ∀ d', 0 ≤ d' → d' ≤ d → ∀ (W' : Nat → Nat → ℝ) (a : ℝ),
      (∀ k i, k < N.n → i < 3 → |W' k i - V c k i| ≤ d') →
        |a - (vertexGeometry N fun _ => W').jacobian c x' i| ≤ d' * (1 + |(vertexGeometry N fun _ => W').jacobian c x' i|) →
        |a - (vertexGeometry N V).jacobian c x' i| ≤ e)
    (fun i _ d d1 _ h1 h d' h0 h2 => h d' h0 (h2.trans h1)) (fun i hi => key
      (fun W => (vertexGeometry N fun _ => W).jacobian c x' i)
      (tangent_continuous N x' (i / 3) (i % 3)).continuousAt (fun W₁ W₂ h =>
        tangent_local N (Nat.mod_lt _ (by omega)) h))
  obtain ⟨dd, hdd, hd⟩ := key (fun W => (vertexGeometry N fun _ => W).jdet c x') (norm3_continuous hc).continuousAt hnl
  refine ⟨min (min dp dn) (min dj dd), lt_min (lt_min hdp hdn) (lt_min hdj hdd), fun d' h0 h1 V' G x hV hG => ?_⟩
  obtain ⟨h2, h3⟩ := le_min_iff.mp h1
  obtain ⟨k1, k2⟩ := le_min_iff.mp h2
  obtain ⟨k3, k4⟩ := le_min_iff.mp h3
  exact ⟨fun i hi => hp i hi d' h0 k1 (V' c) _ hV (hG.point i hi), fun i hi => hn i hi d' h0 k2 (V' c) _ hV (hG.normal i hi),
    fun i hi => hja i hi d' h0 k3 (V' c) _ hV (hG.jacobian i hi), hd d' h0 k4 (V' c) _ hV hG.jdet⟩

theorem within_of_le {𝕜 : Type} [NormedField 𝕜] {e : ℝ} (he : 0 ≤ e) {a b : 𝕜} (h : ‖a - b‖ ≤ e) :
    Within e a b (1 + ‖b‖) := by
  refine ⟨h.trans ?_, by linarith⟩
  nlinarith [norm_nonneg b]

/-- The geometry and the points, for one cell and one node. -/
theorem near_cell (V : Nat → Nat → Nat → ℝ) (c : Nat) (x' : List ℝ) (hj : (vertexGeometry N V).jdet c x' ≠ 0) {e : ℝ}
    (he : 0 < e) :
    ∃ d > 0, ∀ d', 0 ≤ d' → d' ≤ d → ∀ V' G x, (∀ k i, k < N.n → i < 3 → |V' c k i - V c k i| ≤ d') →
      Geometry.NearAt d' G (vertexGeometry N V') c x x' →
      Geometry.WithinAt e G (vertexGeometry N V) (vertexGeometry N V).scales c x x' ∧
        ∀ i, i < 3 → |G.point c x i - (vertexGeometry N V).point c x' i| ≤ e := by
  have hJ : 0 < |(vertexGeometry N V).jdet c x'| := abs_pos.mpr hj
  obtain ⟨d, hd, h⟩ := near_geometry N V c x' hj (e := min e (min (e * |(vertexGeometry N V).jdet c x'| / 2)
    (|(vertexGeometry N V).jdet c x'| / 2))) (lt_min he (lt_min (by positivity) (by positivity)))
  refine ⟨d, hd, fun d' h0 hd' V' G x hV hG => ?_⟩
  obtain ⟨h1, h2, h3, h4⟩ := h d' h0 hd' V' G x hV hG
  have l1 := min_le_left e (min (e * |(vertexGeometry N V).jdet c x'| / 2) (|(vertexGeometry N V).jdet c x'| / 2))
  have l2 := (min_le_right e (min (e * |(vertexGeometry N V).jdet c x'| / 2) (|(vertexGeometry N V).jdet c x'| / 2)))
  have l3 := l2.trans (min_le_left _ _)
  have l4 := l2.trans (min_le_right _ _)
  refine ⟨⟨fun i hi => within_of_le he.le ((h2 i hi).trans l1), fun i hi => within_of_le he.le ((h3 i hi).trans l1), rfl, ?_,
    ?_, hj⟩, fun i hi => (h1 i hi).trans l1⟩
  · refine (h4.trans l3).trans ?_
    have : 0 < e * |(vertexGeometry N V).jdet c x'| := by positivity
    linarith
  · have h5 : |(vertexGeometry N V).jdet c x'| / 2 ≤ |G.jdet c x| := by
      have := abs_sub_abs_le_abs_sub ((vertexGeometry N V).jdet c x') (G.jdet c x)
      rw [abs_sub_comm] at this
      linarith [h4.trans l4]
    refine (h4.trans l3).trans ?_
    nlinarith

end

section
variable {T : Type} [RCLike T]

/-- The kernel at two different points. -/
theorem near_kernel {K : MathKernel ℝ T} (hK : ContinuousKernel K) (P R : Nat → ℝ)
    (hne : (List.range 3).map P ≠ (List.range 3).map R) {e : ℝ} (he : 0 < e) :
    ∃ d > 0, ∀ d', 0 ≤ d' → d' ≤ d → ∀ p r : Nat → ℝ, (∀ i, i < 3 → |p i - P i| ≤ d) → (∀ i, i < 3 → |r i - R i| ≤ d) →
      ∀ i, i < 4 → ∀ a : T, ‖a - K ((List.range 3).map p) ((List.range 3).map r) i‖ ≤
        d' * (1 + ‖K ((List.range 3).map p) ((List.range 3).map r) i‖) →
      ‖a - K ((List.range 3).map P) ((List.range 3).map R) i‖ ≤ e := by
  have hne' : ((P 0, P 1, P 2) : ℝ × ℝ × ℝ) ≠ (R 0, R 1, R 2) := by
    intro h
    simp only [Prod.mk.injEq] at h
    apply hne
    show [P 0, P 1, P 2] = [R 0, R 1, R 2]
    rw [h.1, h.2.1, h.2.2]
  have ho : IsOpen {z : (ℝ × ℝ × ℝ) × (ℝ × ℝ × ℝ) | z.1 ≠ z.2} := isOpen_ne_fun continuous_fst continuous_snd
  obtain ⟨d, hd, h⟩ := exists_common (Set.finite_lt_nat 4)
    (P := fun i d => ∀ d', 0 ≤ d' → d' ≤ d → ∀ p r : Nat → ℝ, (∀ i, i < 3 → |p i - P i| ≤ d) →
      (∀ i, i < 3 → |r i - R i| ≤ d) → ∀ a : T, ‖a - K ((List.range 3).map p) ((List.range 3).map r) i‖ ≤
        d' * (1 + ‖K ((List.range 3).map p) ((List.range 3).map r) i‖) →
      ‖a - K ((List.range 3).map P) ((List.range 3).map R) i‖ ≤ e)
    (fun i _ d d1 _ h1 h d' h0 h2 p r hp hr => h d' h0 (h2.trans h1) p r (fun i hi => (hp i hi).trans h1)
      fun i hi => (hr i hi).trans h1) (fun i hi => by
      have hc := (hK i hi).continuousAt (ho.mem_nhds (show ((P 0, P 1, P 2), (R 0, R 1, R 2)) ∈ _ from hne'))
      obtain ⟨d1, hd1, h1⟩ := near_trans (K [P 0, P 1, P 2] [R 0, R 1, R 2] i) he
      obtain ⟨d2, hd2, h2⟩ := Metric.continuousAt_iff.mp hc d1 hd1
      refine ⟨min d1 (d2 / 2), lt_min hd1 (by positivity), fun d' h0 hd' p r hp hr a ha => ?_⟩
      refine h1 d' a (K [p 0, p 1, p 2] [r 0, r 1, r 2] i) h0 (hd'.trans (min_le_left _ _)) ?_ ha
      have h3 := h2 (x := ((p 0, p 1, p 2), (r 0, r 1, r 2))) (lt_of_le_of_lt (b := d2 / 2) (by
        have hp' := fun i hi => (hp i hi).trans (min_le_right _ _)
        have hr' := fun i hi => (hr i hi).trans (min_le_right _ _)
        simp only [Prod.dist_eq, Real.dist_eq]
        exact max_le (max_le (hp' 0 (by omega)) (max_le (hp' 1 (by omega)) (hp' 2 (by omega))))
          (max_le (hr' 0 (by omega)) (max_le (hr' 1 (by omega)) (hr' 2 (by omega))))) (half_lt_self hd2))
      rw [dist_eq_norm] at h3
      exact h3.le)
  exact ⟨d, hd, fun d' h0 hd' p r hp hr i hi a ha => h i hi d' h0 hd' p r hp hr a ha⟩

end
end Bempp
