import Verif.Spec.Convergence
import Mathlib.MeasureTheory.Integral.Bochner.ContinuousLinearMap
import Mathlib.Analysis.Normed.Module.RCLike.Real
import Mathlib.Topology.MetricSpace.UniformConvergence
/-
Tensor products of convergent quadrature rules converge.
-/
namespace Bempp
open MeasureTheory Filter Topology

theorem refCell_isCompact (t : CellType) : IsCompact (refCell t) := by
  have hb : IsCompact (Set.Icc (0 : ℝ) 1 ×ˢ Set.Icc (0 : ℝ) 1) := isCompact_Icc.prod isCompact_Icc
  cases t <;> try exact isCompact_empty
  · refine hb.of_isClosed_subset ?_ ?_
    · exact ((isClosed_le continuous_const continuous_fst).inter
        ((isClosed_le continuous_const continuous_snd).inter
          (isClosed_le (continuous_fst.add continuous_snd) continuous_const)))
    · rintro ⟨x, y⟩ ⟨h1, h2, h3⟩
      dsimp only at h1 h2 h3
      exact ⟨⟨h1, by dsimp only; linarith⟩, ⟨h2, by dsimp only; linarith⟩⟩
  · convert hb using 1
    ext ⟨x, y⟩
    simp only [refCell, Set.mem_ofPred_eq, Set.mem_prod, Set.mem_Icc]
    tauto

section
variable {T : Type} [RCLike T]

/-- The value of a rule for a function with values in `T`. -/
noncomputable def ruleSum (rule : List (List ℝ × ℝ)) (g : List ℝ → T) : T := (rule.map fun p => ((p.2 : ℝ) : T) * g p.1).sum

theorem ruleSum_sub (rule : List (List ℝ × ℝ)) (g g' : List ℝ → T) :
    ruleSum rule g - ruleSum rule g' = ruleSum rule fun x => g x - g' x := by
  unfold ruleSum
  induction rule with
  | nil => simp
  | cons p l ih =>
    simp only [List.map_cons, List.sum_cons]
    rw [← ih]; ring

theorem ruleSum_norm_le {rule : List (List ℝ × ℝ)} {g : List ℝ → T} {η : ℝ} (h : ∀ p ∈ rule, ‖g p.1‖ ≤ η) :
    ‖ruleSum rule g‖ ≤ (rule.map fun p => |p.2|).sum * η := by
  unfold ruleSum
  induction rule with
  | nil => simp
  | cons p l ih =>
    simp only [List.map_cons, List.sum_cons]
    have h1 := ih fun q hq => h q (List.mem_cons_of_mem _ hq)
    have h2 : ‖((p.2 : ℝ) : T) * g p.1‖ ≤ |p.2| * η := by
      rw [norm_mul, RCLike.norm_ofReal]
      exact mul_le_mul_of_nonneg_left (h p List.mem_cons_self) (abs_nonneg _)
    calc _ ≤ ‖((p.2 : ℝ) : T) * g p.1‖ + ‖(List.map (fun p : List ℝ × ℝ => ((p.2 : ℝ) : T) * g p.1) l).sum‖ := norm_add_le _ _
      _ ≤ _ := by rw [add_mul]; linarith

/-- Convergence for functions with values in `T`. -/
theorem RulesConverge.limitT {S : Set (ℝ × ℝ)} {rule : Nat → List (List ℝ × ℝ)} (h : RulesConverge S rule)
    (hS : IsCompact S) {g : List ℝ → T} (hg : ContinuousOn (fun z => g (pointList z)) S) :
    Tendsto (fun n => ruleSum (rule n) g) atTop (𝓝 (∫ z in S, g (pointList z))) := by
  have h1 := h.limit (fun x => RCLike.re (g x)) (RCLike.continuous_re.comp_continuousOn hg)
  have h2 := h.limit (fun x => RCLike.im (g x)) (RCLike.continuous_im.comp_continuousOn hg)
  have hi : IntegrableOn (fun z => g (pointList z)) S := hg.integrableOn_compact hS
  rw [← integral_re_add_im hi]
  have e : ∀ n, ruleSum (rule n) g = (((rule n).map fun p => p.2 * RCLike.re (g p.1)).sum : ℝ) +
      ((((rule n).map fun p => p.2 * RCLike.im (g p.1)).sum : ℝ) : T) * RCLike.I := by
    intro n
    unfold ruleSum
    induction rule n with
    | nil => simp
    | cons p l ih =>
      simp only [List.map_cons, List.sum_cons, ih]
      conv_lhs => rw [← RCLike.re_add_im (g p.1)]
      push_cast
      ring
  simp only [e]
  exact ((RCLike.continuous_ofReal.tendsto _).comp h1).add
    (((RCLike.continuous_ofReal.tendsto _).comp h2).mul tendsto_const_nhds)

/-- The value of a tensor product of two rules. -/
theorem RulesConverge.product {S : Set (ℝ × ℝ)} {r : Nat → List (List ℝ × ℝ)}
    (hr : RulesConverge S r) (hS : IsCompact S) {f : List ℝ → List ℝ → T}
    (hf : ContinuousOn (fun z : (ℝ × ℝ) × (ℝ × ℝ) => f (pointList z.1) (pointList z.2)) (S ×ˢ S)) :
    Tendsto (fun n => ruleSum (r n) fun x => ruleSum (r n) fun y => f x y) atTop
      (𝓝 (∫ x in S, ∫ y in S, f (pointList x) (pointList y))) := by
  obtain ⟨C, hC⟩ := hr.weights
  have hC0 : 0 ≤ C := le_trans (List.sum_nonneg (by
    intro x hx
    obtain ⟨p, _, rfl⟩ := List.mem_map.mp hx
    exact abs_nonneg _)) (hC 0)
  have huc := (hS.prod hS).uniformContinuousOn_of_continuous hf
  rw [Metric.uniformContinuousOn_iff] at huc
  have hslice : ∀ x ∈ S, ContinuousOn (fun y => f (pointList x) (pointList y)) S := by
    intro x hx
    exact hf.comp (f := fun y => (x, y)) (by fun_prop) fun y hy => ⟨hx, hy⟩
  set g : List ℝ → T := fun x => ∫ y in S, f x (pointList y) with hg
  set V := volume.real S with hV
  have hV0 : 0 ≤ V := measureReal_nonneg
  -- how much the inner integral and the inner rule depend on the outer point
  have close : ∀ η > 0, ∃ δ > 0, ∀ x ∈ S, ∀ x' ∈ S, dist x x' < δ →
      ‖g (pointList x) - g (pointList x')‖ ≤ η * V ∧
      ∀ n, ‖ruleSum (r n) (f (pointList x)) - ruleSum (r n) (f (pointList x'))‖ ≤ C * η := by
    intro η hη
    obtain ⟨δ, hδ, hd⟩ := huc η hη
    refine ⟨δ, hδ, fun x hx x' hx' hxx => ?_⟩
    have hp : ∀ y ∈ S, ‖f (pointList x) (pointList y) - f (pointList x') (pointList y)‖ ≤ η := by
      intro y hy
      have := hd (x, y) ⟨hx, hy⟩ (x', y) ⟨hx', hy⟩ (by
        rw [Prod.dist_eq]; simpa using hxx)
      rw [dist_eq_norm] at this
      exact this.le
    constructor
    · rw [hg]
      dsimp only
      rw [← integral_sub ((hslice x hx).integrableOn_compact hS) ((hslice x' hx').integrableOn_compact hS)]
      exact norm_setIntegral_le_of_norm_le_const hS.measure_lt_top hp
    · intro n
      rw [ruleSum_sub]
      refine (ruleSum_norm_le (η := η) ?_).trans (mul_le_mul_of_nonneg_right (hC n) hη.le)
      intro p hp'
      obtain ⟨z, hz, e⟩ := hr.nodes n p hp'
      rw [e]
      exact hp z hz
  -- the inner integral is continuous
  have hgc : ContinuousOn (fun z => g (pointList z)) S := by
    rw [Metric.continuousOn_iff]
    intro x hx ε hε
    obtain ⟨δ, hδ, h⟩ := close (ε / (V + 1)) (by positivity)
    refine ⟨δ, hδ, fun x' hx' hd => ?_⟩
    rw [dist_eq_norm]
    refine lt_of_le_of_lt (h x' hx' x hx hd).1 ?_
    rw [div_mul_eq_mul_div, div_lt_iff₀ (by positivity)]
    nlinarith
  -- the inner rules converge uniformly
  have huni : ∀ ε > 0, ∀ᶠ n in atTop, ∀ x ∈ S, ‖ruleSum (r n) (f (pointList x)) - g (pointList x)‖ ≤ ε := by
    intro ε hε
    set η := ε / (V + C + 1) with hη
    have hη0 : 0 < η := by positivity
    obtain ⟨δ, hδ, h⟩ := close η hη0
    obtain ⟨u, hu, huf, hcov⟩ := hS.finite_cover_balls hδ
    have hpt : ∀ᶠ n in atTop, ∀ x ∈ u, ‖ruleSum (r n) (f (pointList x)) - g (pointList x)‖ < η := by
      rw [eventually_all_finite huf]
      intro x hx
      have := hr.limitT hS (hslice x (hu hx))
      rw [Metric.tendsto_nhds] at this
      simpa [dist_eq_norm] using this η hη0
    filter_upwards [hpt] with n hn x hx
    have hx' := hcov hx
    simp only [Set.mem_iUnion, Metric.mem_ball] at hx'
    obtain ⟨x', hx'u, hd⟩ := hx'
    obtain ⟨h1, h2⟩ := h x hx x' (hu hx'u) hd
    have h3 := hn x' hx'u
    have e : ruleSum (r n) (f (pointList x)) - g (pointList x) =
        (ruleSum (r n) (f (pointList x)) - ruleSum (r n) (f (pointList x'))) +
        (ruleSum (r n) (f (pointList x')) - g (pointList x')) - (g (pointList x) - g (pointList x')) := by ring
    rw [e]
    calc _ ≤ C * η + η + η * V := by
          refine (norm_sub_le _ _).trans (add_le_add ((norm_add_le _ _).trans (add_le_add (h2 n) h3.le)) h1)
      _ = η * (V + C + 1) := by ring
      _ = ε := by rw [hη]; field_simp
  -- together
  have hout := hr.limitT hS hgc
  rw [Metric.tendsto_nhds] at hout ⊢
  intro ε hε
  filter_upwards [huni (ε / (2 * (C + 1))) (by positivity), hout (ε / 2) (by positivity)] with n h1 h2
  rw [dist_eq_norm] at h2 ⊢
  have h3 : ‖ruleSum (r n) (fun x => ruleSum (r n) fun y => f x y) - ruleSum (r n) g‖ ≤ C * (ε / (2 * (C + 1))) := by
    rw [ruleSum_sub]
    refine (ruleSum_norm_le (η := ε / (2 * (C + 1))) ?_).trans (mul_le_mul_of_nonneg_right (hC n) (by positivity))
    intro p hp
    obtain ⟨z, hz, e⟩ := hr.nodes n p hp
    rw [e]
    exact h1 z hz
  have h4 : C * (ε / (2 * (C + 1))) < ε / 2 := by
    rw [mul_div_assoc', div_lt_div_iff₀ (by positivity) (by positivity)]
    nlinarith
  calc _ = ‖(ruleSum (r n) (fun x => ruleSum (r n) fun y => f x y) - ruleSum (r n) g) +
        (ruleSum (r n) g - ∫ z in S, g (pointList z))‖ := by congr 1; ring
    _ ≤ _ := norm_add_le _ _
    _ < ε := by linarith

end
end Bempp
