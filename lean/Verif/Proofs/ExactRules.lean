import Verif.Spec.Convergence
import Mathlib.LinearAlgebra.Basis.VectorSpace
import Mathlib.MeasureTheory.Integral.Prod
import Mathlib.LinearAlgebra.Pi
/-
For finitely many integrable functions there is a quadrature rule for pairs of points that is exact for all of them.
-/
namespace Bempp
open MeasureTheory

/-- A point of the span of a set of vectors as a quadrature sum. -/
theorem span_rule {m : Nat} {S : Set ((ℝ × ℝ) × (ℝ × ℝ))} (f : Fin m → (ℝ × ℝ) × (ℝ × ℝ) → ℝ) {I : Fin m → ℝ}
    (h : I ∈ Submodule.span ℝ ((fun z k => f k z) '' S)) :
    ∃ rule : List (((ℝ × ℝ) × (ℝ × ℝ)) × ℝ), (∀ p ∈ rule, p.1 ∈ S) ∧
      ∀ k, (rule.map fun p => p.2 * f k p.1).sum = I k := by
  induction h using Submodule.span_induction with
  | mem x hx =>
    obtain ⟨z, hz, rfl⟩ := hx
    exact ⟨[(z, 1)], by simpa using hz, fun k => by simp⟩
  | zero => exact ⟨[], by simp, fun k => by simp⟩
  | add x y _ _ hx hy =>
    obtain ⟨l, h1, h2⟩ := hx
    obtain ⟨l', h1', h2'⟩ := hy
    refine ⟨l ++ l', fun p hp => ?_, fun k => by simp [h2, h2']⟩
    rcases List.mem_append.mp hp with hp | hp
    · exact h1 p hp
    · exact h1' p hp
  | smul a x _ hx =>
    obtain ⟨l, h1, h2⟩ := hx
    refine ⟨l.map fun p => (p.1, a * p.2), fun p hp => ?_, fun k => ?_⟩
    · obtain ⟨q, hq, rfl⟩ := List.mem_map.mp hp
      exact h1 q hq
    · rw [List.map_map, Pi.smul_apply, smul_eq_mul, ← h2 k, ← List.sum_map_mul_left]
      congr 1
      apply List.map_congr_left
      intro p _
      simp only [Function.comp]
      ring

/-- The integrals of finitely many functions are in the span of their values. -/
theorem integral_mem_span {m : Nat} {S : Set ((ℝ × ℝ) × (ℝ × ℝ))}
    (f : Fin m → (ℝ × ℝ) × (ℝ × ℝ) → ℝ) (hf : ∀ k, IntegrableOn (f k) S) :
    (fun k => ∫ z in S, f k z) ∈ Submodule.span ℝ ((fun z k => f k z) '' S) := by
  by_contra hn
  obtain ⟨φ, h1, h2⟩ := Submodule.exists_le_ker_of_notMem hn
  apply h1
  have hφ : ∀ v : Fin m → ℝ, φ v = ∑ k, v k * φ (Pi.single k 1) := by
    intro v
    conv_lhs => rw [← Finset.univ_sum_single v]
    rw [map_sum]
    refine Finset.sum_congr rfl fun k _ => ?_
    rw [← smul_eq_mul, ← map_smul]
    congr 1
    funext j
    by_cases hj : j = k
    · subst hj; simp
    · simp [hj]
  rw [hφ]
  have : ∑ k, (∫ z in S, f k z) * φ (Pi.single k 1) = ∫ z in S, ∑ k, f k z * φ (Pi.single k 1) := by
    rw [integral_finsetSum _ fun k _ => (hf k).mul_const _]
    refine Finset.sum_congr rfl fun k _ => ?_
    rw [integral_mul_const]
  rw [this]
  apply setIntegral_eq_zero_of_forall_eq_zero
  intro z hz
  rw [← hφ fun k => f k z]
  exact h2 (Submodule.subset_span ⟨z, hz, rfl⟩)

/-- A rule for pairs of points that is exact for finitely many functions. -/
theorem exact_rule {S : Set (ℝ × ℝ)} (L : List (List ℝ → List ℝ → ℝ))
    (hL : ∀ f ∈ L, IntegrableOn (fun z : (ℝ × ℝ) × (ℝ × ℝ) => f (pointList z.1) (pointList z.2)) (S ×ˢ S)) :
    ∃ rule : List (List ℝ × List ℝ × ℝ), (∀ p ∈ rule, p.1.length = 2 ∧ p.2.1.length = 2) ∧
      ∀ f ∈ L, (rule.map fun p => p.2.2 * f p.1 p.2.1).sum =
        ∫ x in S, ∫ y in S, f (pointList x) (pointList y) := by
  obtain ⟨rule, -, h⟩ := span_rule (fun k : Fin L.length => fun z : (ℝ × ℝ) × (ℝ × ℝ) =>
    (L[k]) (pointList z.1) (pointList z.2)) (integral_mem_span _ fun k => hL _ (List.getElem_mem _))
  refine ⟨rule.map fun p => (pointList p.1.1, pointList p.1.2, p.2), ?_, ?_⟩
  · intro p hp
    obtain ⟨q, -, rfl⟩ := List.mem_map.mp hp
    exact ⟨rfl, rfl⟩
  · intro f hf
    obtain ⟨k, hk, rfl⟩ := List.getElem_of_mem hf
    have := h ⟨k, hk⟩
    rw [List.map_map]
    refine this.trans ?_
    have h2 := hL _ (List.getElem_mem hk)
    rw [Measure.volume_eq_prod] at h2 ⊢
    exact setIntegral_prod _ h2

end Bempp
