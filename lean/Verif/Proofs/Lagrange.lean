import Verif.Spec.Lagrange
import Verif.Proofs.ShapeSurface
import Verif.Proofs.Convergence
import Mathlib.Data.Nat.Choose.Basic
import Mathlib.Data.Nat.Choose.Cast
import Mathlib.Topology.Algebra.Monoid
import Mathlib.Tactic.FieldSimp
/-
Lagrange basis functions on the boundary of the reference cells.
-/
namespace Bempp

theorem ramp_zero (p : Nat) (z : ℝ) : ramp p 0 z = 1 := by simp [ramp]

theorem ramp_succ (p i : Nat) (z : ℝ) : ramp p (i + 1) z = ramp p i z * (((p : ℝ) * z - i) / (i + 1)) := by
  rw [ramp, Finset.prod_range_succ, ← ramp]

theorem ramp_at_zero {i : Nat} (p : Nat) (h : 0 < i) : ramp p i 0 = 0 := by
  refine Finset.prod_eq_zero (Finset.mem_range.mpr h) ?_
  simp

theorem ramp_node {p : Nat} (hp : 0 < p) (i j : Nat) : ramp p i ((j : ℝ) / p) = (j.choose i : ℝ) := by
  have hp' : (p : ℝ) ≠ 0 := by positivity
  induction i with
  | zero => simp [ramp_zero]
  | succ i ih =>
    rw [ramp_succ, ih, mul_div_cancel₀ _ hp']
    have h := Nat.choose_succ_right_eq j i
    have h' : ((j.choose (i + 1) : ℝ)) * (i + 1) = (j.choose i : ℝ) * ((j : ℝ) - i) := by
      rcases Nat.lt_or_ge j i with hji | hij
      · rw [Nat.choose_eq_zero_of_lt hji, Nat.choose_eq_zero_of_lt (by omega)]
        simp
      · have := congrArg (fun n : Nat => (n : ℝ)) h
        push_cast [Nat.cast_sub hij] at this
        exact this
    field_simp
    linarith

theorem ramp_one {p : Nat} (hp : 0 < p) : ramp p p 1 = 1 := by
  have := ramp_node hp p p
  rwa [div_self (by positivity), Nat.choose_self, Nat.cast_one] at this

theorem ramp_continuous (p i : Nat) : Continuous (ramp p i) := by
  unfold ramp
  fun_prop

theorem lagrangeFunction_continuous (p : Nat) (t : CellType) (n : Nat × Nat) : Continuous (lagrangeFunction p t n) := by
  have h := fun i => ramp_continuous p i
  unfold lagrangeFunction
  split
  · exact (((h _).comp continuous_fst).mul ((h _).comp (continuous_const.sub continuous_fst))).mul
      (((h _).comp continuous_snd).mul ((h _).comp (continuous_const.sub continuous_snd)))
  · exact (((h _).comp ((continuous_const.sub continuous_fst).sub continuous_snd)).mul ((h _).comp continuous_fst)).mul
      ((h _).comp continuous_snd)

/-- The basis functions are 1 at their own point and 0 at the other points of the element. -/
theorem lagrangeFunction_nodes {p : Nat} (hp : 0 < p) {t : CellType} {n m : Nat × Nat}
    (hn : if t = .quadrilateral then n.1 ≤ p ∧ n.2 ≤ p else n.1 + n.2 ≤ p)
    (hm : if t = .quadrilateral then m.1 ≤ p ∧ m.2 ≤ p else m.1 + m.2 ≤ p) :
    lagrangeFunction p t n ((m.1 : ℝ) / p, (m.2 : ℝ) / p) = if m = n then 1 else 0 := by
  have hp' : (p : ℝ) ≠ 0 := by positivity
  have hsub : ∀ k, k ≤ p → (1 : ℝ) - (k : ℝ) / p = ((p - k : Nat) : ℝ) / p := by
    intro k hk
    rw [Nat.cast_sub hk]
    field_simp
  by_cases hq : t = .quadrilateral
  · subst hq
    simp only [if_pos] at hn hm
    simp only [lagrangeFunction, hsub _ hm.1, hsub _ hm.2, ramp_node hp]
    by_cases e : m = n
    · subst e
      simp
    · rw [if_neg e]
      have : m.1 < n.1 ∨ p - m.1 < p - n.1 ∨ m.2 < n.2 ∨ p - m.2 < p - n.2 := by
        by_contra hc
        simp only [not_or, not_lt] at hc
        exact e (Prod.ext (by omega) (by omega))
      rcases this with h | h | h | h <;> rw [Nat.choose_eq_zero_of_lt h] <;> simp
  · rw [if_neg hq] at hn hm
    have h1 : (1 : ℝ) - (m.1 : ℝ) / p - (m.2 : ℝ) / p = ((p - m.1 - m.2 : Nat) : ℝ) / p := by
      rw [hsub _ (by omega : m.1 ≤ p), ← sub_div, Nat.cast_sub (by omega : m.2 ≤ p - m.1)]
    have : lagrangeFunction p t n ((m.1 : ℝ) / p, (m.2 : ℝ) / p) =
        ((p - m.1 - m.2).choose (p - n.1 - n.2) : ℝ) * (m.1.choose n.1 : ℝ) * (m.2.choose n.2 : ℝ) := by
      unfold lagrangeFunction
      split
      · exact absurd rfl hq
      · simp only [h1, ramp_node hp]
    rw [this]
    by_cases e : m = n
    · subst e
      simp
    · rw [if_neg e]
      have : m.1 < n.1 ∨ p - m.1 - m.2 < p - n.1 - n.2 ∨ m.2 < n.2 := by
        by_contra hc
        simp only [not_or, not_lt] at hc
        exact e (Prod.ext (by omega) (by omega))
      rcases this with h | h | h <;> rw [Nat.choose_eq_zero_of_lt h] <;> simp

/-! ### On the boundary of the cell -/

section
variable {p : Nat} {t : CellType} {z : ℝ × ℝ}

theorem quad_boundary (h : (0 : ℝ) ∈ cornerWeights .quadrilateral z) : z.1 = 0 ∨ z.1 = 1 ∨ z.2 = 0 ∨ z.2 = 1 := by
  simp only [cornerWeights, List.mem_cons, List.not_mem_nil, or_false, zero_eq_mul, sub_eq_zero] at h
  rcases h with (h | h) | (h | h) | (h | h) | (h | h) <;> simp [h, eq_comm]

/-- The function of a corner, on the boundary: it depends on the weight of the corner. -/
theorem lagrange_corner (hp : 0 < p) (ht : t = .triangle ∨ t = .quadrilateral) {i k : Nat} (hi : i < refCount t 0)
    {n : Nat × Nat} (hn : LagrangePoint p t 0 i k n) (hz : (0 : ℝ) ∈ cornerWeights t z) :
    lagrangeFunction p t n z = ramp p p ((cornerWeights t z).getD i 0) := by
  have h0 := ramp_at_zero p hp
  have h1 := ramp_one hp
  have hr := fun z => ramp_zero p z
  simp only [LagrangePoint] at hn
  subst hn
  rcases ht with rfl | rfl
  · have : i < 3 := hi
    match i, this with
    | 0, _ => simp [lagrangeFunction, refCorner, cornerWeights, hr]
    | 1, _ => simp [lagrangeFunction, refCorner, cornerWeights, hr]
    | 2, _ => simp [lagrangeFunction, refCorner, cornerWeights, hr]
  · have : i < 4 := hi
    have hb := quad_boundary hz
    match i, this with
    | 0, _ => rcases hb with h | h | h | h <;> simp [lagrangeFunction, refCorner, cornerWeights, hr, h, h0, h1]
    | 1, _ => rcases hb with h | h | h | h <;> simp [lagrangeFunction, refCorner, cornerWeights, hr, h, h0, h1]
    | 2, _ => rcases hb with h | h | h | h <;> simp [lagrangeFunction, refCorner, cornerWeights, hr, h, h0, h1]
    | 3, _ => rcases hb with h | h | h | h <;> simp [lagrangeFunction, refCorner, cornerWeights, hr, h, h0, h1]

/-- The functions of an edge, on the boundary: they depend on the weights of the two ends. -/
theorem lagrange_edge (hp : 0 < p) (ht : t = .triangle ∨ t = .quadrilateral) {i k a b : Nat} (hk : k < p - 1)
    (he : (refEdges t)[i]? = some (a, b)) {n : Nat × Nat} (hn : LagrangePoint p t 1 i k n)
    (hz : (0 : ℝ) ∈ cornerWeights t z) : lagrangeFunction p t n z =
      ramp p (p - 1 - k) ((cornerWeights t z).getD a 0) * ramp p (k + 1) ((cornerWeights t z).getD b 0) := by
  have h0 := ramp_at_zero p hp
  have h1 := ramp_one hp
  have hr := fun z => ramp_zero p z
  have h2 := ramp_at_zero p (by omega : 0 < p - 1 - k)
  have h3 := ramp_at_zero p (by omega : 0 < k + 1)
  have e1 : p - (k + 1) = p - 1 - k := by omega
  have e2 : p - 1 - k + (k + 1) = p := by omega
  have e3 : p - (p - 1 - k) = k + 1 := by omega
  simp only [LagrangePoint] at hn
  obtain ⟨a', b', he', rfl⟩ := hn
  rw [he] at he'
  obtain ⟨rfl, rfl⟩ : a = a' ∧ b = b' := by simpa using he'
  rcases ht with rfl | rfl
  · have : i < 3 := (List.getElem?_eq_some_iff.mp he).1
    match i, this with
    | 0, _ =>
      obtain ⟨rfl, rfl⟩ : 1 = a ∧ 2 = b := by simpa [refEdges] using he
      have : p - (p - 1 - k) - (k + 1) = 0 := by omega
      simp [lagrangeFunction, refCorner, cornerWeights, hr, this]
    | 1, _ =>
      obtain ⟨rfl, rfl⟩ : 0 = a ∧ 2 = b := by simpa [refEdges] using he
      simp [lagrangeFunction, refCorner, cornerWeights, hr, e1]
    | 2, _ =>
      obtain ⟨rfl, rfl⟩ : 0 = a ∧ 1 = b := by simpa [refEdges] using he
      simp [lagrangeFunction, refCorner, cornerWeights, hr, e1]
  · have : i < 4 := (List.getElem?_eq_some_iff.mp he).1
    have hb := quad_boundary hz
    match i, this with
    | 0, _ =>
      obtain ⟨rfl, rfl⟩ : 0 = a ∧ 1 = b := by simpa [refEdges] using he
      rcases hb with h | h | h | h <;>
        simp [lagrangeFunction, refCorner, cornerWeights, hr, h, h0, h1, h2, h3, e1, mul_comm]
    | 1, _ =>
      obtain ⟨rfl, rfl⟩ : 0 = a ∧ 2 = b := by simpa [refEdges] using he
      rcases hb with h | h | h | h <;>
        simp [lagrangeFunction, refCorner, cornerWeights, hr, h, h0, h1, h2, h3, e1, mul_comm]
    | 2, _ =>
      obtain ⟨rfl, rfl⟩ : 1 = a ∧ 3 = b := by simpa [refEdges] using he
      rcases hb with h | h | h | h <;>
        simp [lagrangeFunction, refCorner, cornerWeights, hr, h, h0, h1, h2, h3, e1, e2, mul_comm]
    | 3, _ =>
      obtain ⟨rfl, rfl⟩ : 2 = a ∧ 3 = b := by simpa [refEdges] using he
      rcases hb with h | h | h | h <;>
        simp [lagrangeFunction, refCorner, cornerWeights, hr, h, h0, h1, h2, h3, e1, e2, mul_comm]

/-- The functions of the interior are 0 on the boundary. -/
theorem lagrange_inner (ht : t = .triangle ∨ t = .quadrilateral) {i k : Nat} {n : Nat × Nat}
    (hn : LagrangePoint p t 2 i k n) (hz : (0 : ℝ) ∈ cornerWeights t z) : lagrangeFunction p t n z = 0 := by
  simp only [LagrangePoint] at hn
  obtain ⟨h1, h2, h3⟩ := hn
  have r1 := ramp_at_zero p h1
  have r2 := ramp_at_zero p h2
  rcases ht with rfl | rfl
  · simp only [reduceCtorEq, if_false] at h3
    have r3 := ramp_at_zero p (by omega : 0 < p - n.1 - n.2)
    simp only [cornerWeights, List.mem_cons, List.not_mem_nil, or_false] at hz
    rcases hz with h | h | h <;> simp [lagrangeFunction, ← h, r1, r2, r3]
  · simp only [if_true] at h3
    have r3 := ramp_at_zero p (by omega : 0 < p - n.1)
    have r4 := ramp_at_zero p (by omega : 0 < p - n.2)
    rcases quad_boundary hz with h | h | h | h <;> simp [lagrangeFunction, h, r1, r2, r3, r4]

end
end Bempp
