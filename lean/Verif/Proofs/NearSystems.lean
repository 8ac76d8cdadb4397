import Verif.Proofs.PositiveMatrix
import Verif.Spec.ShapeFloat
/-
Linear systems whose matrix and right-hand side are known up to an error.
-/
namespace Bempp

theorem abs_le_sqrt_sumSq {n : Nat} (u : Nat → ℝ) {i : Nat} (hi : i < n) : |u i| ≤ Real.sqrt (sumSq n u) := by
  rw [sumSq_eq]
  refine Real.abs_le_sqrt ?_
  rw [sq]
  exact Finset.single_le_sum (f := fun i : Fin n => u i * u i) (fun i _ => mul_self_nonneg _)
    (Finset.mem_univ (⟨i, hi⟩ : Fin n))

/-- The solution of a system near a system with a known solution. -/
theorem solution_near {A M : Nat → Nat → ℝ} {n : Nat} {m η l : ℝ} (hm : 0 < m) {x y b b' : Nat → ℝ}
    (hM : m * sumSq n (fun i => y i - x i) ≤ bilinear M n (fun i => y i - x i) fun i => y i - x i)
    (hl : l * ((List.range n).map fun i => y i - x i).sum = 0)
    (hx : ∀ i, i < n → ((List.range n).map fun j => A i j * x j).sum = b i)
    (hy : ∀ i, i < n → ((List.range n).map fun j => M i j * y j).sum + l = b' i)
    (hb : ∀ i, i < n → |b' i - b i| ≤ η) (hMA : ∀ i j, i < n → j < n → |M i j - A i j| ≤ η) :
    ∀ i, i < n → |y i - x i| ≤ η * n * (1 + ((List.range n).map fun j => |x j|).sum) / m := by
  intro i0 hi0
  have hη : 0 ≤ η := (abs_nonneg _).trans (hb i0 hi0)
  rw [range_sum] at hl
  set X := ((List.range n).map fun j => |x j|).sum with hX
  rw [range_sum] at hX
  have hX0 : 0 ≤ X := by rw [hX]; exact Finset.sum_nonneg fun _ _ => abs_nonneg _
  set s := Real.sqrt (sumSq n fun i => y i - x i) with hsdef
  have hs0 : 0 ≤ s := Real.sqrt_nonneg _
  have hss : s * s = sumSq n fun i => y i - x i := Real.mul_self_sqrt (sumSq_nonneg _ _)
  have hd : ∀ i : Fin n, |y i - x i| ≤ s := fun i => abs_le_sqrt_sumSq (fun i => y i - x i) i.2
  have hrow : ∀ i : Fin n, ∑ j : Fin n, M i j * (y j - x j) =
      (b' i - b i) - l + ∑ j : Fin n, (A i j - M i j) * x j := by
    intro i
    have h1 := hx i i.2
    have h2 := hy i i.2
    rw [range_sum] at h1 h2
    simp only [mul_sub, sub_mul, Finset.sum_sub_distrib]
    linarith
  have hr : ∀ i : Fin n, |(b' i - b i) + ∑ j : Fin n, (A i j - M i j) * x j| ≤ η * (1 + X) := by
    intro i
    have h1 : |∑ j : Fin n, (A i j - M i j) * x j| ≤ η * X := by
      rw [hX, Finset.mul_sum]
      refine (Finset.abs_sum_le_sum_abs _ _).trans (Finset.sum_le_sum fun j _ => ?_)
      rw [abs_mul, abs_sub_comm]
      exact mul_le_mul_of_nonneg_right (hMA i j i.2 j.2) (abs_nonneg _)
    calc _ ≤ |b' i - b i| + |∑ j : Fin n, (A i j - M i j) * x j| := abs_add_le _ _
      _ ≤ η + η * X := add_le_add (hb i i.2) h1
      _ = _ := by ring
  have hform : bilinear M n (fun i => y i - x i) (fun i => y i - x i) =
      ∑ i : Fin n, (y i - x i) * ((b' i - b i) + ∑ j : Fin n, (A i j - M i j) * x j) := by
    rw [bilinear_eq]
    have e1 : ∀ i : Fin n, ∑ j : Fin n, (y i - x i) * (y j - x j) * M i j =
        (y i - x i) * ((b' i - b i) + ∑ j : Fin n, (A i j - M i j) * x j) - l * (y i - x i) := by
      intro i
      rw [show (y i - x i) * ((b' i - b i) + ∑ j : Fin n, (A i j - M i j) * x j) - l * (y i - x i) =
        (y i - x i) * ((b' i - b i) - l + ∑ j : Fin n, (A i j - M i j) * x j) by ring, ← hrow i, Finset.mul_sum]
      exact Finset.sum_congr rfl fun j _ => by ring
    rw [Finset.sum_congr rfl fun i _ => e1 i, Finset.sum_sub_distrib, ← Finset.mul_sum, hl, sub_zero]
  have hle : bilinear M n (fun i => y i - x i) (fun i => y i - x i) ≤ n * (s * (η * (1 + X))) := by
    rw [hform]
    calc _ ≤ ∑ i : Fin n, s * (η * (1 + X)) := by
          refine Finset.sum_le_sum fun i _ => (le_abs_self _).trans ?_
          rw [abs_mul]
          exact mul_le_mul (hd i) (hr i) (abs_nonneg _) hs0
      _ = _ := by rw [Finset.sum_const, Finset.card_univ, Fintype.card_fin, nsmul_eq_mul]
  refine (hd ⟨i0, hi0⟩).trans ?_
  rw [le_div_iff₀ hm]
  rcases hs0.eq_or_lt with h0 | hpos
  · rw [← h0, zero_mul]
    positivity
  · rw [← hss] at hM
    have h := hM.trans hle
    have h' : s * (s * m) ≤ s * (η * n * (1 + X)) := by nlinarith
    exact le_of_mul_le_mul_left h' hpos

/-- Systems with an additional unknown constant and the condition that the solution adds up to 0, for a matrix that is
definite on such vectors. -/
theorem solvable_upTo {A : Nat → Nat → ℝ} {n : Nat} (hn : 0 < n)
    (h0 : ∀ u, ((List.range n).map u).sum = 0 → bilinear A n u u = 0 → ∀ i, i < n → u i = 0) (b : Nat → ℝ) :
    (∃ x : Nat → ℝ, ∃ l : ℝ, ((List.range n).map x).sum = 0 ∧
      ∀ i, i < n → ((List.range n).map fun j => A i j * x j).sum + l = b i) ∧
    ∀ (x y : Nat → ℝ) (l l' : ℝ), ((List.range n).map x).sum = 0 → ((List.range n).map y).sum = 0 →
      (∀ i, i < n → ((List.range n).map fun j => A i j * x j).sum + l = b i) →
      (∀ i, i < n → ((List.range n).map fun j => A i j * y j).sum + l' = b i) →
      (∀ i, i < n → x i = y i) ∧ l = l' := by
  let L : ((Fin n → ℝ) × ℝ) →ₗ[ℝ] ((Fin n → ℝ) × ℝ) :=
    { toFun := fun v => (fun i => ∑ j : Fin n, A i j * v.1 j + v.2, ∑ j : Fin n, v.1 j)
      map_add' := fun v w => by
        refine Prod.ext (funext fun i => ?_) ?_
        · simp only [Prod.fst_add, Prod.snd_add, Pi.add_apply, mul_add, Finset.sum_add_distrib]
          ring
        · simp only [Prod.fst_add, Prod.snd_add, Pi.add_apply, Finset.sum_add_distrib]
      map_smul' := fun a v => by
        refine Prod.ext (funext fun i => ?_) ?_
        · simp only [Prod.smul_fst, Prod.smul_snd, Pi.smul_apply, smul_eq_mul, RingHom.id_apply, mul_add, Finset.mul_sum]
          congr 1
          exact Finset.sum_congr rfl fun j _ => by ring
        · simp only [Prod.smul_fst, Prod.smul_snd, Pi.smul_apply, smul_eq_mul, RingHom.id_apply, Finset.mul_sum] }
  have hker : ∀ v, L v = 0 → v = 0 := by
    intro v hv
    have h1 : ∀ i : Fin n, ∑ j : Fin n, A i j * v.1 j + v.2 = 0 := fun i => congrFun (congrArg Prod.fst hv) i
    have h2 : ∑ j : Fin n, v.1 j = 0 := congrArg Prod.snd hv
    have e : bilinear A n (extend v.1) (extend v.1) = 0 := by
      rw [bilinear_eq]
      have : ∀ i : Fin n, ∑ j : Fin n, extend v.1 i * extend v.1 j * A i j = -v.2 * v.1 i := by
        intro i
        have : ∑ j : Fin n, extend v.1 i * extend v.1 j * A i j = v.1 i * ∑ j : Fin n, A i j * v.1 j := by
          rw [Finset.mul_sum]
          exact Finset.sum_congr rfl fun j _ => by rw [extend_fin, extend_fin]; ring
        rw [this, eq_neg_of_add_eq_zero_left (h1 i)]
        ring
      rw [Finset.sum_congr rfl fun i _ => this i, ← Finset.mul_sum, h2, mul_zero]
    have hz := h0 _ (by rw [range_sum]; simpa only [extend_fin] using h2) e
    have hv1 : v.1 = 0 := funext fun i => by
      rw [← extend_fin v.1 i]
      exact hz i i.2
    refine Prod.ext hv1 ?_
    have := h1 ⟨0, hn⟩
    rw [hv1] at this
    simpa using this
  have hinj : Function.Injective L := (injective_iff_map_eq_zero L).mpr hker
  have hsurj : Function.Surjective L := LinearMap.surjective_of_injective hinj
  constructor
  · obtain ⟨v, hv⟩ := hsurj (fun i => b i, 0)
    refine ⟨extend v.1, v.2, ?_, fun i hi => ?_⟩
    · rw [range_sum]
      simp only [extend_fin]
      exact congrArg Prod.snd hv
    · rw [range_sum]
      simp only [extend_fin]
      exact congrFun (congrArg Prod.fst hv) ⟨i, hi⟩
  · intro x y l l' sx sy hx hy
    have e : L (fun i => x i, l) = L (fun i => y i, l') := by
      refine Prod.ext (funext fun i => ?_) ?_
      · have h1 := hx i i.2
        have h2 := hy i i.2
        rw [range_sum] at h1 h2
        exact h1.trans h2.symm
      · rw [range_sum] at sx sy
        exact sx.trans sy.symm
    have e' := hinj e
    exact ⟨fun i hi => congrFun (congrArg Prod.fst e') ⟨i, hi⟩, congrArg Prod.snd e'⟩

end Bempp
