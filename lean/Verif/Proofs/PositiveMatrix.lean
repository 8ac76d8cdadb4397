import Verif.Spec.Positive
import Verif.Spec.Nested
import Mathlib.Analysis.InnerProductSpace.PiL2
import Mathlib.LinearAlgebra.FiniteDimensional.Basic
import Mathlib.Algebra.Order.Chebyshev
/-
Matrices with a positive definite form: the smallest eigenvalue is bounded away from 0, small changes of the entries do
not matter, and linear systems have exactly one solution.
-/
namespace Bempp
open Set

theorem range_sum (n : Nat) (f : Nat → ℝ) : ((List.range n).map f).sum = ∑ i : Fin n, f i := by
  rw [← Fin.sum_univ_fun_getElem]
  have e : (List.range n).length = n := List.length_range
  refine Fintype.sum_equiv (finCongr e) _ _ fun i => ?_
  simp

theorem bilinear_eq (A : Nat → Nat → ℝ) (n : Nat) (u v : Nat → ℝ) :
    bilinear A n u v = ∑ i : Fin n, ∑ j : Fin n, u i * v j * A i j := by
  unfold bilinear
  rw [range_sum]
  exact Finset.sum_congr rfl fun i _ => range_sum n _

theorem sumSq_eq (n : Nat) (u : Nat → ℝ) : sumSq n u = ∑ i : Fin n, u i * u i := range_sum n _

theorem sumSq_nonneg (n : Nat) (u : Nat → ℝ) : 0 ≤ sumSq n u := by
  rw [sumSq_eq]
  exact Finset.sum_nonneg fun i _ => mul_self_nonneg _

theorem sumSq_eq_zero {n : Nat} {u : Nat → ℝ} (h : sumSq n u = 0) : ∀ i, i < n → u i = 0 := by
  rw [sumSq_eq, Finset.sum_eq_zero_iff_of_nonneg fun i _ => mul_self_nonneg _] at h
  intro i hi
  exact mul_self_eq_zero.mp (h ⟨i, hi⟩ (Finset.mem_univ _))

/-- The vector with the given entries. -/
def extend {n : Nat} (v : Fin n → ℝ) (i : Nat) : ℝ := if h : i < n then v ⟨i, h⟩ else 0

theorem extend_fin {n : Nat} (v : Fin n → ℝ) (i : Fin n) : extend v i = v i := by
  unfold extend
  rw [dif_pos i.2]

/-- A form that is positive on the non-zero vectors of a closed cone is bounded below there. -/
theorem coercive {A : Nat → Nat → ℝ} {n : Nat} {V : Set (EuclideanSpace ℝ (Fin n))} (hc : IsClosed V)
    (hs : ∀ v ∈ V, ∀ a : ℝ, a • v ∈ V)
    (hp : ∀ v ∈ V, v ≠ 0 → 0 < ∑ i : Fin n, ∑ j : Fin n, v i * v j * A i j) :
    ∃ m > 0, ∀ v ∈ V, m * ‖v‖ ^ 2 ≤ ∑ i : Fin n, ∑ j : Fin n, v i * v j * A i j := by
  let q : EuclideanSpace ℝ (Fin n) → ℝ := fun v => ∑ i : Fin n, ∑ j : Fin n, v i * v j * A i j
  have hq : Continuous q := by
    refine continuous_finsetSum _ fun i _ => continuous_finsetSum _ fun j _ => ?_
    fun_prop
  have hcomp : IsCompact (Metric.sphere (0 : EuclideanSpace ℝ (Fin n)) 1 ∩ V) := (isCompact_sphere _ _).inter_right hc
  rcases (Metric.sphere (0 : EuclideanSpace ℝ (Fin n)) 1 ∩ V).eq_empty_or_nonempty with he | hne
  · refine ⟨1, one_pos, fun v hv => ?_⟩
    by_cases h0 : v = 0
    · subst h0; simp
    · exfalso
      have hn : ‖v‖ ≠ 0 := norm_ne_zero_iff.mpr h0
      have : ‖v‖⁻¹ • v ∈ Metric.sphere (0 : EuclideanSpace ℝ (Fin n)) 1 ∩ V := by
        refine ⟨?_, hs v hv _⟩
        rw [mem_sphere_zero_iff_norm, norm_smul, norm_inv, norm_norm, inv_mul_cancel₀ hn]
      rw [he] at this
      exact this
  · obtain ⟨w, ⟨hw, hwV⟩, hmin⟩ := hcomp.exists_isMinOn hne hq.continuousOn
    have hw1 : ‖w‖ = 1 := mem_sphere_zero_iff_norm.mp hw
    refine ⟨q w, hp w hwV (by rintro rfl; simp at hw1), fun v hv => ?_⟩
    by_cases h0 : v = 0
    · subst h0; simp
    · have hn : ‖v‖ ≠ 0 := norm_ne_zero_iff.mpr h0
      have h1 : ‖v‖⁻¹ • v ∈ Metric.sphere (0 : EuclideanSpace ℝ (Fin n)) 1 ∩ V := by
        refine ⟨?_, hs v hv _⟩
        rw [mem_sphere_zero_iff_norm, norm_smul, norm_inv, norm_norm, inv_mul_cancel₀ hn]
      have h2 : q w ≤ q (‖v‖⁻¹ • v) := hmin h1
      have h3 : q (‖v‖⁻¹ • v) = ‖v‖⁻¹ ^ 2 * q v := by
        simp only [q, Finset.mul_sum]
        refine Finset.sum_congr rfl fun i _ => Finset.sum_congr rfl fun j _ => ?_
        simp only [PiLp.smul_apply, smul_eq_mul]
        ring
      rw [h3] at h2
      calc q w * ‖v‖ ^ 2 ≤ ‖v‖⁻¹ ^ 2 * q v * ‖v‖ ^ 2 := by gcongr
        _ = q v := by field_simp

theorem norm_sq_toLp {n : Nat} (u : Nat → ℝ) :
    ‖(WithLp.toLp 2 fun i : Fin n => u i : EuclideanSpace ℝ (Fin n))‖ ^ 2 = sumSq n u := by
  rw [EuclideanSpace.norm_sq_eq, sumSq_eq]
  refine Finset.sum_congr rfl fun i _ => ?_
  simp [sq]

/-- A positive definite form is bounded below by a multiple of `uᵀ u`. -/
theorem coercive_of_definite {A : Nat → Nat → ℝ} {n : Nat} (h : ∀ u, 0 ≤ bilinear A n u u)
    (h0 : ∀ u, bilinear A n u u = 0 → ∀ i, i < n → u i = 0) :
    ∃ m > 0, ∀ u, m * sumSq n u ≤ bilinear A n u u := by
  obtain ⟨m, hm, hle⟩ := coercive (A := A) (n := n) (V := univ) isClosed_univ (fun _ _ _ => mem_univ _) (by
    intro v _ hv
    have e : bilinear A n (extend v) (extend v) = ∑ i : Fin n, ∑ j : Fin n, v i * v j * A i j := by
      rw [bilinear_eq]
      simp only [extend_fin]
    rw [← e]
    refine lt_of_le_of_ne (h _) fun hz => hv ?_
    ext i
    rw [← extend_fin v i]
    exact h0 _ hz.symm i i.2)
  refine ⟨m, hm, fun u => ?_⟩
  have := hle (WithLp.toLp 2 fun i : Fin n => u i) (mem_univ _)
  rw [norm_sq_toLp] at this
  rw [bilinear_eq]
  exact this

/-- The same on vectors whose entries add up to 0. -/
theorem coercive_of_definite_sum {A : Nat → Nat → ℝ} {n : Nat} (h : ∀ u, 0 ≤ bilinear A n u u)
    (h0 : ∀ u, bilinear A n u u = 0 → ((List.range n).map u).sum = 0 → ∀ i, i < n → u i = 0) :
    ∃ m > 0, ∀ u, ((List.range n).map u).sum = 0 → m * sumSq n u ≤ bilinear A n u u := by
  obtain ⟨m, hm, hle⟩ := coercive (A := A) (n := n) (V := {v | ∑ i, v i = 0})
    (isClosed_eq (continuous_finsetSum _ fun i _ => by fun_prop) continuous_const)
    (by
      intro v hv a
      simp only [mem_ofPred_eq, PiLp.smul_apply, smul_eq_mul] at hv ⊢
      rw [← Finset.mul_sum, hv, mul_zero]) (by
    intro v hvs hv
    have e : bilinear A n (extend v) (extend v) = ∑ i : Fin n, ∑ j : Fin n, v i * v j * A i j := by
      rw [bilinear_eq]
      simp only [extend_fin]
    rw [← e]
    refine lt_of_le_of_ne (h _) fun hz => hv ?_
    ext i
    rw [← extend_fin v i]
    refine h0 _ hz.symm ?_ i i.2
    rw [range_sum]
    simp only [extend_fin]
    exact hvs)
  refine ⟨m, hm, fun u hu => ?_⟩
  have := hle (WithLp.toLp 2 fun i : Fin n => u i) (by rw [range_sum] at hu; exact hu)
  rw [norm_sq_toLp] at this
  rw [bilinear_eq]
  exact this

/-- A small change of the entries changes the form by little. -/
theorem bilinear_perturb {A M : Nat → Nat → ℝ} {n : Nat} {ε : ℝ} (h : ∀ i j, i < n → j < n → |M i j - A i j| ≤ ε)
    (u : Nat → ℝ) : |bilinear M n u u - bilinear A n u u| ≤ ε * n * sumSq n u := by
  rw [bilinear_eq, bilinear_eq, ← Finset.sum_sub_distrib]
  simp only [← Finset.sum_sub_distrib, ← mul_sub]
  have h1 : |∑ i : Fin n, ∑ j : Fin n, u i * u j * (M i j - A i j)| ≤ ∑ i : Fin n, ∑ j : Fin n, |u i| * |u j| * ε := by
    refine (Finset.abs_sum_le_sum_abs _ _).trans (Finset.sum_le_sum fun i _ => ?_)
    refine (Finset.abs_sum_le_sum_abs _ _).trans (Finset.sum_le_sum fun j _ => ?_)
    rw [abs_mul, abs_mul]
    exact mul_le_mul_of_nonneg_left (h i j i.2 j.2) (by positivity)
  have h2 : ∑ i : Fin n, ∑ j : Fin n, |u i| * |u j| * ε = ε * (∑ i : Fin n, |u i|) ^ 2 := by
    rw [sq, Finset.sum_mul_sum, Finset.mul_sum]
    refine Finset.sum_congr rfl fun i _ => ?_
    rw [Finset.mul_sum]
    exact Finset.sum_congr rfl fun j _ => by ring
  rcases Nat.eq_zero_or_pos n with rfl | hn
  · simp
  · have hε : 0 ≤ ε := (abs_nonneg _).trans (h 0 0 hn hn)
    refine h1.trans ?_
    rw [h2, mul_assoc]
    refine mul_le_mul_of_nonneg_left ?_ hε
    have := sq_sum_le_card_mul_sum_sq (s := (Finset.univ : Finset (Fin n))) (f := fun i => |u i|)
    simp only [Finset.card_univ, Fintype.card_fin, sq_abs] at this
    rw [sumSq_eq]
    simpa [sq] using this

/-- The entries of a matrix stored by columns. -/
theorem formOf_bilinear (M : List ℝ) (n : Nat) (u v : Nat → ℝ) :
    formOf M n n u v = bilinear (fun i j => M.getD (i + n * j) 0) n u v := rfl

/-- Linear systems with a matrix whose form is 0 only for 0 have exactly one solution. -/
theorem solvable_of_definite {A : Nat → Nat → ℝ} {n : Nat} (h0 : ∀ u, bilinear A n u u = 0 → ∀ i, i < n → u i = 0)
    (b : Nat → ℝ) :
    (∃ x : Nat → ℝ, ∀ i, i < n → ((List.range n).map fun j => A i j * x j).sum = b i) ∧
    ∀ x y : Nat → ℝ, (∀ i, i < n → ((List.range n).map fun j => A i j * x j).sum = b i) →
      (∀ i, i < n → ((List.range n).map fun j => A i j * y j).sum = b i) → ∀ i, i < n → x i = y i := by
  let L : (Fin n → ℝ) →ₗ[ℝ] (Fin n → ℝ) :=
    { toFun := fun v i => ∑ j : Fin n, A i j * v j
      map_add' := fun v w => by
        funext i
        simp only [Pi.add_apply, mul_add, Finset.sum_add_distrib]
      map_smul' := fun a v => by
        funext i
        simp only [Pi.smul_apply, smul_eq_mul, RingHom.id_apply, Finset.mul_sum]
        exact Finset.sum_congr rfl fun j _ => by ring }
  have hker : ∀ v, L v = 0 → v = 0 := by
    intro v hv
    have e : bilinear A n (extend v) (extend v) = ∑ i : Fin n, v i * L v i := by
      rw [bilinear_eq]
      refine Finset.sum_congr rfl fun i _ => ?_
      simp only [extend_fin, L, LinearMap.coe_mk, AddHom.coe_mk, Finset.mul_sum]
      exact Finset.sum_congr rfl fun j _ => by ring
    rw [hv] at e
    simp only [Pi.zero_apply, mul_zero, Finset.sum_const_zero] at e
    funext i
    rw [← extend_fin v i]
    exact h0 _ e i i.2
  have hinj : Function.Injective L := (injective_iff_map_eq_zero L).mpr hker
  have hsurj : Function.Surjective L := LinearMap.surjective_of_injective hinj
  constructor
  · obtain ⟨v, hv⟩ := hsurj fun i => b i
    refine ⟨extend v, fun i hi => ?_⟩
    rw [range_sum]
    have := congrFun hv ⟨i, hi⟩
    simp only [extend_fin]
    exact this
  · intro x y hx hy i hi
    have e : L (fun i => x i) = L (fun i => y i) := by
      funext k
      have h1 := hx k k.2
      have h2 := hy k k.2
      rw [range_sum] at h1 h2
      exact h1.trans h2.symm
    exact congrFun (hinj e) ⟨i, hi⟩

theorem sum_sub_mean (n : Nat) (u : Nat → ℝ) : ((List.range n).map fun i => u i - mean n u).sum = 0 := by
  rw [range_sum, Finset.sum_sub_distrib, Finset.sum_const, Finset.card_univ, Fintype.card_fin, nsmul_eq_mul, mean, range_sum]
  rcases Nat.eq_zero_or_pos n with rfl | hn
  · simp
  · field_simp
    ring

/-- A matrix whose rows and columns add up to 0 does not see constants. -/
theorem bilinear_shift {A : Nat → Nat → ℝ} {n : Nat} (hr : ∀ i, i < n → ((List.range n).map fun j => A i j).sum = 0)
    (hc : ∀ j, j < n → ((List.range n).map fun i => A i j).sum = 0) (u : Nat → ℝ) (a : ℝ) :
    bilinear A n (fun i => u i - a) (fun i => u i - a) = bilinear A n u u := by
  rw [bilinear_eq, bilinear_eq]
  have h1 : ∀ i j : Fin n, (u i - a) * (u j - a) * A i j =
      u i * u j * A i j - (u i * a) * A i j - (a * u j) * A i j + a * a * A i j := fun i j => by ring
  simp only [h1, Finset.sum_add_distrib, Finset.sum_sub_distrib]
  have e1 : ∑ i : Fin n, ∑ j : Fin n, (u i * a) * A i j = 0 := by
    refine Finset.sum_eq_zero fun i _ => ?_
    rw [← Finset.mul_sum, ← range_sum n (fun j => A i j), hr i i.2, mul_zero]
  have e2 : ∑ i : Fin n, ∑ j : Fin n, (a * u j) * A i j = 0 := by
    rw [Finset.sum_comm]
    refine Finset.sum_eq_zero fun j _ => ?_
    rw [← Finset.mul_sum, ← range_sum n (fun i => A i j), hc j j.2, mul_zero]
  have e3 : ∑ i : Fin n, ∑ j : Fin n, a * a * A i j = 0 := by
    refine Finset.sum_eq_zero fun i _ => ?_
    rw [← Finset.mul_sum, ← range_sum n (fun j => A i j), hr i i.2, mul_zero]
  rw [e1, e2, e3]
  ring

/-- Linear systems with a matrix whose rows and columns add up to 0 and whose form is 0 only for constants: if the
right-hand side adds up to 0, there is exactly one solution that adds up to 0. -/
theorem solvable_of_definite_sum {A : Nat → Nat → ℝ} {n : Nat}
    (hc : ∀ j, j < n → ((List.range n).map fun i => A i j).sum = 0) (hnn : ∀ u, 0 ≤ bilinear A n u u)
    (h0 : ∀ u, bilinear A n u u = 0 → ((List.range n).map u).sum = 0 → ∀ i, i < n → u i = 0)
    (b : Nat → ℝ) (hb : ((List.range n).map b).sum = 0) :
    (∃ x : Nat → ℝ, ((List.range n).map x).sum = 0 ∧
      ∀ i, i < n → ((List.range n).map fun j => A i j * x j).sum = b i) ∧
    ∀ x y : Nat → ℝ, ((List.range n).map x).sum = 0 → ((List.range n).map y).sum = 0 →
      (∀ i, i < n → ((List.range n).map fun j => A i j * x j).sum = b i) →
      (∀ i, i < n → ((List.range n).map fun j => A i j * y j).sum = b i) → ∀ i, i < n → x i = y i := by
  have h1 : ∀ u, bilinear (fun i j => A i j + 1) n u u = bilinear A n u u + ((List.range n).map u).sum ^ 2 := by
    intro u
    rw [bilinear_eq, bilinear_eq, range_sum, sq, Finset.sum_mul_sum, ← Finset.sum_add_distrib]
    refine Finset.sum_congr rfl fun i _ => ?_
    rw [← Finset.sum_add_distrib]
    exact Finset.sum_congr rfl fun j _ => by ring
  have h2 : ∀ (x : Nat → ℝ) (i : Nat), ((List.range n).map fun j => (A i j + 1) * x j).sum =
      ((List.range n).map fun j => A i j * x j).sum + ((List.range n).map x).sum := by
    intro x i
    rw [range_sum, range_sum, range_sum, ← Finset.sum_add_distrib]
    exact Finset.sum_congr rfl fun j _ => by ring
  have h3 : ∀ x : Nat → ℝ, ∑ i : Fin n, ∑ j : Fin n, A i j * x j = 0 := by
    intro x
    rw [Finset.sum_comm]
    refine Finset.sum_eq_zero fun j _ => ?_
    rw [← Finset.sum_mul, ← range_sum n (fun i => A i j), hc j j.2, zero_mul]
  have h4 : ∀ u, bilinear (fun i j => A i j + 1) n u u = 0 → ∀ i, i < n → u i = 0 := by
    intro u hu
    rw [h1] at hu
    have a1 := hnn u
    have a2 := sq_nonneg ((List.range n).map u).sum
    refine h0 u (by linarith) ?_
    exact pow_eq_zero_iff (two_ne_zero) |>.mp (by linarith)
  obtain ⟨⟨x, hx⟩, huniq⟩ := solvable_of_definite h4 b
  constructor
  · have hsum : ((List.range n).map x).sum = 0 := by
      rcases Nat.eq_zero_or_pos n with rfl | hn
      · simp
      · have e : ∑ i : Fin n, (((List.range n).map fun j => A i j * x j).sum + ((List.range n).map x).sum) = 0 := by
          rw [← hb, range_sum n b]
          exact Finset.sum_congr rfl fun i _ => by rw [← h2, hx i i.2]
        rw [Finset.sum_add_distrib] at e
        simp only [range_sum n fun j => A _ j * x j] at e
        rw [h3, zero_add, Finset.sum_const, Finset.card_univ, Fintype.card_fin, nsmul_eq_mul] at e
        have : (n : ℝ) ≠ 0 := by positivity
        exact (mul_eq_zero.mp e).resolve_left this
    refine ⟨x, hsum, fun i hi => ?_⟩
    have := hx i hi
    rwa [h2, hsum, add_zero] at this
  · intro x y sx sy hx hy
    refine huniq x y (fun i hi => ?_) fun i hi => ?_
    · rw [h2, sx, add_zero, hx i hi]
    · rw [h2, sy, add_zero, hy i hi]

end Bempp
