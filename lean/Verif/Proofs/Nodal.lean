import Verif.Spec.Nodal
import Verif.Proofs.Lagrange
import Mathlib.RingTheory.Binomial
import Mathlib.Analysis.Calculus.MeanValue
import Mathlib.Analysis.Calculus.Deriv.Add
import Mathlib.Analysis.Calculus.Deriv.Mul
/-
Lagrange basis functions add up to one and are independent.
-/
namespace Bempp

theorem ramp_choose (p i : Nat) (z : ℝ) : ramp p i z = Ring.choose ((p : ℝ) * z) i := by
  induction i with
  | zero => rw [ramp_zero, Ring.choose_zero_right]
  | succ i ih =>
    rw [ramp_succ, ih]
    have h0 := Ring.descPochhammer_eq_factorial_smul_choose ((p : ℝ) * z) i
    have h1 := Ring.descPochhammer_eq_factorial_smul_choose ((p : ℝ) * z) (i + 1)
    rw [descPochhammer_succ_right, Polynomial.smeval_mul, h0] at h1
    simp only [Polynomial.smeval_sub, Polynomial.smeval_X, Polynomial.smeval_natCast, pow_one, pow_zero, nsmul_eq_mul,
      mul_one, Nat.factorial_succ, Nat.cast_mul] at h1
    have hf : (i.factorial : ℝ) ≠ 0 := by exact_mod_cast Nat.factorial_ne_zero i
    have hi : ((i : ℝ) + 1) ≠ 0 := by positivity
    push_cast at h1
    have : Ring.choose ((p : ℝ) * z) i * ((p : ℝ) * z - i) = ((i : ℝ) + 1) * Ring.choose ((p : ℝ) * z) (i + 1) := by
      apply mul_left_cancel₀ hf
      linarith
    rw [mul_div_assoc', this]
    field_simp

/-- Products of the functions with total degree `k`. -/
theorem ramp_add (p k : Nat) (y z : ℝ) :
    ∑ i ∈ Finset.range (k + 1), ramp p i y * ramp p (k - i) z = ramp p k (y + z) := by
  simp only [ramp_choose]
  rw [mul_add, Ring.add_choose_eq k (Commute.all _ _),
    Finset.Nat.sum_antidiagonal_eq_sum_range_succ (fun i j => Ring.choose ((p : ℝ) * y) i * Ring.choose ((p : ℝ) * z) j)]

theorem ramp_full (p : Nat) : ramp p p 1 = 1 := by
  rcases Nat.eq_zero_or_pos p with rfl | hp
  · exact ramp_zero _ _
  · exact ramp_one hp

/-- The points of the elements. -/
def nodalPoints (p : Nat) (t : CellType) : Finset (Nat × Nat) :=
  (Finset.range (p + 1)).biUnion fun i =>
    (Finset.range (if t = .quadrilateral then p + 1 else p - i + 1)).image fun j => (i, j)

theorem mem_nodalPoints {p : Nat} {t : CellType} {n : Nat × Nat} : n ∈ nodalPoints p t ↔ NodalPoint p t n := by
  simp only [nodalPoints, NodalPoint, Finset.mem_biUnion, Finset.mem_range, Finset.mem_image]
  constructor
  · rintro ⟨i, hi, j, hj, rfl⟩
    split at hj
    · rename_i hq
      rw [if_pos hq]
      exact ⟨by omega, by omega⟩
    · rename_i hq
      rw [if_neg hq]
      simp only
      omega
  · intro h
    refine ⟨n.1, ?_, n.2, ?_, rfl⟩
    · split at h <;> omega
    · split at h
      · rename_i hq
        rw [if_pos hq]
        omega
      · rename_i hq
        rw [if_neg hq]
        omega

theorem sum_nodalPoints {p : Nat} {t : CellType} {M : Type} [AddCommMonoid M] (f : Nat × Nat → M) :
    ∑ n ∈ nodalPoints p t, f n =
      ∑ i ∈ Finset.range (p + 1), ∑ j ∈ Finset.range (if t = .quadrilateral then p + 1 else p - i + 1), f (i, j) := by
  rw [nodalPoints, Finset.sum_biUnion]
  · refine Finset.sum_congr rfl fun i _ => ?_
    rw [Finset.sum_image]
    exact fun a _ b _ h => (Prod.mk.inj h).2
  · intro i _ j _ hij
    refine Finset.disjoint_left.mpr fun n h h' => ?_
    simp only [Finset.mem_image] at h h'
    obtain ⟨_, _, rfl⟩ := h
    obtain ⟨_, _, e⟩ := h'
    exact hij (Prod.mk.inj e).1.symm

theorem card_nodalPoints {p : Nat} {t : CellType} :
    (nodalPoints p t).card = (StandardFamily.lagrange p).dim t := by
  rw [Finset.card_eq_sum_ones, sum_nodalPoints]
  simp only [Finset.sum_const, Finset.card_range, smul_eq_mul, mul_one, StandardFamily.dim]
  split
  · simp
  · rw [← Finset.sum_range_reflect]
    have : ∑ j ∈ Finset.range (p + 1), (p - (p + 1 - 1 - j) + 1) = ∑ j ∈ Finset.range (p + 1), (j + 1) := by
      refine Finset.sum_congr rfl fun j hj => ?_
      have := Finset.mem_range.mp hj
      omega
    rw [this, trianglePolynomials]
    have h2 : ∀ m : Nat, 2 * ∑ j ∈ Finset.range m, (j + 1) = m * (m + 1) := by
      intro m
      induction m with
      | zero => rfl
      | succ m ih => rw [Finset.sum_range_succ, Nat.mul_add, ih]; ring
    have h3 := h2 (p + 1)
    rw [show p + 1 + 1 = p + 2 from rfl] at h3
    rw [← h3, Nat.mul_div_cancel_left _ (by omega : 0 < 2)]

/-- The basis functions add up to one. -/
theorem lagrange_sum (p : Nat) (t : CellType) (z : ℝ × ℝ) : ∑ n ∈ nodalPoints p t, lagrangeFunction p t n z = 1 := by
  rw [sum_nodalPoints]
  by_cases hq : t = .quadrilateral
  · subst hq
    simp only [if_true, lagrangeFunction]
    simp only [← Finset.mul_sum, ramp_add]
    rw [add_sub_cancel, ramp_full]
    simp only [mul_one, ramp_add]
    rw [add_sub_cancel, ramp_full]
  · have e : ∀ n, lagrangeFunction p t n z =
        ramp p (p - n.1 - n.2) (1 - z.1 - z.2) * ramp p n.1 z.1 * ramp p n.2 z.2 := by
      intro n
      unfold lagrangeFunction
      split
      · exact absurd rfl hq
      · rfl
    simp only [if_neg hq, e]
    have : ∀ i, ∑ j ∈ Finset.range (p - i + 1), ramp p (p - i - j) (1 - z.1 - z.2) * ramp p i z.1 * ramp p j z.2 =
        ramp p i z.1 * ramp p (p - i) (1 - z.1) := by
      intro i
      have h := ramp_add p (p - i) z.2 (1 - z.1 - z.2)
      rw [add_sub_cancel] at h
      rw [← h, Finset.mul_sum]
      exact Finset.sum_congr rfl fun j _ => by ring
    simp only [this, ramp_add]
    rw [add_sub_cancel, ramp_full]

/-! ### Derivatives -/

theorem ramp_deriv (p i : Nat) : ∃ r : ℝ → ℝ, Continuous r ∧ ∀ z, HasDerivAt (ramp p i) (r z) z := by
  induction i with
  | zero =>
    refine ⟨fun _ => 0, continuous_const, fun z => ?_⟩
    have : ramp p 0 = fun _ => 1 := by funext z; exact ramp_zero p z
    rw [this]
    exact hasDerivAt_const z 1
  | succ i ih =>
    obtain ⟨r, hr, hd⟩ := ih
    refine ⟨fun z => r z * (((p : ℝ) * z - i) / (i + 1)) + ramp p i z * ((p : ℝ) * 1 / (i + 1)), ?_, fun z => ?_⟩
    · have := ramp_continuous p i
      fun_prop
    · have : ramp p (i + 1) = fun z => ramp p i z * (((p : ℝ) * z - i) / (i + 1)) := by
        funext z
        exact ramp_succ p i z
      rw [this]
      exact (hd z).mul ((((hasDerivAt_id z).const_mul (p : ℝ)).sub_const (i : ℝ)).div_const _)

/-- The basis functions have continuous partial derivatives. -/
theorem lagrange_deriv (p : Nat) (t : CellType) (n : Nat × Nat) : ∃ d e : ℝ × ℝ → ℝ, Continuous d ∧ Continuous e ∧
    (∀ z : ℝ × ℝ, HasDerivAt (fun y => lagrangeFunction p t n (y, z.2)) (d z) z.1) ∧
    ∀ z : ℝ × ℝ, HasDerivAt (fun y => lagrangeFunction p t n (z.1, y)) (e z) z.2 := by
  have hc := fun i => ramp_continuous p i
  choose r hr hd using ramp_deriv p
  have hs : ∀ i (c z : ℝ), HasDerivAt (fun y => ramp p i (c - y)) (r i (c - z) * -1) z := fun i c z =>
    (hd i (c - z)).comp z ((hasDerivAt_id z).const_sub c)
  by_cases hq : t = .quadrilateral
  · subst hq
    refine ⟨fun z => (r n.1 z.1 * ramp p (p - n.1) (1 - z.1) + ramp p n.1 z.1 * (r (p - n.1) (1 - z.1) * -1)) *
        (ramp p n.2 z.2 * ramp p (p - n.2) (1 - z.2)),
      fun z => ramp p n.1 z.1 * ramp p (p - n.1) (1 - z.1) *
        (r n.2 z.2 * ramp p (p - n.2) (1 - z.2) + ramp p n.2 z.2 * (r (p - n.2) (1 - z.2) * -1)), ?_, ?_, ?_, ?_⟩
    · have := hc n.1; have := hc n.2; have := hc (p - n.1); have := hc (p - n.2); have := hr n.1; have := hr (p - n.1)
      fun_prop
    · have := hc n.1; have := hc n.2; have := hc (p - n.1); have := hc (p - n.2); have := hr n.2; have := hr (p - n.2)
      fun_prop
    · exact fun z => ((hd n.1 z.1).fun_mul (hs (p - n.1) 1 z.1)).mul_const (ramp p n.2 z.2 * ramp p (p - n.2) (1 - z.2))
    · exact fun z => ((hd n.2 z.2).fun_mul (hs (p - n.2) 1 z.2)).const_mul (ramp p n.1 z.1 * ramp p (p - n.1) (1 - z.1))
  · have e : lagrangeFunction p t n = fun z =>
        ramp p (p - n.1 - n.2) (1 - z.1 - z.2) * ramp p n.1 z.1 * ramp p n.2 z.2 := by
      funext z
      unfold lagrangeFunction
      split
      · exact absurd rfl hq
      · rfl
    refine ⟨fun z => (r (p - n.1 - n.2) (1 - z.1 - z.2) * -1 * ramp p n.1 z.1 +
        ramp p (p - n.1 - n.2) (1 - z.1 - z.2) * r n.1 z.1) * ramp p n.2 z.2,
      fun z => (r (p - n.1 - n.2) (1 - z.1 - z.2) * -1 * ramp p n.1 z.1) * ramp p n.2 z.2 +
        ramp p (p - n.1 - n.2) (1 - z.1 - z.2) * ramp p n.1 z.1 * r n.2 z.2, ?_, ?_, ?_, ?_⟩
    · have := hc n.1; have := hc n.2; have := hc (p - n.1 - n.2); have := hr n.1; have := hr (p - n.1 - n.2)
      fun_prop
    · have := hc n.1; have := hc n.2; have := hc (p - n.1 - n.2); have := hr n.2; have := hr (p - n.1 - n.2)
      fun_prop
    · intro z
      rw [e]
      have h1 : HasDerivAt (fun y => ramp p (p - n.1 - n.2) (1 - y - z.2)) (r (p - n.1 - n.2) (1 - z.1 - z.2) * -1) z.1 := by
        have e2 : ∀ y, 1 - y - z.2 = 1 - z.2 - y := fun y => by ring
        simp only [e2]
        exact hs _ _ _
      exact (h1.fun_mul (hd n.1 z.1)).mul_const (ramp p n.2 z.2)
    · intro z
      rw [e]
      exact ((hs (p - n.1 - n.2) (1 - z.1) z.2).mul_const (ramp p n.1 z.1)).fun_mul (hd n.2 z.2)

/-! ### Elements -/

section
variable {p dim : Nat} {t : CellType} {B : Basis ℝ ℝ} {node : Nat → Nat × Nat}

theorem NodalBasis.at_node (h : NodalBasis p t dim B node) {a b : Nat} (ha : a < dim) (hb : b < dim) :
    B t b 0 (pointList (nodePoint p (node a))) = if a = b then 1 else 0 := by
  rw [h.value b hb]
  simp only [pointList, nodePoint, List.getD_cons_zero, List.getD_cons_succ]
  have pa := h.point a ha
  have pb := h.point b hb
  rcases Nat.eq_zero_or_pos p with hp | hp
  · subst hp
    have hz : ∀ n, NodalPoint 0 t n → n = (0, 0) := by
      intro n hn
      unfold NodalPoint at hn
      split at hn <;> exact Prod.ext (by omega) (by omega)
    have e : a = b := h.injective a b ha hb (by rw [hz _ pa, hz _ pb])
    rw [if_pos e, hz _ pb]
    unfold lagrangeFunction
    split <;> simp [ramp_zero]
  · rw [lagrangeFunction_nodes hp pb pa]
    by_cases e : a = b
    · rw [if_pos e, if_pos (by rw [e])]
    · rw [if_neg e, if_neg fun e' => e (h.injective a b ha hb e')]

theorem nodePoint_mem (ht : t = .triangle ∨ t = .quadrilateral) {n : Nat × Nat} (hn : NodalPoint p t n) :
    nodePoint p n ∈ refCell t := by
  have h1 : ∀ k : Nat, k ≤ p → (k : ℝ) / p ≤ 1 := fun k hk => div_le_one_of_le₀ (by exact_mod_cast hk) (by positivity)
  rcases ht with rfl | rfl
  · simp only [NodalPoint, reduceCtorEq, if_false] at hn
    refine ⟨by simp only [nodePoint]; positivity, by simp only [nodePoint]; positivity, ?_⟩
    simp only [nodePoint]
    rw [← add_div]
    exact_mod_cast h1 _ hn
  · simp only [NodalPoint, if_true] at hn
    exact ⟨by simp only [nodePoint]; positivity, h1 _ hn.1, by simp only [nodePoint]; positivity, h1 _ hn.2⟩

theorem NodalBasis.combination (h : NodalBasis p t dim B node) (w : Nat → ℝ) {a : Nat} (ha : a < dim) :
    ((List.range dim).map fun b => w b * B t b 0 (pointList (nodePoint p (node a)))).sum = w a := by
  rw [← List.sum_toFinset _ List.nodup_range]
  rw [Finset.sum_eq_single a]
  · rw [h.at_node ha ha, if_pos rfl, mul_one]
  · intro b hb hne
    rw [h.at_node ha (by simpa using hb), if_neg (Ne.symm hne), mul_zero]
  · intro hn
    simp [ha] at hn

theorem NodalBasis.independent (h : NodalBasis p t dim B node) (ht : t = .triangle ∨ t = .quadrilateral) :
    IndependentBasis B t dim := by
  intro w hw a ha
  rw [← h.combination w ha]
  exact hw _ (nodePoint_mem ht (h.point a ha))

theorem NodalBasis.image (h : NodalBasis p t dim B node) : (Finset.range dim).image node = nodalPoints p t := by
  apply Finset.eq_of_subset_of_card_le
  · intro n hn
    obtain ⟨a, ha, rfl⟩ := Finset.mem_image.mp hn
    exact mem_nodalPoints.mpr (h.point a (Finset.mem_range.mp ha))
  · rw [card_nodalPoints, ← h.count, Finset.card_image_of_injOn, Finset.card_range]
    exact fun a ha b hb e => h.injective a b (by simpa using ha) (by simpa using hb) e

theorem NodalBasis.sum_value (h : NodalBasis p t dim B node) (x : List ℝ) :
    ((List.range dim).map fun b => B t b 0 x).sum = 1 := by
  rw [← List.sum_toFinset _ List.nodup_range, List.toFinset_range]
  rw [← lagrange_sum p t (x.getD 0 0, x.getD 1 0), ← h.image, Finset.sum_image]
  · exact Finset.sum_congr rfl fun b hb => h.value b (Finset.mem_range.mp hb) x
  · exact fun a ha b hb e => h.injective a b (by simpa using ha) (by simpa using hb) e

theorem NodalBasis.sum_function (h : NodalBasis p t dim B node) (z : ℝ × ℝ) :
    ∑ b ∈ Finset.range dim, lagrangeFunction p t (node b) z = 1 := by
  rw [← lagrange_sum p t z, ← h.image, Finset.sum_image]
  exact fun a ha b hb e => h.injective a b (by simpa using ha) (by simpa using hb) e

theorem NodalBasis.unity (h : NodalBasis p t dim B node) : PartitionOfUnity B t dim := by
  intro x
  refine ⟨h.sum_value x, ?_, ?_⟩
  · rw [← List.sum_toFinset _ List.nodup_range, List.toFinset_range]
    have := HasDerivAt.fun_sum fun b (hb : b ∈ Finset.range dim) => h.first b (Finset.mem_range.mp hb) x
    simp only [h.sum_function] at this
    exact this.unique (hasDerivAt_const _ _)
  · rw [← List.sum_toFinset _ List.nodup_range, List.toFinset_range]
    have := HasDerivAt.fun_sum fun b (hb : b ∈ Finset.range dim) => h.second b (Finset.mem_range.mp hb) x
    simp only [h.sum_function] at this
    exact this.unique (hasDerivAt_const _ _)

theorem NodalBasis.continuous (h : NodalBasis p t dim B node) : ContinuousBasis B t dim := by
  intro a ha i hi
  apply Continuous.continuousOn
  obtain ⟨d, e, hd, he, h1, h2⟩ := lagrange_deriv p t (node a)
  match i, hi with
  | 0, _ =>
    have : (fun z => B t a 0 (pointList z)) = lagrangeFunction p t (node a) := by
      funext z
      exact h.value a ha _
    rw [this]
    exact lagrangeFunction_continuous _ _ _
  | 1, _ =>
    have : (fun z => B t a 1 (pointList z)) = d := by
      funext z
      exact (h.first a ha (pointList z)).unique (h1 z)
    rwa [this]
  | 2, _ =>
    have : (fun z => B t a 2 (pointList z)) = e := by
      funext z
      exact (h.second a ha (pointList z)).unique (h2 z)
    rwa [this]

/-- A combination whose derivatives are 0 is constant, and its values at the points are the coefficients. -/
theorem NodalBasis.gradient (h : NodalBasis p t dim B node) (ht : t = .triangle ∨ t = .quadrilateral) :
    GradientBasis B t dim := by
  intro w hw
  let f : ℝ × ℝ → ℝ := fun z => ∑ b ∈ Finset.range dim, w b * lagrangeFunction p t (node b) z
  have hx : ∀ z ∈ refCell t, HasDerivAt (fun y => f (y, z.2)) 0 z.1 := by
    intro z hz
    have := HasDerivAt.fun_sum fun b (hb : b ∈ Finset.range dim) =>
      (h.first b (Finset.mem_range.mp hb) (pointList z)).const_mul (w b)
    have e := (hw z hz).1
    rw [← List.sum_toFinset _ List.nodup_range, List.toFinset_range] at e
    rw [e] at this
    exact this
  have hy : ∀ z ∈ refCell t, HasDerivAt (fun y => f (z.1, y)) 0 z.2 := by
    intro z hz
    have := HasDerivAt.fun_sum fun b (hb : b ∈ Finset.range dim) =>
      (h.second b (Finset.mem_range.mp hb) (pointList z)).const_mul (w b)
    have e := (hw z hz).2
    rw [← List.sum_toFinset _ List.nodup_range, List.toFinset_range] at e
    rw [e] at this
    exact this
  have hsub : ∀ z ∈ refCell t, 0 ≤ z.1 ∧ 0 ≤ z.2 ∧ ∀ y : ℝ × ℝ, 0 ≤ y.1 → 0 ≤ y.2 → y.1 ≤ z.1 → y.2 ≤ z.2 → y ∈ refCell t := by
    intro z hz
    rcases ht with rfl | rfl
    · obtain ⟨a, b, c⟩ := hz
      exact ⟨a, b, fun y h1 h2 h3 h4 => ⟨h1, h2, by linarith⟩⟩
    · obtain ⟨a, b, c, d⟩ := hz
      exact ⟨a, c, fun y h1 h2 h3 h4 => ⟨h1, by linarith, h2, by linarith⟩⟩
  have hconst : ∀ z ∈ refCell t, f z = f (0, 0) := by
    intro z hz
    obtain ⟨h1, h2, h3⟩ := hsub z hz
    have k1 : f (z.1, z.2) = f (0, z.2) := by
      have hmem : ∀ y ∈ Set.Icc 0 z.1, (y, z.2) ∈ refCell t := fun y hy => h3 _ hy.1 h2 hy.2 le_rfl
      exact constant_of_has_deriv_right_zero (f := fun y => f (y, z.2)) (a := 0) (b := z.1)
        (fun y hy => (hx (y, z.2) (hmem y hy)).continuousAt.continuousWithinAt)
        (fun y hy => (hx (y, z.2) (hmem y ⟨hy.1, hy.2.le⟩)).hasDerivWithinAt) z.1 ⟨h1, le_rfl⟩
    have k2 : f (0, z.2) = f (0, 0) := by
      have hmem : ∀ y ∈ Set.Icc 0 z.2, ((0 : ℝ), y) ∈ refCell t := fun y hy => h3 _ le_rfl hy.1 h1 hy.2
      exact constant_of_has_deriv_right_zero (f := fun y => f (0, y)) (a := 0) (b := z.2)
        (fun y h' => (hy (0, y) (hmem y h')).continuousAt.continuousWithinAt)
        (fun y h' => (hy (0, y) (hmem y ⟨h'.1, h'.2.le⟩)).hasDerivWithinAt) z.2 ⟨h2, le_rfl⟩
    exact k1.trans k2
  have hval : ∀ a, a < dim → w a = f (0, 0) := by
    intro a ha
    rw [← h.combination w ha, ← hconst _ (nodePoint_mem ht (h.point a ha)), ← List.sum_toFinset _ List.nodup_range,
      List.toFinset_range]
    exact Finset.sum_congr rfl fun b hb => by rw [h.value b (Finset.mem_range.mp hb)]; rfl
  intro a b ha hb
  rw [hval a ha, hval b hb]

end
end Bempp
