import Verif.Proofs.Nodal
import Mathlib.Algebra.Algebra.Operations
import Mathlib.LinearAlgebra.Dimension.Constructions
import Mathlib.LinearAlgebra.FiniteDimensional.Lemmas
/-
Polynomials are reproduced by interpolation with Lagrange functions.
-/
namespace Bempp

/-- The functions `x^i y^j`. -/
def mono (e : Nat × Nat) (z : ℝ × ℝ) : ℝ := z.1 ^ e.1 * z.2 ^ e.2

/-- The combinations of these functions with exponents in a set. -/
def polys (S : Set (Nat × Nat)) : Submodule ℝ (ℝ × ℝ → ℝ) := Submodule.span ℝ (mono '' S)

theorem polys_mono {S S' : Set (Nat × Nat)} (h : S ⊆ S') : polys S ≤ polys S' :=
  Submodule.span_mono (Set.image_mono h)

theorem polys_mul {S S' U : Set (Nat × Nat)} (h : ∀ a ∈ S, ∀ b ∈ S', (a.1 + b.1, a.2 + b.2) ∈ U) {f g : ℝ × ℝ → ℝ}
    (hf : f ∈ polys S) (hg : g ∈ polys S') : (fun z => f z * g z) ∈ polys U := by
  have h1 : f * g ∈ polys S * polys S' := Submodule.mul_mem_mul hf hg
  unfold polys at h1
  rw [Submodule.span_mul_span] at h1
  refine Submodule.span_mono ?_ h1
  rintro _ ⟨_, ⟨a, ha, rfl⟩, _, ⟨b, hb, rfl⟩, rfl⟩
  refine ⟨_, h a ha b hb, ?_⟩
  funext z
  simp only [mono, Pi.mul_apply, pow_add]
  ring

theorem polys_one {S : Set (Nat × Nat)} (h : (0, 0) ∈ S) (c : ℝ) : (fun _ => c) ∈ polys S := by
  have : (fun _ => c) = c • mono (0, 0) := by
    funext z
    simp [mono]
  rw [this]
  exact Submodule.smul_mem _ _ (Submodule.subset_span ⟨_, h, rfl⟩)

theorem ramp_mem {D : Nat → Set (Nat × Nat)} (hD : ∀ i j, ∀ a ∈ D i, ∀ b ∈ D j, (a.1 + b.1, a.2 + b.2) ∈ D (i + j))
    (h0 : (0, 0) ∈ D 0) (h1 : (0, 0) ∈ D 1) {l : ℝ × ℝ → ℝ} (hl : l ∈ polys (D 1)) (p i : Nat) :
    (fun z => ramp p i (l z)) ∈ polys (D i) := by
  induction i with
  | zero =>
    simp only [ramp_zero]
    exact polys_one h0 1
  | succ i ih =>
    simp only [ramp_succ]
    refine polys_mul (hD i 1) ih ?_
    have : (fun z => ((p : ℝ) * l z - i) / (i + 1)) = ((p : ℝ) / (i + 1)) • l - fun _ => (i : ℝ) / (i + 1) := by
      funext z
      simp only [Pi.sub_apply, Pi.smul_apply, smul_eq_mul]
      ring
    rw [this]
    exact Submodule.sub_mem _ (Submodule.smul_mem _ _ hl) (polys_one h1 _)

theorem first_mem {S : Set (Nat × Nat)} (h : (1, 0) ∈ S) : (fun z : ℝ × ℝ => z.1) ∈ polys S := by
  have : (fun z : ℝ × ℝ => z.1) = mono (1, 0) := by
    funext z
    simp [mono]
  rw [this]
  exact Submodule.subset_span ⟨_, h, rfl⟩

theorem second_mem {S : Set (Nat × Nat)} (h : (0, 1) ∈ S) : (fun z : ℝ × ℝ => z.2) ∈ polys S := by
  have : (fun z : ℝ × ℝ => z.2) = mono (0, 1) := by
    funext z
    simp [mono]
  rw [this]
  exact Submodule.subset_span ⟨_, h, rfl⟩

/-- The basis functions are polynomials of the degree of the element. -/
theorem lagrange_mem {p : Nat} {t : CellType} {n : Nat × Nat} (hn : NodalPoint p t n) :
    lagrangeFunction p t n ∈ polys {e | NodalPoint p t e} := by
  by_cases hq : t = .quadrilateral
  · subst hq
    simp only [NodalPoint, if_true] at hn ⊢
    have X : ∀ i k, i + k ≤ p → (fun z : ℝ × ℝ => ramp p i z.1 * ramp p k (1 - z.1)) ∈
        polys {e : Nat × Nat | e.1 ≤ p ∧ e.2 = 0} := by
      intro i k hik
      have hD : ∀ i j, ∀ a ∈ {e : Nat × Nat | e.1 ≤ i ∧ e.2 = 0}, ∀ b ∈ {e : Nat × Nat | e.1 ≤ j ∧ e.2 = 0},
          (a.1 + b.1, a.2 + b.2) ∈ {e : Nat × Nat | e.1 ≤ i + j ∧ e.2 = 0} := by
        rintro i j a ⟨a1, a2⟩ b ⟨b1, b2⟩
        exact ⟨by simp only; omega, by simp only; omega⟩
      have m1 : (fun z : ℝ × ℝ => z.1) ∈ polys {e : Nat × Nat | e.1 ≤ 1 ∧ e.2 = 0} := first_mem ⟨le_rfl, rfl⟩
      refine polys_mono ?_ (polys_mul (hD i k)
        (ramp_mem (D := fun k => {e : Nat × Nat | e.1 ≤ k ∧ e.2 = 0}) hD (by simp) (by simp) m1 p i)
        (ramp_mem (D := fun k => {e : Nat × Nat | e.1 ≤ k ∧ e.2 = 0}) hD (by simp) (by simp)
          (Submodule.sub_mem _ (polys_one (by simp) 1) m1) p k))
      rintro e ⟨h1, h2⟩
      exact ⟨by omega, h2⟩
    have Y : ∀ i k, i + k ≤ p → (fun z : ℝ × ℝ => ramp p i z.2 * ramp p k (1 - z.2)) ∈
        polys {e : Nat × Nat | e.1 = 0 ∧ e.2 ≤ p} := by
      intro i k hik
      have hD : ∀ i j, ∀ a ∈ {e : Nat × Nat | e.1 = 0 ∧ e.2 ≤ i}, ∀ b ∈ {e : Nat × Nat | e.1 = 0 ∧ e.2 ≤ j},
          (a.1 + b.1, a.2 + b.2) ∈ {e : Nat × Nat | e.1 = 0 ∧ e.2 ≤ i + j} := by
        rintro i j a ⟨a1, a2⟩ b ⟨b1, b2⟩
        exact ⟨by simp only; omega, by simp only; omega⟩
      have m1 : (fun z : ℝ × ℝ => z.2) ∈ polys {e : Nat × Nat | e.1 = 0 ∧ e.2 ≤ 1} := second_mem ⟨rfl, le_rfl⟩
      refine polys_mono ?_ (polys_mul (hD i k)
        (ramp_mem (D := fun k => {e : Nat × Nat | e.1 = 0 ∧ e.2 ≤ k}) hD (by simp) (by simp) m1 p i)
        (ramp_mem (D := fun k => {e : Nat × Nat | e.1 = 0 ∧ e.2 ≤ k}) hD (by simp) (by simp)
          (Submodule.sub_mem _ (polys_one (by simp) 1) m1) p k))
      rintro e ⟨h1, h2⟩
      exact ⟨h1, by omega⟩
    refine polys_mul ?_ (X n.1 (p - n.1) (by omega)) (Y n.2 (p - n.2) (by omega))
    rintro a ⟨a1, a2⟩ b ⟨b1, b2⟩
    exact ⟨by simp only; omega, by simp only; omega⟩
  · have e : lagrangeFunction p t n = fun z =>
        ramp p (p - n.1 - n.2) (1 - z.1 - z.2) * ramp p n.1 z.1 * ramp p n.2 z.2 := by
      funext z
      unfold lagrangeFunction
      split
      · exact absurd rfl hq
      · rfl
    simp only [NodalPoint, if_neg hq] at hn ⊢
    have hD : ∀ i j, ∀ a ∈ {e : Nat × Nat | e.1 + e.2 ≤ i}, ∀ b ∈ {e : Nat × Nat | e.1 + e.2 ≤ j},
        (a.1 + b.1, a.2 + b.2) ∈ {e : Nat × Nat | e.1 + e.2 ≤ i + j} := by
      intro i j a ha b hb
      have ha : a.1 + a.2 ≤ i := ha
      have hb : b.1 + b.2 ≤ j := hb
      show a.1 + b.1 + (a.2 + b.2) ≤ i + j
      omega
    have m1 : (fun z : ℝ × ℝ => z.1) ∈ polys {e : Nat × Nat | e.1 + e.2 ≤ 1} := first_mem (by simp)
    have m2 : (fun z : ℝ × ℝ => z.2) ∈ polys {e : Nat × Nat | e.1 + e.2 ≤ 1} := second_mem (by simp)
    have r := fun l hl i => ramp_mem (D := fun k => {e : Nat × Nat | e.1 + e.2 ≤ k}) (l := l) hD (by simp) (by simp) hl p i
    rw [e]
    have := polys_mul (hD _ _) (polys_mul (hD _ _)
      (r _ (Submodule.sub_mem _ (Submodule.sub_mem _ (polys_one (by simp) 1) m1) m2) (p - n.1 - n.2)) (r _ m1 n.1)) (r _ m2 n.2)
    refine polys_mono ?_ this
    intro e he
    have he : e.1 + e.2 ≤ p - n.1 - n.2 + n.1 + n.2 := he
    show e.1 + e.2 ≤ p
    omega

theorem NodalPoint.le {p q : Nat} {t : CellType} (h : p ≤ q) {e : Nat × Nat} (he : NodalPoint p t e) : NodalPoint q t e := by
  unfold NodalPoint at he ⊢
  split at he
  · rename_i hq
    rw [if_pos hq]
    omega
  · rename_i hq
    rw [if_neg hq]
    omega

theorem lagrange_at {q : Nat} {t : CellType} {n m : Nat × Nat} (hn : NodalPoint q t n) (hm : NodalPoint q t m) :
    lagrangeFunction q t n (nodePoint q m) = if m = n then 1 else 0 := by
  rcases Nat.eq_zero_or_pos q with hq | hq
  · subst hq
    have hz : ∀ n, NodalPoint 0 t n → n = (0, 0) := by
      intro n hn
      unfold NodalPoint at hn
      split at hn <;> exact Prod.ext (by omega) (by omega)
    rw [hz n hn, hz m hm, if_pos rfl]
    unfold lagrangeFunction
    split <;> simp [ramp_zero]
  · exact lagrangeFunction_nodes hq hn hm

/-- Polynomials of the degree of the element are the combinations of the basis functions with their values at the points. -/
theorem interpolate {q : Nat} {t : CellType} {f : ℝ × ℝ → ℝ} (hf : f ∈ polys {e | NodalPoint q t e}) (z : ℝ × ℝ) :
    f z = ∑ n ∈ nodalPoints q t, f (nodePoint q n) * lagrangeFunction q t n z := by
  have hset : {e | NodalPoint q t e} = (nodalPoints q t : Set (Nat × Nat)) := by
    ext e
    exact mem_nodalPoints.symm
  have hli : LinearIndependent ℝ fun n : nodalPoints q t => lagrangeFunction q t n.1 := by
    rw [Fintype.linearIndependent_iff]
    intro w hw m
    have := congrFun hw (nodePoint q m.1)
    simp only [Finset.sum_apply, Pi.smul_apply, smul_eq_mul, Pi.zero_apply] at this
    rw [Finset.sum_eq_single m] at this
    · rwa [lagrange_at (mem_nodalPoints.mp m.2) (mem_nodalPoints.mp m.2), if_pos rfl, mul_one] at this
    · intro n _ hne
      rw [lagrange_at (mem_nodalPoints.mp n.2) (mem_nodalPoints.mp m.2), if_neg fun e => hne (Subtype.ext e.symm), mul_zero]
    · intro h
      exact absurd (Finset.mem_univ m) h
  have hle : Submodule.span ℝ (Set.range fun n : nodalPoints q t => lagrangeFunction q t n.1) ≤
      polys {e | NodalPoint q t e} := by
    rw [Submodule.span_le]
    rintro _ ⟨n, rfl⟩
    exact lagrange_mem (mem_nodalPoints.mp n.2)
  classical
  have hfin : polys {e | NodalPoint q t e} = Submodule.span ℝ (((nodalPoints q t).image mono : Finset _) : Set (ℝ × ℝ → ℝ)) := by
    rw [polys, hset, Finset.coe_image]
  have hcard : Module.finrank ℝ (polys {e | NodalPoint q t e}) ≤ (nodalPoints q t).card := by
    rw [hfin]
    exact (finrank_span_finset_le_card _).trans Finset.card_image_le
  have hfd : FiniteDimensional ℝ (polys {e | NodalPoint q t e}) := by
    rw [hfin]
    exact FiniteDimensional.span_finset ℝ _
  have heq := Submodule.eq_of_le_of_finrank_le hle (by
    rw [finrank_span_eq_card hli, Fintype.card_coe]
    exact hcard)
  rw [← heq] at hf
  obtain ⟨w, hw⟩ := (Submodule.mem_span_range_iff_exists_fun ℝ).mp hf
  have hval : ∀ m : nodalPoints q t, f (nodePoint q m.1) = w m := by
    intro m
    rw [← hw]
    simp only [Finset.sum_apply, Pi.smul_apply, smul_eq_mul]
    rw [Finset.sum_eq_single m]
    · rw [lagrange_at (mem_nodalPoints.mp m.2) (mem_nodalPoints.mp m.2), if_pos rfl, mul_one]
    · intro n _ hne
      rw [lagrange_at (mem_nodalPoints.mp n.2) (mem_nodalPoints.mp m.2), if_neg fun e => hne (Subtype.ext e.symm), mul_zero]
    · intro h
      exact absurd (Finset.mem_univ m) h
  rw [← Finset.sum_coe_sort (nodalPoints q t)]
  simp only [hval]
  rw [← hw]
  simp

/-- Functions of lower degree are combinations of those of higher degree. -/
theorem lagrange_raise {p q : Nat} (h : p ≤ q) {t : CellType} {n : Nat × Nat} (hn : NodalPoint p t n) (z : ℝ × ℝ) :
    lagrangeFunction p t n z =
      ∑ m ∈ nodalPoints q t, lagrangeFunction p t n (nodePoint q m) * lagrangeFunction q t m z :=
  interpolate (polys_mono (fun _ he => NodalPoint.le h he) (lagrange_mem hn)) z

end Bempp
