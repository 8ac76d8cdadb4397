import Verif.Spec.Sweep
import Verif.Spec.Green
import Verif.Spec.Operators
import Verif.Spec.Dense
import Verif.Proofs.Values
import Verif.Proofs.ComplexSystems
import Mathlib.Analysis.Calculus.FDeriv.Mul
import Mathlib.Analysis.SpecialFunctions.ExpDeriv
/-
Dependence of assembled values on the wavenumber: they are restrictions of entire functions.
-/
namespace Bempp

/-- The restriction to the real numbers of a function that is differentiable on the complex numbers. -/
def Ent (f : ℝ → ℂ) : Prop := ∃ g : ℂ → ℂ, Differentiable ℂ g ∧ ∀ w : ℝ, f w = g w

namespace Ent
variable {f g : ℝ → ℂ}

theorem const (c : ℂ) : Ent fun _ => c := ⟨fun _ => c, differentiable_const c, fun _ => rfl⟩

theorem coe : Ent fun w => (w : ℂ) := ⟨id, differentiable_id, fun _ => rfl⟩

theorem add (hf : Ent f) (hg : Ent g) : Ent fun w => f w + g w := by
  obtain ⟨F, hF, eF⟩ := hf
  obtain ⟨G, hG, eG⟩ := hg
  exact ⟨fun z => F z + G z, hF.fun_add hG, fun w => by simp only [eF, eG]⟩

theorem sub (hf : Ent f) (hg : Ent g) : Ent fun w => f w - g w := by
  obtain ⟨F, hF, eF⟩ := hf
  obtain ⟨G, hG, eG⟩ := hg
  exact ⟨fun z => F z - G z, hF.fun_sub hG, fun w => by simp only [eF, eG]⟩

theorem mul (hf : Ent f) (hg : Ent g) : Ent fun w => f w * g w := by
  obtain ⟨F, hF, eF⟩ := hf
  obtain ⟨G, hG, eG⟩ := hg
  exact ⟨fun z => F z * G z, hF.fun_mul hG, fun w => by simp only [eF, eG]⟩

theorem neg (hf : Ent f) : Ent fun w => -f w := by
  obtain ⟨F, hF, eF⟩ := hf
  exact ⟨fun z => -F z, hF.fun_neg, fun w => by simp only [eF]⟩

theorem div (hf : Ent f) (c : ℂ) : Ent fun w => f w / c := by
  simp only [div_eq_mul_inv]
  exact hf.mul (const _)

theorem exp (hf : Ent f) : Ent fun w => Complex.exp (f w) := by
  obtain ⟨F, hF, eF⟩ := hf
  exact ⟨fun z => Complex.exp (F z), hF.cexp, fun w => by simp only [eF]⟩

theorem sum {α : Type} (l : List α) {f : α → ℝ → ℂ} (hf : ∀ a ∈ l, Ent (f a)) : Ent fun w => (l.map fun a => f a w).sum := by
  induction l with
  | nil => exact const 0
  | cons a l ih =>
    simp only [List.map_cons, List.sum_cons]
    exact (hf a List.mem_cons_self).add (ih fun b hb => hf b (List.mem_cons_of_mem _ hb))

theorem ite {p : Prop} [Decidable p] (hf : Ent f) (hg : Ent g) : Ent fun w => if p then f w else g w := by
  by_cases h : p
  · simpa only [if_pos h] using hf
  · simpa only [if_neg h] using hg

theorem continuous (hf : Ent f) : Continuous f := by
  obtain ⟨F, hF, eF⟩ := hf
  have : f = fun w : ℝ => F w := funext eF
  rw [this]
  exact hF.continuous.comp Complex.continuous_ofReal

end Ent

theorem helmholtzGreen_ent (x y : List ℝ) (i : Nat) : Ent fun w => helmholtzGreen w x y i := by
  cases i with
  | zero => exact (((Ent.const Complex.I).mul Ent.coe).mul (Ent.const _)).exp.div _
  | succ j =>
    exact ((((Ent.const 1).sub (((Ent.const Complex.I).mul Ent.coe).mul (Ent.const _))).mul
      (((Ent.const Complex.I).mul Ent.coe).mul (Ent.const _)).exp).mul (Ent.const _)).div _

/-- An integrand that may depend on the wavenumber, and keeps the dependence entire. -/
def EntIntegrand (F : ℝ → MathIntegrand ℂ) : Prop :=
  ∀ (K : ℝ → Nat → ℂ) (U V : Nat → ℂ) (TG RG : PointData ℂ), (∀ i, Ent fun w => K w i) → Ent fun w => F w (K w) U V TG RG

theorem slF_ent : EntIntegrand fun _ => slF := fun _ _ _ _ _ hK => ((hK 0).mul (.const _)).mul (.const _)

theorem dlF_ent : EntIntegrand fun _ => dlF := fun _ _ _ _ _ hK =>
  (((((hK 1).mul (.const _)).add ((hK 2).mul (.const _))).add ((hK 3).mul (.const _))).mul (.const _)).mul (.const _)

theorem adlF_ent : EntIntegrand fun _ => adlF := fun _ _ _ _ _ hK =>
  ((((((hK 1).mul (.const _)).add ((hK 2).mul (.const _))).add ((hK 3).mul (.const _))).neg).mul (.const _)).mul (.const _)

theorem helmholtzHypF_ent : EntIntegrand fun w => helmholtzHypF Complex.ofReal w := fun _ _ _ _ _ hK => by
  refine Ent.add ((((hK 0).mul (.const _)).div _).div _) (Ent.mul ?_ ((((hK 0).mul (.const _)).mul (.const _)).mul (.const _)))
  push_cast
  exact (Ent.coe.mul Ent.coe).neg

section
variable {F : ℝ → MathIntegrand ℂ} {GT GR : Geometry ℝ} {BT BR : Basis ℝ ℂ} {Q : Quadrature ℝ}

theorem cellPairValue_ent (hF : EntIntegrand F) (test trial : FunctionSpace) (c c' : Entity) (a b : Nat) :
    Ent fun w => cellPairValue Complex.ofReal (F w) (helmholtzGreen w) GT GR BT BR Q test trial c c' a b := by
  unfold cellPairValue
  refine Ent.ite ?_ ?_
  · simp only [singularValue_eq]
    refine Ent.sum _ fun p _ => ?_
    unfold singularTerm
    exact (hF _ _ _ _ _ fun i => helmholtzGreen_ent _ _ i).mul (.const _)
  · simp only [regularValue_eq]
    refine Ent.sum _ fun p _ => Ent.sum _ fun q _ => ?_
    unfold regularTerm
    exact ((hF _ _ _ _ _ fun i => helmholtzGreen_ent _ _ i).mul (.const _)).mul (.const _)

theorem doubleSum_ent (hF : EntIntegrand F) (test trial : FunctionSpace) (i j : Nat) :
    Ent fun w => doubleSum test trial (cellPairValue Complex.ofReal (F w) (helmholtzGreen w) GT GR BT BR Q test trial) i j := by
  unfold doubleSum
  exact Ent.sum _ fun c _ => Ent.sum _ fun c' _ => Ent.sum _ fun ia _ => Ent.sum _ fun jb _ =>
    (cellPairValue_ent hF test trial _ _ _ _).ite (.const 0)

end

/-! ### Systems of equations -/

theorem SystemSolves.congr {A A' : Nat → Nat → ℂ} {n : Nat} (e : ∀ i j, i < n → j < n → A i j = A' i j) {x b : Nat → ℂ} :
    SystemSolves A n x b ↔ SystemSolves A' n x b := by
  have : ∀ i, i < n → (List.range n).map (fun j => A i j * x j) = (List.range n).map fun j => A' i j * x j :=
    fun i hi => List.map_congr_left fun j hj => by rw [e i j hi (List.mem_range.mp hj)]
  exact forall_congr' fun i => forall_congr' fun hi => by rw [this i hi]

theorem UniquelySolvable.congr {A A' : Nat → Nat → ℂ} {n : Nat} (e : ∀ i j, i < n → j < n → A i j = A' i j) :
    UniquelySolvable A n ↔ UniquelySolvable A' n := by
  unfold UniquelySolvable
  simp only [SystemSolves.congr e]

theorem solvable_finite {A : ℝ → Nat → Nat → ℂ} {n : Nat} (hA : ∀ i j, i < n → j < n → Ent fun w => A w i j) {w₀ : ℝ}
    (h0 : UniquelySolvable (A w₀) n) (R : ℝ) : {w : ℝ | |w| ≤ R ∧ ¬ UniquelySolvable (A w) n}.Finite := by
  choose g hg eg using hA
  let B : ℂ → Nat → Nat → ℂ := fun z i j => if h : i < n ∧ j < n then g i j h.1 h.2 z else 0
  have hB : ∀ i j, Differentiable ℂ fun z => B z i j := fun i j => by
    by_cases h : i < n ∧ j < n
    · simp only [B, dif_pos h]; exact hg i j h.1 h.2
    · simp only [B, dif_neg h]; exact differentiable_const _
  have e : ∀ w : ℝ, UniquelySolvable (A w) n ↔ UniquelySolvable (B w) n := fun w =>
    UniquelySolvable.congr fun i j hi hj => by
      simp only [B, dif_pos (And.intro hi hj)]
      exact eg i j hi hj w
  simp only [e]
  exact exceptions_finite hB ((e w₀).mp h0) R

theorem solutions_continuous {A : ℝ → Nat → Nat → ℂ} {n : Nat} (hA : ∀ i j, i < n → j < n → Ent fun w => A w i j) {w₀ : ℝ}
    (h0 : UniquelySolvable (A w₀) n) {x b : Nat → ℂ} (hx : SystemSolves (A w₀) n x b) {ε : ℝ} (hε : 0 < ε) :
    ∃ δ > 0, ∀ w, |w - w₀| < δ → UniquelySolvable (A w) n ∧
      ∀ y b', (∀ i, i < n → ‖b' i - b i‖ ≤ δ) → SystemSolves (A w) n y b' → ∀ i, i < n → ‖y i - x i‖ ≤ ε := by
  obtain ⟨δ, hδ, hn⟩ := nearby_system h0 hx hε
  have hev : ∀ᶠ w in nhds w₀, ∀ i ∈ Finset.range n, ∀ j ∈ Finset.range n, ‖A w i j - A w₀ i j‖ ≤ δ := by
    rw [Filter.eventually_all_finset]
    intro i hi
    rw [Filter.eventually_all_finset]
    intro j hj
    have hc := (hA i j (Finset.mem_range.mp hi) (Finset.mem_range.mp hj)).continuous.tendsto w₀
    have := Metric.tendsto_nhds.mp hc δ hδ
    filter_upwards [this] with w hw
    rw [← dist_eq_norm]
    exact hw.le
  obtain ⟨η, hη, hw⟩ := Metric.eventually_nhds_iff.mp hev
  refine ⟨min δ η, lt_min hδ hη, fun w h => ?_⟩
  have hm := hn (A w) fun i j hi hj => hw (y := w) (by rw [Real.dist_eq]; exact h.trans_le (min_le_right _ _)) i
    (Finset.mem_range.mpr hi) j (Finset.mem_range.mpr hj)
  exact ⟨hm.1, fun y b' hb hy => hm.2 b' y (fun i hi => (hb i hi).trans (min_le_left _ _)) hy⟩

theorem range_sum_re (n : Nat) (f : Nat → ℂ) : ((List.range n).map f).sum.re = ((List.range n).map fun i => (f i).re).sum := by
  induction n with
  | zero => rfl
  | succ n ih => simp [List.range_succ, ih]

theorem range_sum_im (n : Nat) (f : Nat → ℂ) : ((List.range n).map f).sum.im = ((List.range n).map fun i => (f i).im).sum := by
  induction n with
  | zero => rfl
  | succ n ih => simp [List.range_succ, ih]

theorem range_sum_coe (n : Nat) (f : Nat → ℝ) :
    ((((List.range n).map f).sum : ℝ) : ℂ) = ((List.range n).map fun i => (f i : ℂ)).sum := by
  induction n with
  | zero => simp
  | succ n ih => simp [List.range_succ, ih]

theorem Solves.coe {M : List ℝ} {n : Nat} {x b : Nat → ℝ} (h : Solves M n x b) :
    SystemSolves (fun i j => (M.getD (i + n * j) 0 : ℂ)) n (fun i => (x i : ℂ)) fun i => (b i : ℂ) := fun i hi => by
  have := congrArg (fun r : ℝ => (r : ℂ)) (h i hi)
  simp only [range_sum_coe, Complex.ofReal_mul] at this
  exact this

theorem RealUniquelySolvable.coe {M : List ℝ} {n : Nat} (h : RealUniquelySolvable M n) :
    UniquelySolvable (fun i j => (M.getD (i + n * j) 0 : ℂ)) n := by
  intro b
  obtain ⟨⟨u, hu⟩, _⟩ := h fun i => (b i).re
  obtain ⟨⟨v, hv⟩, _⟩ := h fun i => (b i).im
  have split : ∀ z : Nat → ℂ, SystemSolves (fun i j => (M.getD (i + n * j) 0 : ℂ)) n z b ↔
      Solves M n (fun i => (z i).re) (fun i => (b i).re) ∧ Solves M n (fun i => (z i).im) (fun i => (b i).im) := by
    intro z
    constructor
    · intro hz
      refine ⟨fun i hi => ?_, fun i hi => ?_⟩
      · refine Eq.trans ?_ (congrArg Complex.re (hz i hi))
        rw [range_sum_re]
        simp
      · refine Eq.trans ?_ (congrArg Complex.im (hz i hi))
        rw [range_sum_im]
        simp
    · rintro ⟨h1, h2⟩ i hi
      apply Complex.ext
      · refine Eq.trans ?_ (h1 i hi)
        rw [range_sum_re]
        simp
      · refine Eq.trans ?_ (h2 i hi)
        rw [range_sum_im]
        simp
  refine ⟨⟨fun i => ⟨u i, v i⟩, (split _).mpr ⟨hu, hv⟩⟩, fun x y hx hy i hi => ?_⟩
  obtain ⟨x1, x2⟩ := (split x).mp hx
  obtain ⟨y1, y2⟩ := (split y).mp hy
  exact Complex.ext ((h _).2 _ _ x1 y1 i hi) ((h _).2 _ _ x2 y2 i hi)

end Bempp
