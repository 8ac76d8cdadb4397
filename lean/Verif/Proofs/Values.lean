import Verif.Props.Sparse
import Mathlib.Algebra.Ring.Basic
import Mathlib.Algebra.BigOperators.Ring.List
/-
Quadrature values and matrix entries as sums.
-/
set_option linter.unusedSectionVars false

namespace Bempp

variable {R T : Type}

theorem foldl_add_sum [AddCommMonoid T] {α : Type} (l : List α) (f : α → T) (s : T) :
    l.foldl (fun s x => s + f x) s = s + (l.map f).sum := by
  induction l generalizing s with
  | nil => simp
  | cons a l ih => simp [ih, add_assoc]

section
variable [AddCommMonoid T] [Mul T] [Mul R]

/-- One term of the regular quadrature sum. -/
def regularTerm (cast : R → T) (F : MathIntegrand T) (G : MathKernel R T) (testG trialG : Geometry R)
    (testB trialB : Basis R T) (tt rt : CellType) (c c' a b : Nat) (p q : List R × R) : T :=
  F (G (testG.coords c p.1) (trialG.coords c' q.1)) (fun i => testB tt a i p.1)
      (fun i => trialB rt b i q.1) (testG.data cast c p.1) (trialG.data cast c' q.1)
    * cast (q.2 * trialG.jdet c' q.1) * cast (p.2 * testG.jdet c p.1)

/-- One term of the singular quadrature sum. -/
def singularTerm (cast : R → T) (F : MathIntegrand T) (G : MathKernel R T) (testG trialG : Geometry R)
    (testB trialB : Basis R T) (tt rt : CellType) (c c' a b : Nat) (p : List R × List R × R) : T :=
  F (G (testG.coords c p.1) (trialG.coords c' p.2.1)) (fun i => testB tt a i p.1)
      (fun i => trialB rt b i p.2.1) (testG.data cast c p.1) (trialG.data cast c' p.2.1)
    * cast (p.2.2 * (testG.jdet c p.1 * trialG.jdet c' p.2.1))

variable (cast : R → T) (F : MathIntegrand T) (K : MathKernel R T) (GT GR : Geometry R) (BT BR : Basis R T)
  (Q : Quadrature R) (tt rt : CellType) (con : Connectivity) (c c' a b : Nat)

theorem regularValue_eq : regularValue cast F K GT GR BT BR Q tt rt c c' a b =
    ((Q.regular tt).map fun p => ((Q.regular rt).map fun q =>
      regularTerm cast F K GT GR BT BR tt rt c c' a b p q).sum).sum := by
  unfold regularValue
  have : (fun (s : T) (p : List R × R) => (Q.regular rt).foldl (fun s q =>
      s + F (K (GT.coords c p.1) (GR.coords c' q.1)) (fun i => BT tt a i p.1)
          (fun i => BR rt b i q.1) (GT.data cast c p.1) (GR.data cast c' q.1)
        * cast (q.2 * GR.jdet c' q.1) * cast (p.2 * GT.jdet c p.1)) s) =
      fun s p => s + ((Q.regular rt).map fun q =>
        regularTerm cast F K GT GR BT BR tt rt c c' a b p q).sum := by
    funext s p
    rw [foldl_add_sum]
    rfl
  rw [this, foldl_add_sum, zero_add]

theorem singularValue_eq : singularValue cast F K GT GR BT BR Q tt rt con c c' a b =
    ((Q.singular tt rt con).map fun p => singularTerm cast F K GT GR BT BR tt rt c c' a b p).sum := by
  unfold singularValue
  rw [foldl_add_sum, zero_add]
  rfl

end

/-! ### Another operator, exchanged spaces -/

section
variable [Zero R] [Mul R] [Zero T] [Add T] [Mul T]
  {env : Env R T} {asm asm' : Assembler R T} {trial test : Space R T}
  {famT famR : CellType → ElementDofs} {F F' : MathIntegrand T} {K K' : MathKernel R T}
  {GT GR G : Geometry R} {BT BR : Basis R T} {Q : Quadrature R} {t : CellType}

theorem SingularSetting.withOperator (h : SingularSetting env asm trial test famT famR F K G BT BR Q)
    (ho : asm'.options = asm.options) (hc : asm'.Computes F' K') :
    SingularSetting env asm' trial test famT famR F' K' G BT BR Q :=
  { h with
    operator := hc
    rules := fun tt htt rt hrt =>
      ⟨by rw [ho]; exact (h.rules tt htt rt hrt).degree, (h.rules tt htt rt hrt).points⟩ }

/-- The same spaces and options with another operator. -/
theorem DenseSetting.withOperator (h : DenseSetting env asm trial test famT famR F K GT GR BT BR Q t)
    (ho : asm'.options = asm.options) (hc : asm'.Computes F' K') :
    DenseSetting env asm' trial test famT famR F' K' GT GR BT BR Q t :=
  { h with
    operator := hc
    rule := ⟨by rw [ho]; exact h.rule.degree, h.rule.rule, h.rule.points⟩
    same := fun e => ⟨(h.same e).1.withOperator ho hc, (h.same e).2⟩ }

/-- The exchange of test and trial space. -/
theorem DenseSetting.exchange (h : DenseSetting env asm trial test famT famR F K GT GR BT BR Q t) :
    DenseSetting env asm test trial famR famT F K GR GT BR BT Q t where
  testSpace := h.trialSpace
  trialSpace := h.testSpace
  testType := h.trialType
  trialType := h.testType
  testSurface := h.trialSurface
  trialSurface := h.testSurface
  testGeometry := h.trialGeometry
  trialGeometry := h.testGeometry
  testBasis := h.trialBasis
  trialBasis := h.testBasis
  operator := h.operator
  rule := h.rule
  same := by
    intro e
    obtain ⟨h', hG⟩ := h.same e.symm
    have hg := h'.sameGrid
    refine ⟨⟨h'.trialSpace, h'.testSpace, hg.symm, ?_, ?_, ?_, h.trialGeometry, h'.trialBasis, h'.testBasis,
      h'.operator, ?_⟩, hG.symm⟩
    all_goals rw [hg]
    · exact h'.surface
    · exact h'.vertices
    · exact h'.conforming
    · exact h'.rules

theorem SpacePair.dense {o : Options} (h : SpacePair env o trial test famT famR GT GR BT BR Q t)
    (ho : asm.options = o) (hc : asm.Computes F K) :
    DenseSetting env asm trial test famT famR F K GT GR BT BR Q t := by
  subst ho
  refine ⟨h.testSpace, h.trialSpace, h.testType, h.trialType, h.testSurface, h.trialSurface, h.testGeometry,
    h.trialGeometry, h.testBasis, h.trialBasis, hc, h.rule, fun e => ?_⟩
  obtain ⟨h1, h2, h3, h4, h5⟩ := h.same e
  refine ⟨⟨h.testSpace.spaceOn, h.trialSpace.spaceOn, h1, h.testSurface, h3, h4, h.testGeometry, h.testBasis,
    h.trialBasis, hc, ?_⟩, h2⟩
  rw [h.testType]
  intro tt htt rt hrt
  rw [List.mem_singleton] at htt hrt
  subst htt hrt
  exact h5

theorem SpacePair.exchange {o : Options} (h : SpacePair env o trial test famT famR GT GR BT BR Q t) :
    SpacePair env o test trial famR famT GR GT BR BT Q t := by
  refine ⟨h.trialSpace, h.testSpace, h.trialType, h.testType, h.trialSurface, h.testSurface, h.trialGeometry,
    h.testGeometry, h.trialBasis, h.testBasis, h.rule, fun e => ?_⟩
  obtain ⟨h1, h2, h3, h4, h5⟩ := h.same e.symm
  exact ⟨h1.symm, h2.symm, h1 ▸ h3, h1 ▸ h4, h5⟩

end
end Bempp
