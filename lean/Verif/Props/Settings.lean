import Verif.Props.Options
import Verif.Model.Assembly
import Verif.Spec.ExamplesAssembly
/-
C65: which settings of the options an assembly depends on.
-/
namespace Bempp

variable {R T : Type}

/-- The assembler with the options that result from a history of setter calls on default options. -/
def Assembler.after (asm : Assembler R T) (calls : List OptionCall) : Assembler R T :=
  { asm with options := Options.after calls }

theorem foldlM_congr_mem {σ β : Type} {f g : σ → β → Option σ} : ∀ (l : List β) (s : σ), (∀ x ∈ l, ∀ s, f s x = g s x) →
    l.foldlM f s = l.foldlM g s
  | [], _, _ => rfl
  | x :: l, s, h => by
    rw [List.foldlM_cons, List.foldlM_cons, h x (by simp)]
    congr 1
    funext s'
    exact foldlM_congr_mem l s' fun y hy => h y (by simp [hy])

theorem forRun_congr {β M : Type} {f g : β → M → Outcome M → Prop} : ∀ (l : List β), (∀ x ∈ l, ∀ m o, f x m o ↔ g x m o) →
    ∀ m o, ForRun f l m o → ForRun g l m o := by
  intro l h m o hr
  induction hr with
  | nil s => exact .nil s
  | cons h1 _ ih => exact .cons ((h _ (by simp) _ _).mp h1) (ih fun x hx => h x (by simp [hx]))
  | panic h1 => exact .panic ((h _ (by simp) _ _).mp h1)

set_option linter.unusedSectionVars false

section
variable [Zero R] [Mul R] [Zero T] [Add T] [Mul T]
variable (env : Env R T) (asm : Assembler R T) (trial test : Space R T)

theorem singTables_congr {o o' : Options}
    (h : ∀ tt ∈ test.fs.grid.entityTypes 2, ∀ rt ∈ test.fs.grid.entityTypes 2,
      o.getSingularQuadratureDegree (tt, rt) = o'.getSingularQuadratureDegree (tt, rt)) :
    singTables env { asm with options := o } trial test = singTables env { asm with options := o' } trial test := by
  unfold singTables
  refine foldlM_congr_mem _ _ fun tt htt s => foldlM_congr_mem _ _ fun rt hrt s => ?_
  have := h tt htt rt hrt
  unfold Options.getSingularQuadratureDegree at this
  unfold addTypePair
  simp only [this]
  rfl

/-- Two option objects that agree on what assembly asks them for. -/
def Agree (trial test : Space R T) (o o' : Options) : Prop :=
  (∀ t, t ∈ test.fs.grid.entityTypes 2 ∨ t ∈ trial.fs.grid.entityTypes 2 →
    o.getRegularQuadratureDegree t = o'.getRegularQuadratureDegree t) ∧ o.getBatchSize = o'.getBatchSize

theorem singularPart_congr {o o' : Options} (hb : o.getBatchSize = o'.getBatchSize)
    (h : test.fs.grid.addr = trial.fs.grid.addr → ∀ tt ∈ test.fs.grid.entityTypes 2, ∀ rt ∈ test.fs.grid.entityTypes 2,
      o.getSingularQuadratureDegree (tt, rt) = o'.getSingularQuadratureDegree (tt, rt)) (shape : Nat × Nat) (out : Option (Sparse T)) :
    AssembleSingularPart env { asm with options := o } shape trial test out ↔
      AssembleSingularPart env { asm with options := o' } shape trial test out := by
  unfold AssembleSingularPart
  by_cases hg : test.fs.grid.addr = trial.fs.grid.addr
  · rw [singTables_congr env asm trial test (h hg)]
    unfold Options.getBatchSize at hb
    simp only [hb]
    rfl
  · have : equalGrids test.fs.grid trial.fs.grid = false := by simpa [equalGrids] using hg
    simp only [this, if_true]

theorem nonsingularPart_congr {o o' : Options} (h : Agree trial test o o') (shape : Nat × Nat) (trialCol testCol : Colouring)
    (mem : List T) (out : Outcome (List T)) (hr : AssembleNonsingularPart env { asm with options := o } shape trial test trialCol
      testCol mem out) : AssembleNonsingularPart env { asm with options := o' } shape trial test trialCol testCol mem out := by
  obtain ⟨h, hb⟩ := h
  unfold Options.getBatchSize at hb
  unfold AssembleNonsingularPart at hr ⊢
  split at hr
  · rename_i hh; rw [if_pos hh]; exact hr
  rename_i hh
  rw [if_neg hh]
  split at hr
  · rename_i hh; rw [if_pos hh]; exact hr
  rename_i hh
  rw [if_neg hh]
  refine forRun_congr _ (fun tt htt m o1 => ?_) _ _ hr
  have key : ∀ rt ∈ trial.fs.grid.entityTypes 2, ∀ m o1,
      TypePairRun env { asm with options := o } shape trial test trialCol testCol tt rt m o1 ↔
        TypePairRun env { asm with options := o' } shape trial test trialCol testCol tt rt m o1 := by
    intro rt hrt m o1
    have h1 := h tt (Or.inl htt)
    have h2 := h rt (Or.inr hrt)
    unfold Options.getRegularQuadratureDegree at h1 h2
    unfold TypePairRun
    have : regRule env { asm with options := o } trial test tt rt = regRule env { asm with options := o' } trial test tt rt := by
      unfold regRule
      simp only [h1, h2]
    rw [this]
    unfold ColourPairRun
    simp only [hb]
    rfl
  exact ⟨forRun_congr _ key _ _, forRun_congr _ (fun rt hrt m o1 => (key rt hrt m o1).symm) _ _⟩

theorem assemble_congr {o o' : Options} (hr : Agree trial test o o')
    (h : test.fs.grid.addr = trial.fs.grid.addr → ∀ tt ∈ test.fs.grid.entityTypes 2, ∀ rt ∈ test.fs.grid.entityTypes 2,
      o.getSingularQuadratureDegree (tt, rt) = o'.getSingularQuadratureDegree (tt, rt)) (mem : List T) (out : Outcome (List T))
    (ha : AssembleIntoMemory env { asm with options := o } trial test mem out) :
    AssembleIntoMemory env { asm with options := o' } trial test mem out := by
  unfold AssembleIntoMemory at ha ⊢
  split at ha
  · rename_i hh; rw [if_pos hh]; exact ha
  rename_i hh
  rw [if_neg hh]
  split at ha
  · rename_i hh; rw [if_pos hh]; exact ha
  rename_i hh
  rw [if_neg hh]
  split at ha
  · obtain ⟨o1, h1, h2⟩ := ha
    refine ⟨o1, nonsingularPart_congr env asm trial test hr _ _ _ _ _ h1, ?_⟩
    cases o1 with
    | panicked m => exact h2
    | ok m =>
      obtain ⟨sp, h3, h4⟩ := h2
      exact ⟨sp, (singularPart_congr env asm trial test hr.2 h _ _).mp h3, h4⟩
  · exact ha

/-- **C65, sparse assembly.** What `assemble_singular` returns depends on the history of the options only through the batch size and
the singular degrees last set for pairs of cell types of the test grid; if the two grids are not the same, not even on these. No
regular degree matters. This holds for any external functions. -/
theorem C65_singular_settings (h h' : List OptionCall) (hb : (lastBatch h).getD 128 = (lastBatch h').getD 128)
    (hs : test.fs.grid.addr = trial.fs.grid.addr → ∀ tt ∈ test.fs.grid.entityTypes 2, ∀ rt ∈ test.fs.grid.entityTypes 2,
      (lastSingular (tt, rt) h).getD 4 = (lastSingular (tt, rt) h').getD 4) (out : Option (Csr T)) :
    AssembleSingular env (asm.after h) trial test out ↔ AssembleSingular env (asm.after h') trial test out := by
  obtain ⟨_, h2, h3⟩ := C23_options_map h
  obtain ⟨_, h5, h6⟩ := C23_options_map h'
  unfold AssembleSingular Assembler.after
  refine exists_congr fun sp => and_congr_left fun _ => singularPart_congr env asm trial test (by rw [h3, h6, hb]) ?_ _ _
  intro hg tt htt rt hrt
  rw [h2, h5, hs hg tt htt rt hrt]

/-- **C65, dense assembly.** What `assemble_into_memory` does depends on the history of the options only through the batch size, the
regular degrees last set for cell types of one of the two grids and, if the two grids are the same, the singular degrees last set for
pairs of their cell types; for any external functions. (With the contracts of C10 the batch size does not matter either.) -/
theorem C65_dense_settings (h h' : List OptionCall) (hb : (lastBatch h).getD 128 = (lastBatch h').getD 128)
    (hr : ∀ t, t ∈ test.fs.grid.entityTypes 2 ∨ t ∈ trial.fs.grid.entityTypes 2 →
      (lastRegular t h).getD 37 = (lastRegular t h').getD 37)
    (hs : test.fs.grid.addr = trial.fs.grid.addr → ∀ tt ∈ test.fs.grid.entityTypes 2, ∀ rt ∈ test.fs.grid.entityTypes 2,
      (lastSingular (tt, rt) h).getD 4 = (lastSingular (tt, rt) h').getD 4) :
    (∀ mem o, AssembleIntoMemory env (asm.after h) trial test mem o ↔ AssembleIntoMemory env (asm.after h') trial test mem o) ∧
    ∀ out, Assemble env (asm.after h) trial test out ↔ Assemble env (asm.after h') trial test out := by
  obtain ⟨h1, h2, h3⟩ := C23_options_map h
  obtain ⟨h4, h5, h6⟩ := C23_options_map h'
  have main : ∀ mem o, AssembleIntoMemory env (asm.after h) trial test mem o ↔
      AssembleIntoMemory env (asm.after h') trial test mem o := by
    intro mem o
    unfold Assembler.after
    constructor
    · refine assemble_congr env asm trial test ⟨fun t ht => ?_, ?_⟩ (fun hg tt htt rt hrt => ?_) mem o
      · rw [h1, h4, hr t ht]
      · rw [h3, h6, hb]
      · rw [h2, h5, hs hg tt htt rt hrt]
    · refine assemble_congr env asm trial test ⟨fun t ht => ?_, ?_⟩ (fun hg tt htt rt hrt => ?_) mem o
      · rw [h1, h4, hr t ht]
      · rw [h3, h6, hb]
      · rw [h2, h5, hs hg tt htt rt hrt]
  refine ⟨main, fun out => ?_⟩
  unfold Assemble
  simp only [main]

end

/-! ### The hypotheses can be met -/

/-- On a grid of triangles, settings for other cell types and repeated settings make no difference, and `assemble_singular` does not
depend on the regular degree of triangles either. -/
example [Zero R] [Mul R] [Zero T] [Add T] [Mul T] (env : Env R T) (asm : Assembler R T) (sp : Space R T)
    (hsp : sp.fs.grid = Examples.octahedron) :
    (∀ out, Assemble env (asm.after [.regular .triangle 5, .batch 7, .regular .quadrilateral 9, .regular .triangle 6,
        .singular (.quadrilateral, .triangle) 11]) sp sp out ↔
      Assemble env (asm.after [.batch 7, .regular .triangle 6]) sp sp out) ∧
    ∀ out, AssembleSingular env (asm.after [.regular .triangle 5, .singular (.triangle, .triangle) 6]) sp sp out ↔
      AssembleSingular env (asm.after [.singular (.triangle, .triangle) 6]) sp sp out := by
  refine ⟨(C65_dense_settings env asm sp sp _ _ (by decide) ?_ ?_).2, C65_singular_settings env asm sp sp _ _ (by decide) ?_⟩
  · intro t ht
    rw [hsp] at ht
    have : t = .triangle := by
      have h : ∀ t ∈ Examples.octahedron.entityTypes 2, t = .triangle := by decide
      exact h t (ht.elim id id)
    subst this; decide
  · intro _
    rw [hsp]
    decide
  · intro _
    rw [hsp]
    decide

end Bempp
