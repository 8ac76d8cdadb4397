import Verif.Model.Concurrent
import Verif.Model.Memory
/-
Calls of `assemble_into_memory` that panic, among other calls. A panic in a task of a parallel section is passed on by rayon to
the thread that called; tasks of that section that have not begun may be left out, and tasks that are running are completed. The
operations of such a call are therefore: complete sections, and then a section in which every task does some of its writes. That
is what `ConSteps` says of a call at any moment, so that no new step is needed: a call that has panicked is one that makes no
further step.
-/
namespace Bempp

/-- The sections of a `for` loop whose body panics in some round. For the loops at `src/boundary_assemblers.rs:415-520`. -/
inductive ForPanic {α T : Type} (body panics : α → Phases T → Prop) : List α → Phases T → Prop
  | here {a : α} {l : List α} {p : Phases T} : panics a p → ForPanic body panics (a :: l) p
  | later {a : α} {l : List α} {p ps : Phases T} : body a p → ForPanic body panics l ps → ForPanic body panics (a :: l) (p ++ ps)

section
variable {R T : Type} [Zero R] [Mul R] [Zero T] [Add T] [Mul T]

/-- The parallel section of one pair of colours when one of its tasks panics, `src/boundary_assemblers.rs:468-516`: the tasks
write what they would have written until they complete or panic. -/
def ColourPairPanic (env : Env R T) (asm : Assembler R T) (shape : Nat × Nat) (trial test : Space R T) (tt rt : CellType)
    (q : RegRule R T) (testC trialC : List Nat) (p : Phases T) : Prop :=
  ∃ tasks rs, SplitPairs asm.options.batchSize testC trialC 0 tasks ∧
    rs = (tasks.map fun t => batchNonadjacentR env asm shape tt rt trial t.2 test t.1 q) ∧
    (∃ w, Res.panic w ∈ rs) ∧ p = [rs.map Res.writes]

/-- Body of the loops over cell types when it panics, `src/boundary_assemblers.rs:415-520`. -/
def TypePairPanic (env : Env R T) (asm : Assembler R T) (shape : Nat × Nat) (trial test : Space R T)
    (trialCol testCol : Colouring) (tt rt : CellType) (p : Phases T) : Prop :=
  ((regRule env asm trial test tt rt = none ∨ testCol tt = none ∨ trialCol rt = none) ∧ p = []) ∨
  ∃ q tcs rcs, regRule env asm trial test tt rt = some q ∧ testCol tt = some tcs ∧ trialCol rt = some rcs ∧
    ForPanic (fun testC => ForPlan (fun trialC => ColourPairPlan env asm shape trial test tt rt q testC trialC) rcs)
      (fun testC => ForPanic (fun trialC => ColourPairPlan env asm shape trial test tt rt q testC trialC)
        (fun trialC => ColourPairPanic env asm shape trial test tt rt q testC trialC) rcs) tcs p

/-- A call of `assemble_into_memory` that panics, with a buffer of the right size, `src/boundary_assemblers.rs:176-214`: in an
assertion or a colouring before anything is written (`:181-199`), in the regular part (`:396-521`), or in the singular part,
which is computed in memory of its own after the regular part (`:206`). -/
def CallPanic (env : Env R T) (asm : Assembler R T) (trial test : Space R T) (p : Phases T) : Prop :=
  ((trial.fs.isSerial = false ∨ test.fs.isSerial = false ∨ test.fs.cellColouring = none ∨ trial.fs.cellColouring = none) ∧
    p = []) ∨
  (trial.fs.isSerial = true ∧ test.fs.isSerial = true ∧
    ∃ testCol trialCol, test.fs.cellColouring = some testCol ∧ trial.fs.cellColouring = some trialCol ∧
      let body := fun tt rt =>
        TypePairPlan env asm (test.fs.globalSize, trial.fs.globalSize) trial test trialCol testCol tt rt
      let panics := fun tt rt =>
        TypePairPanic env asm (test.fs.globalSize, trial.fs.globalSize) trial test trialCol testCol tt rt
      (ForPanic (fun tt => ForPlan (body tt) (trial.fs.grid.entityTypes 2))
          (fun tt => ForPanic (body tt) (panics tt) (trial.fs.grid.entityTypes 2)) (test.fs.grid.entityTypes 2) p ∨
        (ForPlan (fun tt => ForPlan (body tt) (trial.fs.grid.entityTypes 2)) (test.fs.grid.entityTypes 2) p ∧
          AssembleSingularPart env asm (test.fs.globalSize, trial.fs.globalSize) trial test none)))

end
end Bempp
