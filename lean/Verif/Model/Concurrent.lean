import Verif.Model.Assembly
/-
Several calls of `assemble_into_memory` that run at the same time, for example on several threads of the user's program, each
with its own part of one memory (`output: &mut [T]`, `src/boundary_assemblers.rs:180`). A call does not look at the contents of
its buffer to decide what to do: it is a sequence of parallel sections. Positions are pointers: the parallel sections write
through `RawData2D` without a check (`src/boundary_assemblers/helpers.rs:66-74`), so that nothing in the model keeps a call inside
its part.
-/
namespace Bempp

/-- The operations of a call: one parallel section after the other, each of them a list of tasks.
`src/boundary_assemblers.rs:176-214`. -/
abbrev Phases (T : Type) := List (List (List (AddOp T)))

/-- The sections of a `for` loop. For the loops at `src/boundary_assemblers.rs:415-520`. -/
inductive ForPlan {α T : Type} (body : α → Phases T → Prop) : List α → Phases T → Prop
  | nil : ForPlan body [] []
  | cons {a : α} {l : List α} {p ps : Phases T} : body a p → ForPlan body l ps → ForPlan body (a :: l) (p ++ ps)

section
variable {R T : Type} [Zero R] [Mul R] [Zero T] [Add T] [Mul T]

/-- The parallel section of one pair of colours, `src/boundary_assemblers.rs:468-516`. -/
def ColourPairPlan (env : Env R T) (asm : Assembler R T) (shape : Nat × Nat) (trial test : Space R T) (tt rt : CellType)
    (q : RegRule R T) (testC trialC : List Nat) (p : Phases T) : Prop :=
  ∃ tasks ts, SplitPairs asm.options.batchSize testC trialC 0 tasks ∧
    (tasks.map fun t => assembleBatchNonadjacent env asm shape tt rt trial t.2 test t.1 q).mapM id = some ts ∧ p = [ts]

/-- Body of the loops over cell types, `src/boundary_assemblers.rs:415-520`. -/
def TypePairPlan (env : Env R T) (asm : Assembler R T) (shape : Nat × Nat) (trial test : Space R T)
    (trialCol testCol : Colouring) (tt rt : CellType) (p : Phases T) : Prop :=
  ∃ q tcs rcs, regRule env asm trial test tt rt = some q ∧ testCol tt = some tcs ∧ trialCol rt = some rcs ∧
    ForPlan (fun testC => ForPlan (fun trialC => ColourPairPlan env asm shape trial test tt rt q testC trialC) rcs) tcs p

/-- A call of `assemble_into_memory` that does not panic, `src/boundary_assemblers.rs:176-214`. The singular part is computed in
memory of its own (`:206`); the loop over its triplets (`:211-213`) is the last section, with one task. -/
def CallPlan (env : Env R T) (asm : Assembler R T) (trial test : Space R T) (p : Phases T) : Prop :=
  trial.fs.isSerial = true ∧ test.fs.isSerial = true ∧
  ∃ testCol trialCol p1 sm, test.fs.cellColouring = some testCol ∧ trial.fs.cellColouring = some trialCol ∧
    ForPlan (fun tt => ForPlan (fun rt =>
      TypePairPlan env asm (test.fs.globalSize, trial.fs.globalSize) trial test trialCol testCol tt rt)
        (trial.fs.grid.entityTypes 2)) (test.fs.grid.entityTypes 2) p1 ∧
    AssembleSingularPart env asm (test.fs.globalSize, trial.fs.globalSize) trial test (some sm) ∧
    p = p1 ++ [[((sm.rows.zip sm.cols).zip sm.data).map fun x => ⟨x.1.1 + test.fs.globalSize * x.1.2, x.2⟩]]

end

/-- A call that is running: the tasks of the current section and the sections after it. `src/boundary_assemblers.rs:176-214`. -/
structure CallState (T : Type) where
  tasks : List (Task T)
  rest : Phases T

/-- The memory and the calls. `src/boundary_assemblers.rs:176-214`, several times. -/
structure ConState (T : Type) where
  mem : List T
  calls : List (CallState T)

/-- One step of some call, whose buffer starts at `offsets[i]`: a load or a store of one of its tasks
(`src/boundary_assemblers.rs:765-766`), or the start of its next section when all tasks of the current one have finished
(`:494-516`). -/
inductive ConStep {T : Type} [Add T] (offsets : List Nat) : ConState T → ConState T → Prop
  | load {s : ConState T} {i k a : Nat} {c : CallState T} {o : AddOp T} {l : List (AddOp T)} {x : T} :
      s.calls[i]? = some c → offsets[i]? = some a → c.tasks[k]? = some ⟨o :: l, none⟩ → s.mem[a + o.addr]? = some x →
      ConStep offsets s { s with calls := s.calls.set i { c with tasks := c.tasks.set k ⟨o :: l, some x⟩ } }
  | store {s : ConState T} {i k a : Nat} {c : CallState T} {o : AddOp T} {l : List (AddOp T)} {x : T} :
      s.calls[i]? = some c → offsets[i]? = some a → c.tasks[k]? = some ⟨o :: l, some x⟩ →
      ConStep offsets s ⟨s.mem.set (a + o.addr) (x + o.val), s.calls.set i { c with tasks := c.tasks.set k ⟨l, none⟩ }⟩
  | next {s : ConState T} {i : Nat} {c : CallState T} {p : List (List (AddOp T))} {ps : Phases T} :
      s.calls[i]? = some c → (∀ t ∈ c.tasks, t.todo = []) → c.rest = p :: ps →
      ConStep offsets s { s with calls := s.calls.set i ⟨p.map fun l => ⟨l, none⟩, ps⟩ }

/-- Any number of steps. `src/boundary_assemblers.rs:176-214`, several times. -/
inductive ConSteps {T : Type} [Add T] (offsets : List Nat) : ConState T → ConState T → Prop
  | refl (s : ConState T) : ConSteps offsets s s
  | tail {s t u : ConState T} : ConSteps offsets s t → ConStep offsets t u → ConSteps offsets s u

/-- All calls are about to start. `src/boundary_assemblers.rs:176`. -/
def ConState.start {T : Type} (mem : List T) (calls : List (Phases T)) : ConState T :=
  ⟨mem, calls.map fun p => ⟨[], p⟩⟩

/-- The call has returned. `src/boundary_assemblers.rs:214`. -/
def CallState.Returned {T : Type} (c : CallState T) : Prop := (∀ t ∈ c.tasks, t.todo = []) ∧ c.rest = []

end Bempp
