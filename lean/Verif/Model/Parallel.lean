/-
Execution of the parallel sections of `src/boundary_assemblers.rs`: tasks that do unsynchronised
`*ptr += value` on a shared buffer (494-515, 763-769), and rayon's `reduce` (385-392).
-/
namespace Bempp

/-- Result of running a piece of code that mutates a buffer: it returns, or it panics and leaves the
buffer in some state. For `src/boundary_assemblers.rs:176-214,396-521`. -/
inductive Outcome (σ : Type) where
  | ok (s : σ)
  | panicked (s : σ)
deriving DecidableEq

/-- A `for` loop whose body may be non-deterministic and may panic.
For the loops at `src/boundary_assemblers.rs:415-520`. -/
inductive ForRun {α σ : Type} (body : α → σ → Outcome σ → Prop) : List α → σ → Outcome σ → Prop
  | nil (s : σ) : ForRun body [] s (.ok s)
  | cons {a : α} {l : List α} {s s' : σ} {o : Outcome σ} :
      body a s (.ok s') → ForRun body l s' o → ForRun body (a :: l) s o
  | panic {a : α} {l : List α} {s s' : σ} :
      body a s (.panicked s') → ForRun body (a :: l) s (.panicked s')

/-- `*buf.add(a) += v`. `src/boundary_assemblers.rs:765-766`. -/
structure AddOp (T : Type) where
  addr : Nat
  val : T

/-- A running task: the operations still to do, and the value loaded for the first of them if its load
has happened but its store has not. One call of the closure at `src/boundary_assemblers.rs:496-514`. -/
structure Task (T : Type) where
  todo : List (AddOp T)
  reg : Option T

/-- Shared memory and the tasks of a parallel section.
The section at `src/boundary_assemblers.rs:494-516`, with the matrix behind `RawData2D` (`src/boundary_assemblers/helpers.rs:66-74`). -/
structure ParState (T : Type) where
  mem : List T
  tasks : List (Task T)

/-- One atomic step of some task: the load or the store of its next `+=`. A load outside the buffer is
undefined behaviour; in the model there is no such step. Of the statement at `src/boundary_assemblers.rs:765-766`. -/
inductive ParStep {T : Type} [Add T] : ParState T → ParState T → Prop
  | load {s : ParState T} {i : Nat} {o : AddOp T} {l : List (AddOp T)} {x : T} :
      s.tasks[i]? = some ⟨o :: l, none⟩ → s.mem[o.addr]? = some x →
      ParStep s { s with tasks := s.tasks.set i ⟨o :: l, some x⟩ }
  | store {s : ParState T} {i : Nat} {o : AddOp T} {l : List (AddOp T)} {x : T} :
      s.tasks[i]? = some ⟨o :: l, some x⟩ →
      ParStep s { mem := s.mem.set o.addr (x + o.val), tasks := s.tasks.set i ⟨l, none⟩ }

/-- Any number of steps. Of the section at `src/boundary_assemblers.rs:494-516`. -/
inductive ParSteps {T : Type} [Add T] : ParState T → ParState T → Prop
  | refl (s : ParState T) : ParSteps s s
  | tail {s t u : ParState T} : ParSteps s t → ParStep t u → ParSteps s u

/-- Start of a parallel section. `src/boundary_assemblers.rs:494-495`. -/
def ParState.start {T : Type} (mem : List T) (tasks : List (List (AddOp T))) : ParState T :=
  { mem, tasks := tasks.map fun l => ⟨l, none⟩ }

/-- All tasks have finished. `src/boundary_assemblers.rs:515-516`. -/
def ParState.Finished {T : Type} (s : ParState T) : Prop := ∀ t ∈ s.tasks, t.todo = []

/-- Complete runs of a parallel section in which no task panics. rayon runs each task on one worker;
here the tasks are interleaved arbitrarily, which includes every assignment to workers.
`src/boundary_assemblers.rs:494-516`. -/
def ParRun {T : Type} [Add T] (tasks : List (List (AddOp T))) (mem mem' : List T) : Prop :=
  ∃ s, ParSteps (ParState.start mem tasks) s ∧ s.Finished ∧ s.mem = mem'

/-- rayon's `reduce(identity, op)` over the results of a parallel iterator: the list is split in any
way, results are combined in order, the identity may be used anywhere. `none` is a panic.
Called at `src/boundary_assemblers.rs:384-391`. -/
inductive Reduces {α : Type} (op : α → α → Option α) (e : α) : List (Option α) → Option α → Prop
  | identity : Reduces op e [] (some e)
  | single (x : Option α) : Reduces op e [x] x
  | join {l r : List (Option α)} {a b : Option α} : Reduces op e l a → Reduces op e r b →
      Reduces op e (l ++ r) (a.bind fun x => b.bind fun y => op x y)

/-- The parallel section `src/boundary_assemblers.rs:494-516`. The bodies of the tasks are given by `Option`:
if one of them panics, the section panics and leaves an unspecified buffer of the same length. Every
task returns 1, the results are summed by a parallel reduction and compared with the number of
tasks. -/
def SectionRun {T : Type} [Add T] (tasks : List (Option (List (AddOp T)))) (mem : List T)
    (o : Outcome (List T)) : Prop :=
  match tasks.mapM id with
  | some ts => ∃ mem' r, ParRun ts mem mem' ∧
      Reduces (fun a b => some (a + b)) 0 (ts.map fun _ => some 1) (some r) ∧
      o = if r = ts.length then .ok mem' else .panicked mem'
  | none => ∃ mem', mem'.length = mem.length ∧ o = .panicked mem'

end Bempp
