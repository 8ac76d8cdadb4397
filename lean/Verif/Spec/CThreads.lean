import Verif.Model.CThreads
import Verif.Spec.CInterface
import Mathlib.Logic.Relation
/-
Data races between calls of the C interface, and threads that have none.
-/
namespace Bempp

variable {Γ Φ R T : Type}

/-- The pointers that are passed to a call. -/
def CCall.args : CCall Γ Φ R T → List Nat
  | .createGrid .. | .createFamily .. | .newOptions | .free _ none => []
  | .free _ (some p) => [p]
  | .functionSpace g f => [g, f]
  | .localSpace s | .space s _ => [s]
  | .setOptions p _ | .getOptions p _ | .laplaceNew p _ _ | .helmholtzNew _ p _ _ => [p]
  | .assemblerDtype a => [a]
  | .assemble a x y | .assembleSingular a x y | .assembleIntoMemory a x y _ => [a, x, y]
  | .matrix m _ | .matrixPointer m _ | .load m _ _ => [m]

/-- What an object refers to: a space to its grid and family, an assembler to its options. -/
def CObj.refs : CObj Γ Φ T → List Nat
  | .space _ _ _ g f => [g, f]
  | .spaceRef _ _ _ s => [s]
  | .assembler _ _ _ p => [p]
  | _ => []

/-- The objects that a call uses: those whose pointers are passed to it and what these refer to. -/
def CCall.uses (h : CHeap Γ Φ T) (c : CCall Γ Φ R T) : List Nat :=
  c.args ++ c.args.flatMap fun p => ((h.live p).map CObj.refs).getD []

/-- The object that a call changes: one that it frees, or options that it sets. -/
def CCall.changes : CCall Γ Φ R T → List Nat
  | .free _ (some p) => [p]
  | .setOptions p _ => [p]
  | _ => []

/-- At this moment there is no data race: no call changes an object that a call of another thread, which goes on at the same time,
uses; and the pointers that are passed to calls exist. -/
structure CProcess.NoRace (s : CProcess Γ Φ R T) : Prop where
  exist : ∀ (i : Nat) (t : CThread Γ Φ R T) c seen, s.threads[i]? = some t → t.current = some (c, seen) → ∀ p ∈ c.args, p < s.heap.next
  apart : ∀ (i j : Nat) (t t' : CThread Γ Φ R T) c c' seen seen', i ≠ j → s.threads[i]? = some t → s.threads[j]? = some t' →
    t.current = some (c, seen) → t'.current = some (c', seen') → ∀ p ∈ c.changes, p ∉ c'.uses s.heap

section
variable [Zero T] [Add T] [Sub T] [Mul T] [Div T] [Neg T] [Zero R] [Mul R] (newSpace : Γ → Φ → Option (Space R T))
  (kernel : DType → Kernel R T) (env : DType → Env R T)

/-- The process can get from one state to the other. -/
def CProcess.Steps : CProcess Γ Φ R T → CProcess Γ Φ R T → Prop := Relation.ReflTransGen (CProcess.Step newSpace kernel env)

/-- The process can get from `s₀` to `s` without a data race on the way. -/
inductive CProcess.Clean (s₀ : CProcess Γ Φ R T) : CProcess Γ Φ R T → Prop
  | start (h : s₀.NoRace) : CProcess.Clean s₀ s₀
  | step {s s' : CProcess Γ Φ R T} (h : CProcess.Clean s₀ s) (st : CProcess.Step newSpace kernel env s s') (hn : s'.NoRace) :
      CProcess.Clean s₀ s'

end

/-- The calls of thread `i` that ended, with their results. -/
def CProcess.logOf (s : CProcess Γ Φ R T) (i : Nat) : List (CCall Γ Φ R T × Ffi (CResult T)) :=
  (s.log.filter fun x => x.1 = i).map fun x => x.2

/-- The calls are those of the program `prog`: each one is what the program does after the results of the earlier ones. -/
def FollowsProg (prog : List (CResult T) → Option (CCall Γ Φ R T)) (l : List (CCall Γ Φ R T × Ffi (CResult T))) : Prop :=
  ∀ (k : Nat) x, l[k]? = some x → prog ((l.take k).flatMap fun y => y.2.results) = some x.1

/-- The pointers that a thread got. -/
def handlesOf (l : List (CResult T)) : List Nat := l.flatMap fun r => match r with
  | .handle p => [p]
  | _ => []

/-- A thread that is polite, if it starts when the memory is `h`: it passes only pointers that existed when the threads started or that it got itself, and
it frees and changes only objects that it made itself. -/
def Polite (h : CHeap Γ Φ T) (prog : List (CResult T) → Option (CCall Γ Φ R T)) : Prop :=
  ∀ done c, prog done = some c → (∀ p ∈ c.args, p < h.next ∨ p ∈ handlesOf done) ∧ ∀ p ∈ c.changes, p ∈ handlesOf done

/-- Pointers and references are to addresses that were given out. -/
def CHeap.Sound (h : CHeap Γ Φ T) : Prop := ∀ p o, h.live p = some o → p < h.next ∧ ∀ q ∈ o.refs, q < h.next

end Bempp
