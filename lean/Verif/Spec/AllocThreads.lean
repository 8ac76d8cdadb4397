import Verif.Model.AllocThreads
import Verif.Spec.CThreads
import Verif.Spec.Allocator
/-
Data races between calls of the C interface when addresses are used again, and threads that have none.
-/
namespace Bempp

variable {Γ Φ R T : Type}

/-- The number of the newest object at the address `p`. -/
def CVars.newest (vars : CVars) (p : Nat) : Nat := vars.length - 1 - vars.reverse.idxOf p

/-- The calls of a log with the numbers of objects in place of addresses: each address means the newest object that was made there. -/
def numbered : CVars → List (Nat × CCall Γ Φ R T × Ffi (CResult T)) → List (CCall Γ Φ R T)
  | _, [] => []
  | vars, x :: log => x.2.1.rename vars.newest :: numbered (x.2.2.results.foldl CVars.after vars) log

/-- At this moment there is no data race: everything that a call uses exists, and no call changes an object that a call of another thread,
which goes on at the same time, uses. -/
structure CProcess.NoConflict (s : CProcess Γ Φ R T) : Prop where
  exist : ∀ (i : Nat) (t : CThread Γ Φ R T) c seen, s.threads[i]? = some t → t.current = some (c, seen) →
    ∀ p ∈ c.uses s.heap, s.heap.live p ≠ none
  apart : ∀ (i j : Nat) (t t' : CThread Γ Φ R T) c c' seen seen', i ≠ j → s.threads[i]? = some t → s.threads[j]? = some t' →
    t.current = some (c, seen) → t'.current = some (c', seen') → ∀ p ∈ c.changes, p ∉ c'.uses s.heap

section
variable [Zero T] [Add T] [Sub T] [Mul T] [Div T] [Neg T] [Zero R] [Mul R] (newSpace : Γ → Φ → Option (Space R T))
  (kernel : DType → Kernel R T) (env : DType → Env R T) (gives : CHeap Γ Φ T → CVars → Nat → Prop) (vars₀ : CVars)

/-- The process can get from one state to the other. -/
def CProcess.AllocSteps : CProcess Γ Φ R T → CProcess Γ Φ R T → Prop :=
  Relation.ReflTransGen (CProcess.AllocStep newSpace kernel env gives vars₀)

/-- The process can get from `s₀` to `s` without a data race on the way. -/
inductive CProcess.AllocClean (s₀ : CProcess Γ Φ R T) : CProcess Γ Φ R T → Prop
  | start (h : s₀.NoConflict) : CProcess.AllocClean s₀ s₀
  | step {s s' : CProcess Γ Φ R T} (h : CProcess.AllocClean s₀ s) (st : CProcess.AllocStep newSpace kernel env gives vars₀ s s')
      (hn : s'.NoConflict) : CProcess.AllocClean s₀ s'

end

/-- The object that a call frees. -/
def CCall.frees : CCall Γ Φ R T → List Nat
  | .free _ (some p) => [p]
  | _ => []

/-- The pointers that a thread got and did not free, each with the pointers that it passed when it got this one, after the calls `l`. -/
def held (l : List (CCall Γ Φ R T × Ffi (CResult T))) : List (Nat × List Nat) :=
  l.foldl (fun m x => (m.filter fun y => y.1 ∉ x.1.frees) ++ (handlesOf x.2.results).map fun p => (p, x.1.args)) []

/-- What a thread can rely on if every allocator is correct: the pointer that a call returns is neither one of those that the thread holds
nor one of those that existed at the beginning. -/
def FreshHandles (h : CHeap Γ Φ T) (l : List (CCall Γ Φ R T × Ffi (CResult T))) : Prop :=
  ∀ (k : Nat) c p, l[k]? = some (c, .ok (.handle p)) → h.live p = none ∧ ∀ y ∈ held (l.take k), y.1 ≠ p

/-- A thread that is tidy, if it starts when the memory is `h`: it passes only pointers to objects that existed when the threads started or
that it made itself and did not free; it frees and changes only what it made itself, and only while it holds nothing that it
made from this. -/
def TidyThread (h : CHeap Γ Φ T) (prog : List (CResult T) → Option (CCall Γ Φ R T)) : Prop :=
  ∀ l c, FollowsProg prog l → (∀ y ∈ l, ∃ x, y.2 = .ok x) → FreshHandles h l → prog (l.flatMap fun y => y.2.results) = some c →
    (∀ p ∈ c.args, h.live p ≠ none ∨ p ∈ (held l).map Prod.fst) ∧
    ∀ p ∈ c.changes, p ∈ (held l).map Prod.fst ∧ ∀ y ∈ held l, p ∉ y.2

/-- The calls of thread `i` in the log. -/
def CProcess.ownLog (s : CProcess Γ Φ R T) (i : Nat) : List (Nat × CCall Γ Φ R T × Ffi (CResult T)) := s.log.filter fun x => x.1 = i

/-- The allocator that may give out every free address. -/
def anyFree (h : CHeap Γ Φ T) (_ : CVars) (a : Nat) : Prop := h.live a = none

/-- What the objects refer to exists. -/
def CHeap.NoDangling (h : CHeap Γ Φ T) : Prop := ∀ p o, h.live p = some o → ∀ q ∈ o.refs, h.live q ≠ none

end Bempp
