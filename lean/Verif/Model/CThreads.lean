import Verif.Model.CInterface
/-
Model of a process with several threads that call the C interface, `src/bindings`. No function of the interface takes a lock, and
`cffi` (python/bempp/function_space.py:5) lets other Python threads run during a call. So a call is not one step: it begins, and while
it goes on other threads can finish calls of theirs and so change what is behind the pointers.

Simplification: within one call Rust looks at each object once, at any time between the begin and the end of the call; what the call
changes it changes when it ends. Two accesses of which one is a change and which are not ordered are a data race; theorems about
this model are about processes without such races.
-/
namespace Bempp

variable {Γ Φ R T : Type}

/-- A thread: the next call depends on what the earlier calls of the thread returned; `current` is the call that goes on, with the
states of the memory since it began, the newest first. Callers of `src/bindings.rs:1-14`. -/
structure CThread (Γ Φ R T : Type) where
  prog : List (CResult T) → Option (CCall Γ Φ R T)
  done : List (CResult T)
  current : Option (CCall Γ Φ R T × List (CHeap Γ Φ T))

/-- A process. `log` are the calls that ended, with the number of the thread, in the order in which they ended. A panic in a function
`extern "C"` ends the process. `src/bindings.rs:1-14`. -/
structure CProcess (Γ Φ R T : Type) where
  heap : CHeap Γ Φ T
  threads : List (CThread Γ Φ R T)
  log : List (Nat × CCall Γ Φ R T × Ffi (CResult T))
  ended : Bool

/-- All threads before their first call. Callers of `src/bindings.rs:1-14`. -/
def CProcess.start (h : CHeap Γ Φ T) (progs : List (List (CResult T) → Option (CCall Γ Φ R T))) : CProcess Γ Φ R T :=
  { heap := h, threads := progs.map fun p => ⟨p, [], none⟩, log := [], ended := false }

open Classical in
/-- The memory after a call that saw the memory as `v` and would leave it as `v'`: only what the call changes changes. For example
`src/bindings/boundary_assemblers.rs:36-39,47,58-59`. -/
noncomputable def CHeap.patch (h v v' : CHeap Γ Φ T) : CHeap Γ Φ T :=
  { next := v'.next, live := fun p => if v'.live p = v.live p then h.live p else v'.live p }

/-- What a thread has after a call: the result if there is one. Callers of `src/bindings.rs:1-14`. -/
def Ffi.results {α : Type} : Ffi α → List α
  | .ok x => [x]
  | _ => []

/-- A call that goes on can see a change of the memory. Follows from the absence of locks in `src/bindings`. -/
def CThread.sees (h : CHeap Γ Φ T) (t : CThread Γ Φ R T) : CThread Γ Φ R T :=
  { t with current := t.current.map fun x => (x.1, h :: x.2) }

/-- A view of the memory in which every object is as it was at some time since the call began; the allocator is synchronised.
`src/bindings/boundary_assemblers.rs:256-348`, `src/bindings/space.rs:29-198`. -/
def CHeap.ViewOf (v h : CHeap Γ Φ T) (seen : List (CHeap Γ Φ T)) : Prop :=
  v.next = h.next ∧ ∀ p, ∃ g ∈ seen, v.live p = g.live p

/-- One step of one thread: a call begins or ends. `src/bindings/space.rs:29-198`, `src/bindings/matrices.rs:6-138`,
`src/bindings/boundary_assemblers.rs:34-348`. -/
inductive CProcess.Step [Zero T] [Add T] [Sub T] [Mul T] [Div T] [Neg T] [Zero R] [Mul R] (newSpace : Γ → Φ → Option (Space R T))
    (kernel : DType → Kernel R T) (env : DType → Env R T) : CProcess Γ Φ R T → CProcess Γ Φ R T → Prop
  | begins {s : CProcess Γ Φ R T} {i : Nat} {t : CThread Γ Φ R T} {c : CCall Γ Φ R T} (running : s.ended = false)
      (thread : s.threads[i]? = some t) (idle : t.current = none) (next : t.prog t.done = some c) :
      CProcess.Step newSpace kernel env s
        { s with threads := s.threads.set i { t with current := some (c, [s.heap]) } }
  | finishes {s : CProcess Γ Φ R T} {i : Nat} {t : CThread Γ Φ R T} {c : CCall Γ Φ R T} {seen : List (CHeap Γ Φ T)}
      {v v' : CHeap Γ Φ T} {r : Ffi (CResult T)} (running : s.ended = false) (thread : s.threads[i]? = some t)
      (current : t.current = some (c, seen)) (view : v.ViewOf s.heap seen) (call : c.Step newSpace kernel env v v' r) :
      CProcess.Step newSpace kernel env s
        { heap := s.heap.patch v v'
          threads := (s.threads.set i { t with done := t.done ++ r.results, current := none }).map
            (CThread.sees (s.heap.patch v v'))
          log := s.log ++ [(i, c, r)]
          ended := r.results.isEmpty }

end Bempp
