import Verif.Model.CThreads
import Verif.Model.Allocator
/-
Model of a process with several threads that call the C interface, `src/bindings`, with an allocator that may give out the address of
an object that was freed, by whichever thread. As in `Model/CThreads.lean` a call sees each object as it was at some time since the
call began; as in `Model/Allocator.lean` an object is made at any address that the allocator chooses.
-/
namespace Bempp

variable {Γ Φ R T : Type}

/-- The addresses that were given out: those at the beginning and those that calls returned, in the order in which the calls ended.
`Box::into_raw(Box::new(..))`, for example `src/bindings/space.rs:38-40`, `src/bindings/boundary_assemblers.rs:36-39`. -/
def madeIn (vars : CVars) (log : List (Nat × CCall Γ Φ R T × Ffi (CResult T))) : CVars :=
  (log.flatMap fun x => x.2.2.results).foldl CVars.after vars

/-- A view of the memory in which every object is as it was at some time since the call began; nothing is at the address that the
allocator, which is synchronised, gives to this call. `src/bindings/boundary_assemblers.rs:256-348`, `src/bindings/space.rs:29-198`. -/
structure CHeap.AllocView (v : CHeap Γ Φ T) (a : Nat) (seen : List (CHeap Γ Φ T)) : Prop where
  next : v.next = a
  free : v.live a = none
  old : ∀ p, p ≠ a → ∃ g ∈ seen, v.live p = g.live p

/-- One step of one thread: a call begins or ends. `vars₀` are the addresses that were given out before the threads started.
`src/bindings/space.rs:29-198`, `src/bindings/matrices.rs:6-138`, `src/bindings/boundary_assemblers.rs:34-348`. -/
inductive CProcess.AllocStep [Zero T] [Add T] [Sub T] [Mul T] [Div T] [Neg T] [Zero R] [Mul R] (newSpace : Γ → Φ → Option (Space R T))
    (kernel : DType → Kernel R T) (env : DType → Env R T) (gives : CHeap Γ Φ T → CVars → Nat → Prop) (vars₀ : CVars) :
    CProcess Γ Φ R T → CProcess Γ Φ R T → Prop
  | begins {s : CProcess Γ Φ R T} {i : Nat} {t : CThread Γ Φ R T} {c : CCall Γ Φ R T} (running : s.ended = false)
      (thread : s.threads[i]? = some t) (idle : t.current = none) (next : t.prog t.done = some c) :
      CProcess.AllocStep newSpace kernel env gives vars₀ s
        { s with threads := s.threads.set i { t with current := some (c, [s.heap]) } }
  | finishes {s : CProcess Γ Φ R T} {i : Nat} {t : CThread Γ Φ R T} {c : CCall Γ Φ R T} {seen : List (CHeap Γ Φ T)} {a : Nat}
      {v v' : CHeap Γ Φ T} {r : Ffi (CResult T)} (running : s.ended = false) (thread : s.threads[i]? = some t)
      (current : t.current = some (c, seen)) (given : gives s.heap (madeIn vars₀ s.log) a) (view : v.AllocView a seen)
      (call : c.Step newSpace kernel env v v' r) :
      CProcess.AllocStep newSpace kernel env gives vars₀ s
        { heap := s.heap.patch v v'
          threads := (s.threads.set i { t with done := t.done ++ r.results, current := none }).map
            (CThread.sees (s.heap.patch v v'))
          log := s.log ++ [(i, c, r)]
          ended := r.results.isEmpty }

end Bempp
