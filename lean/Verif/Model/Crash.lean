import Verif.Model.Mpi
/-
Processes that stop while all processes run `FunctionSpace::new` (`src/function.rs:106-237`): a Rust panic, a signal or a
failing node. Sends complete without waiting for the receiver, as in `Config.Step`. MPI may also end all processes when it
notices that one has stopped; then no process returns. Not modelled: processes that return an error or continue after a
failure (the calls at `src/function.rs:134-224` have no error path).
-/
namespace Bempp

/-- The state of all processes that run `src/function.rs:106-237`, which of them have stopped, and how many messages from
one process to another have been sent and how many of these were lost. -/
structure CrashConfig (α : Type) where
  net : Config α
  dead : Nat → Bool
  sent : Nat → Nat → Nat
  lost : Nat → Nat → Nat

namespace CrashConfig
variable {α : Type}

/-- The start of `src/function.rs:106`. -/
def init (c : Config α) : CrashConfig α := ⟨c, fun _ => false, fun _ _ => 0, fun _ _ => 0⟩

/-- Count a message from `s` to `d` (sends at `src/function.rs:154,162,177-181,203-204`). -/
def incr (f : Nat → Nat → Nat) (s d : Nat) : Nat → Nat → Nat := fun s' d' => if s' = s ∧ d' = d then f s d + 1 else f s' d'

/-- A process that has not stopped sends or receives (the calls are at `src/function.rs:134-224`). -/
inductive Move (n : Nat) : CrashConfig α → CrashConfig α → Prop
  | send (c : CrashConfig α) (r d : Nat) (m : Msg) (k : Prog α) (hr : r < n) (ha : c.dead r = false)
      (h : c.net.prog r = .send d m k) :
      Move n c { c with
        net := ⟨c.net.setProg r k, c.net.setChan r d (c.net.chan r d ++ [m])⟩
        sent := incr c.sent r d }
  | recv (c : CrashConfig α) (r s : Nat) (m : Msg) (rest : List Msg) (k : Msg → Prog α) (hr : r < n)
      (ha : c.dead r = false) (h : c.net.prog r = .recv s k) (hc : c.net.chan s r = m :: rest) :
      Move n c { c with net := ⟨c.net.setProg r (k m), c.net.setChan s r rest⟩ }

/-- A process sends or receives, a process stops (at any point of `src/function.rs:106-237`), or the last message under way from
a process that has stopped is lost. -/
inductive Step (n : Nat) : CrashConfig α → CrashConfig α → Prop
  | move {c c' : CrashConfig α} : Move n c c' → Step n c c'
  | crash (c : CrashConfig α) (r : Nat) (hr : r < n) (ha : c.dead r = false) :
      Step n c { c with dead := fun q => if q = r then true else c.dead q }
  | lose (c : CrashConfig α) (s d : Nat) (l : List Msg) (m : Msg) (hs : s < n) (hd : d < n) (ha : c.dead s = true)
      (h : c.net.chan s d = l ++ [m]) :
      Step n c { c with net := ⟨c.net.prog, c.net.setChan s d l⟩, lost := incr c.lost s d }

/-- An execution of `src/function.rs:106-237` by all processes, with its number of steps. -/
inductive Reach (n : Nat) : Nat → CrashConfig α → CrashConfig α → Prop
  | refl (c : CrashConfig α) : Reach n 0 c c
  | tail {k : Nat} {c c' c'' : CrashConfig α} : Reach n k c c' → Step n c' c'' → Reach n (k + 1) c c''

end CrashConfig
end Bempp
