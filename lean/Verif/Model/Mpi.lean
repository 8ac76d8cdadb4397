/-
Message-passing programs and two semantics of MPI point-to-point communication.
All communication in `src/function.rs:106-237` uses `process_at_rank(p).immediate_send(..)`, whose
request is waited for at once (`let _ = WaitGuard::from(..)` drops the guard immediately), and blocking
`receive` / `receive_vec` from a given rank, with the default tag. MPI delivers messages between an
ordered pair of ranks in order.
-/
namespace Bempp

/-- A message: the list of `usize` values sent (a single value for `immediate_send(scope, &dof_n)`).
Sends at `src/function.rs:154,162,177-181,203-204`. -/
abbrev Msg := List Nat

/-- The program of one rank. `panic` is a Rust panic. For `src/function.rs:106-237`. -/
inductive Prog (α : Type) where
  | done (a : α)
  | panic
  | send (dst : Nat) (m : Msg) (k : Prog α)
  | recv (src : Nat) (k : Msg → Prog α)

namespace Prog
variable {α β : Type}

/-- Sequencing of statements in `src/function.rs:106-237`. -/
def bind : Prog α → (α → Prog β) → Prog β
  | done a, f => f a
  | panic, _ => panic
  | send d m k, f => send d m (k.bind f)
  | recv s k, f => recv s (fun m => (k m).bind f)

/-- Sequencing of statements in `src/function.rs:106-237`. -/
instance : Monad Prog where
  pure := done
  bind := bind

/-- `process.immediate_send(scope, m)` followed by waiting.
`let _ = WaitGuard::from(..)`, `src/function.rs:153-156,161-163,175-183,202-205`. -/
def sendTo (dst : Nat) (m : Msg) : Prog Unit := send dst m (done ())

/-- `process.receive_vec::<usize>()`. `src/function.rs:190-192,214-215`. -/
def recvVec (src : Nat) : Prog Msg := recv src done

/-- `process.receive::<usize>()`: a message of any other length is an error. `src/function.rs:137,167`. -/
def recvOne (src : Nat) : Prog Nat :=
  recv src fun m => match m with
    | [x] => done x
    | _ => panic

/-- Run a computation that can panic. For example the indexing at `src/function.rs:142-150,193-201,216-222`. -/
def lift : Option α → Prog α
  | some a => done a
  | none => panic

end Prog

/-- A configuration: the remaining program of each rank and the messages under way from one rank to
another (oldest first). The state of all processes that run `src/function.rs:106-237`. -/
structure Config (α : Type) where
  prog : Nat → Prog α
  chan : Nat → Nat → List Msg

namespace Config
variable {α : Type}

/-- Initial configuration: no message under way. The start of `src/function.rs:106`. -/
def init (p : Nat → Prog α) : Config α := ⟨p, fun _ _ => []⟩

/-- One process has made a step (in `src/function.rs:106-237`). -/
def setProg (c : Config α) (r : Nat) (p : Prog α) : Nat → Prog α :=
  fun q => if q = r then p else c.prog q

/-- A message was sent or received (in `src/function.rs:106-237`). -/
def setChan (c : Config α) (s d : Nat) (l : List Msg) : Nat → Nat → List Msg :=
  fun s' d' => if s' = s ∧ d' = d then l else c.chan s' d'

/-- One step of rank `r < n` when sends complete without waiting for the receiver (MPI's buffered /
eager behaviour). The calls are at `src/function.rs:134-224`. -/
inductive Step (n : Nat) : Config α → Config α → Prop
  | send (c : Config α) (r d : Nat) (m : Msg) (k : Prog α) (hr : r < n)
      (h : c.prog r = .send d m k) :
      Step n c ⟨c.setProg r k, c.setChan r d (c.chan r d ++ [m])⟩
  | recv (c : Config α) (r s : Nat) (m : Msg) (rest : List Msg) (k : Msg → Prog α) (hr : r < n)
      (h : c.prog r = .recv s k) (hc : c.chan s r = m :: rest) :
      Step n c ⟨c.setProg r (k m), c.setChan s r rest⟩

/-- One step when a send completes only together with the matching receive (MPI's synchronous /
rendezvous behaviour, which the standard allows for every standard-mode send).
The calls are at `src/function.rs:134-224`. -/
inductive SyncStep (n : Nat) : Config α → Config α → Prop
  | mk (c : Config α) (r d : Nat) (m : Msg) (k : Prog α) (k' : Msg → Prog α) (hr : r < n)
      (hd : d < n) (hne : r ≠ d) (h : c.prog r = .send d m k) (h' : c.prog d = .recv r k') :
      SyncStep n c ⟨fun q => if q = r then k else if q = d then k' m else c.prog q, c.chan⟩

/-- One step when messages of at most `L` numbers are buffered and a longer one is handed over only together with the matching
receive (MPI implementations switch from their eager to their rendezvous protocol at some message length). The message that is
handed over must not overtake messages under way. The calls are at `src/function.rs:134-224`. -/
inductive EagerStep (n L : Nat) : Config α → Config α → Prop
  | send (c : Config α) (r d : Nat) (m : Msg) (k : Prog α) (hr : r < n) (hm : m.length ≤ L)
      (h : c.prog r = .send d m k) :
      EagerStep n L c ⟨c.setProg r k, c.setChan r d (c.chan r d ++ [m])⟩
  | recv (c : Config α) (r s : Nat) (m : Msg) (rest : List Msg) (k : Msg → Prog α) (hr : r < n)
      (h : c.prog r = .recv s k) (hc : c.chan s r = m :: rest) :
      EagerStep n L c ⟨c.setProg r (k m), c.setChan s r rest⟩
  | meet (c : Config α) (r d : Nat) (m : Msg) (k : Prog α) (k' : Msg → Prog α) (hr : r < n)
      (hd : d < n) (hne : r ≠ d) (hm : L < m.length) (hc : c.chan r d = []) (h : c.prog r = .send d m k)
      (h' : c.prog d = .recv r k') :
      EagerStep n L c ⟨fun q => if q = r then k else if q = d then k' m else c.prog q, c.chan⟩

/-- Reflexive transitive closure, with the number of steps.
An execution of `src/function.rs:106-237` by all processes. -/
inductive Reach (S : Config α → Config α → Prop) : Nat → Config α → Config α → Prop
  | refl (c : Config α) : Reach S 0 c c
  | tail {k : Nat} {c c' c'' : Config α} : Reach S k c c' → S c' c'' → Reach S (k + 1) c c''

end Config
end Bempp
