/-
What the processes wait for when they exchange the global indices of the DOFs (used for C64).
-/
namespace Bempp

/-- What a process does with each other process: it asks for the DOFs that the other one owns, hears what the other one asks, replies,
and reads the other one's reply. -/
inductive Talk where
  | ask
  | hear
  | reply
  | read
  deriving DecidableEq, Repr

/-- A process does one of these things with another process. -/
structure Event where
  rank : Nat
  task : Talk
  partner : Nat
  deriving DecidableEq, Repr

/-- A process asks all others; then it hears and replies to each of the others in turn; then it reads all replies. -/
def Talk.stage : Talk → Nat
  | .ask => 0
  | .hear => 1
  | .reply => 1
  | .read => 2

namespace Event

/-- The events of `n` processes. -/
def Valid (n : Nat) (x : Event) : Prop := x.rank < n ∧ x.partner < n ∧ x.partner ≠ x.rank

/-- Process order: the same process does `x` before `y`. In each stage it takes the others in order of rank. -/
def Before (x y : Event) : Prop :=
  x.rank = y.rank ∧ (x.task.stage < y.task.stage ∨ (x.task.stage = y.task.stage ∧
    (x.partner < y.partner ∨ (x.partner = y.partner ∧ x.task = .hear ∧ y.task = .reply))))

/-- The other side of the same conversation. -/
def other (x : Event) : Event := ⟨x.partner, match x.task with
  | .ask => .hear
  | .hear => .ask
  | .reply => .read
  | .read => .reply, x.rank⟩

/-- Messages are received in this event. -/
def Receives (x : Event) : Prop := x.task = .hear ∨ x.task = .read

/-- Messages are sent in this event that are too long for a buffer: a request for many DOFs or the reply to one. `long p q` says
that `p` asks `q` for that many. -/
def SendsLong (long : Nat → Nat → Prop) (x : Event) : Prop :=
  (x.task = .ask ∧ long x.rank x.partner) ∨ (x.task = .reply ∧ long x.partner x.rank)

/-- `x` cannot come to an end before `y` does: `y` is earlier in the same process; or `x` is to receive what is sent in `y`; or what is
sent in `x` does not fit in a buffer, and the receiver has to do `y` before it receives. -/
def Waits (n : Nat) (long : Nat → Nat → Prop) (x y : Event) : Prop :=
  y.Valid n ∧ (y.Before x ∨ (x.Receives ∧ y = x.other) ∨ (x.SendsLong long ∧ y.Before x.other))

/-- The reflexive and transitive closure of `Waits`. -/
inductive WaitsOn (n : Nat) (long : Nat → Nat → Prop) (x : Event) : Event → Prop
  | refl : WaitsOn n long x x
  | step {y z : Event} : WaitsOn n long x y → y.Waits n long z → WaitsOn n long x z

/-- `x` waits, directly or not, for an event that waits for itself. -/
def Hangs (n : Nat) (long : Nat → Nat → Prop) (x : Event) : Prop :=
  ∃ y z, WaitsOn n long x y ∧ y.Waits n long z ∧ WaitsOn n long z y

end Event
end Bempp
