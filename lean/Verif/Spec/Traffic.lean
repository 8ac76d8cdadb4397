import Verif.Model.Mpi
/-
Executions with a record of the messages that were sent.
-/
namespace Bempp

/-- A message with its sender and receiver. -/
structure Sent where
  src : Nat
  dst : Nat
  msg : Msg
deriving DecidableEq

/-- `Logged n c₀ k c log`: an execution of `n` processes leads from `c₀` to `c` in `k` steps, and `log` lists the messages sent on the
way, in the order in which they were sent. (Sends do not wait for the receiver.) -/
inductive Logged {α : Type} (n : Nat) (c₀ : Config α) : Nat → Config α → List Sent → Prop
  | start : Logged n c₀ 0 c₀ []
  | send {k : Nat} {c : Config α} {log : List Sent} (r d : Nat) (m : Msg) (rest : Prog α) (hr : r < n) :
      Logged n c₀ k c log → c.prog r = .send d m rest →
      Logged n c₀ (k + 1) ⟨c.setProg r rest, c.setChan r d (c.chan r d ++ [m])⟩ (log ++ [⟨r, d, m⟩])
  | recv {k : Nat} {c : Config α} {log : List Sent} (r s : Nat) (m : Msg) (ms : List Msg) (rest : Msg → Prog α) (hr : r < n) :
      Logged n c₀ k c log → c.prog r = .recv s rest → c.chan s r = m :: ms →
      Logged n c₀ (k + 1) ⟨c.setProg r (rest m), c.setChan s r ms⟩ log

/-- The lengths of the messages from `s` to `d`, in order. -/
def sizes (log : List Sent) (s d : Nat) : List Nat :=
  (log.filter fun x => x.src = s ∧ x.dst = d).map fun x => x.msg.length

/-- How many numbers were sent altogether. -/
def volume (log : List Sent) : Nat := (log.map fun x => x.msg.length).sum

/-- What process `s` of `n` sends to process `d` if process `p` needs `need p q` DOFs of process `q`: the first number of the next
process, the total from the last process to the others, three lists with its questions and two with its answers. -/
def plannedSizes (n : Nat) (need : Nat → Nat → Nat) (s d : Nat) : List Nat :=
  (if d = s + 1 then [1] else []) ++ (if s + 1 = n ∧ d < s then [1] else []) ++
  (if s = d then [] else [need s d, need s d, need s d, need d s, need d s])

end Bempp
