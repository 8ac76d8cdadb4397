import Verif.Model.Mpi
/-
What a single process can compute, whatever the other processes send to it.
-/
namespace Bempp

/-- `p.Yields a`: for some sequence of received messages, program `p` finishes with result `a`. -/
inductive Prog.Yields {α : Type} : Prog α → α → Prop
  | done (a : α) : Prog.Yields (.done a) a
  | send {d : Nat} {m : Msg} {k : Prog α} {a : α} : Prog.Yields k a → Prog.Yields (.send d m k) a
  | recv {s : Nat} {k : Msg → Prog α} {a : α} (m : Msg) : Prog.Yields (k m) a →
      Prog.Yields (.recv s k) a

end Bempp
