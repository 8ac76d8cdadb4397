import Verif.Model.ConcurrentPanic
import Verif.Spec.Concurrent
import Verif.Spec.Memory
import Verif.Spec.Operators
/-
Calls that may panic, beside each other.
-/
namespace Bempp

variable {R T : Type}

/-- A call with an operator of the library, on spaces made by `FunctionSpace::new` on one process, with tables that are large
enough. What the external functions compute and when they panic is left open. -/
def DenseCall.Safe [Zero R] [Mul R] [Neg R] [Zero T] [Add T] [Sub T] [Mul T] [Div T] [Neg T] (c : DenseCall R T) : Prop :=
  IsOperator c.env.cast c.asm ∧ c.asm.kernel.kernel.Sized ∧ c.env.Sized ∧ c.test.Sized ∧ c.trial.Sized ∧ c.Serial ∧
    TablesFit c.test.fs c.trial.fs

/-- `plans` are operations that the calls can do, when they return or when they panic. -/
def AnyPlansOf [Zero R] [Mul R] [Zero T] [Add T] [Mul T] (calls : List (DenseCall R T)) (plans : List (Phases T)) : Prop :=
  List.Forall₂ (fun c p => CallPlan c.env c.asm c.trial c.test p ∨ CallPanic c.env c.asm c.trial c.test p) calls plans

end Bempp
