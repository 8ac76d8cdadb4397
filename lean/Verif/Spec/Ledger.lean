import Verif.Model.Python
/-
What the Python program below can see: the spaces it has made and not deleted, and the grids for which a call of
`function_space` raised because the element family could not be converted. No reference counts and no Rust objects.
-/
namespace Bempp

/-- The live spaces (number, grid, family), the number of the next one, and the grid of each call that raised in the
conversion of its family. -/
structure Ledger where
  spaces : List (Nat × Nat × Nat)
  next : Nat
  failed : List Nat

/-- At the start. -/
def Ledger.start : Ledger := ⟨[], 0, []⟩

/-- The grid is in Rust already. -/
def Ledger.hasGrid (l : Ledger) (g : Nat) : Prop := (∃ e ∈ l.spaces, e.2.1 = g) ∨ g ∈ l.failed

/-- The family is in Rust already. -/
def Ledger.hasFamily (l : Ledger) (f : Nat) : Prop := ∃ e ∈ l.spaces, e.2.2 = f

instance (l : Ledger) (g : Nat) : Decidable (l.hasGrid g) := by unfold Ledger.hasGrid; infer_instance

instance (l : Ledger) (f : Nat) : Decidable (l.hasFamily f) := by unfold Ledger.hasFamily; infer_instance

/-- What a call does and whether it raises. -/
def Ledger.call (l : Ledger) : PyCall → Ledger × Bool
  | .create g f gridOk familyOk =>
    if ¬ (l.hasGrid g ∨ gridOk = true) then (l, true)
    else if ¬ (l.hasFamily f ∨ familyOk = true) then ({ l with failed := g :: l.failed }, true)
    else ({ l with spaces := (l.next, g, f) :: l.spaces, next := l.next + 1 }, false)
  | .delete k => ({ l with spaces := l.spaces.filter fun e => e.1 ≠ k }, false)
  | .use _ => (l, false)

/-- After a history of calls. -/
def Ledger.run (l : Ledger) (calls : List PyCall) : Ledger := calls.foldl (fun l c => (l.call c).1) l

end Bempp
