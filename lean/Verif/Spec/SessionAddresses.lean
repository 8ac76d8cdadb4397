import Verif.Model.SessionAddresses
import Mathlib.Data.Set.Finite.Basic
/-
For C116: what an allocator promises.
-/
namespace Bempp

/-- As long as finitely many addresses are in use, the allocator gives one that is not in use. Nothing is said about addresses that were used
before. Programs that run out of memory are left out. -/
def Picker.Honest {α : Type} (pick : Picker α) : Prop :=
  ∀ n (live : Nat → Option α), {p | live p ≠ none}.Finite → live (pick n live) = none

end Bempp
