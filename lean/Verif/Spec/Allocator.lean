import Verif.Model.Allocator
import Verif.Spec.CInterface
/-
Allocators, and results up to the addresses in them.
-/
namespace Bempp

variable {Γ Φ R T : Type}

/-- What every allocator does: the address that it gives out is not the address of an object that is there. -/
def AllocatorOk (gives : CHeap Γ Φ T → CVars → Nat → Prop) : Prop := ∀ h vars a, gives h vars a → h.live a = none

/-- The allocator does not fail as long as only finitely many addresses are in use. -/
def NeverFull (gives : CHeap Γ Φ T → CVars → Nat → Prop) : Prop :=
  ∀ h vars, (∃ n, ∀ a, n ≤ a → h.live a = none) → ∃ a, gives h vars a

/-- The allocator that always gives out the least free address. -/
def leastFree (h : CHeap Γ Φ T) (_ : CVars) (a : Nat) : Prop := h.live a = none ∧ ∀ b, b < a → h.live b ≠ none

/-- The allocator of C97: an address is never used again. -/
def neverAgain (h : CHeap Γ Φ T) (vars : CVars) (a : Nat) : Prop := h.live a = none ∧ a ∉ vars

/-- The result with addresses in place of the numbers of objects. Nothing else in a result depends on addresses. -/
def CResult.at (vars : CVars) : CResult T → CResult T
  | .handle k => .handle (vars.address k)
  | .pointer k part => .pointer (vars.address k) part
  | r => r

/-- The same for calls that may panic. -/
def Ffi.at (vars : CVars) : Ffi (CResult T) → Ffi (CResult T)
  | .ok x => .ok (x.at vars)
  | .raised => .raised
  | .panic => .panic
  | .undefined => .undefined

end Bempp
