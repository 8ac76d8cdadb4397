import Verif.Model.PythonSession
/-
For C74: what the calls of a session need to find in Rust's memory. That no session has undefined behaviour says something because calls that do
not find it have.
-/
namespace Bempp

/-- The options object whose Rust side a call reads. -/
def SessionCall.readsOptions : SessionCall → Option Nat
  | .getRegular i _ | .getSingular i _ _ | .getBatch i => some i
  | .createLaplace _ i (some _) => some i
  | _ => none

/-- The options object whose Rust side a call changes. -/
def SessionCall.writesOptions : SessionCall → Option Nat
  | .setRegular i _ _ | .setSingular i _ _ _ | .setBatch i _ => some i
  | _ => none

/-- There are options at this address. -/
def AsmHeap.HasOptions (h : AsmHeap) (p : Nat) : Prop := ∃ o, h.live p = some (.options o)

/-- There is an assembler at this address. -/
def AsmHeap.HasAssembler (h : AsmHeap) (p : Nat) : Prop := ∃ op d q, h.live p = some (.assembler op d q)

/-- There is an assembler at this address, and the options that it refers to are still there. -/
def AsmHeap.HasWhole (h : AsmHeap) (p : Nat) : Prop := ∃ op d q, h.live p = some (.assembler op d q) ∧ h.HasOptions q

end Bempp
