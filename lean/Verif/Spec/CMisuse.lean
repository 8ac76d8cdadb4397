import Verif.Spec.CInterface
/-
The kinds of objects that the functions of the C interface expect.
-/
namespace Bempp

variable {Γ Φ R T : Type}

/-- The pointers that are passed to a call, with the kind of object that the function expects. -/
def CCall.wants : CCall Γ Φ R T → List (Nat × CKind)
  | .createGrid .. | .createFamily .. | .newOptions | .free _ none => []
  | .free k (some p) => [(p, k)]
  | .functionSpace g f => [(g, .grid), (f, .family)]
  | .localSpace s | .space s _ => [(s, .space)]
  | .setOptions p _ | .getOptions p _ | .laplaceNew p _ _ | .helmholtzNew _ p _ _ => [(p, .options)]
  | .assemblerDtype a => [(a, .assembler)]
  | .assemble a x y | .assembleSingular a x y | .assembleIntoMemory a x y _ => [(a, .assembler), (x, .space), (y, .space)]
  | .matrix m _ | .matrixPointer m _ | .load m _ _ => [(m, .matrix)]

/-- There is an object of this kind behind the pointer. -/
def CHeap.HasKind (h : CHeap Γ Φ T) (k : CKind) (p : Nat) : Prop := ∃ o, h.live p = some o ∧ o.kind = k

end Bempp
