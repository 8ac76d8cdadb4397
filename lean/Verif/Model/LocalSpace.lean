import Verif.Model.Colouring
/-
Model of `LocalFunctionSpace`, `src/function/function_space/serial.rs` and `src/function/function_space/common.rs`: the serial function space that the
bindings for Python were written for. The module is not part of the crate at the pinned commit (`src/function.rs:3`). Its
`assign_dofs` (`src/function/function_space/common.rs:16-96`) is the same text as `src/function.rs:365-445` and shares the model `assignDofs`; its
`cell_colouring` (`src/function/function_space/serial.rs:104-174`) is the same text as `src/function.rs:281-351` and shares the model of the loops.
-/
namespace Bempp

/-- `LocalFunctionSpace`, `src/function/function_space/serial.rs:15-26`. -/
structure LocalSpace where
  grid : Grid
  elements : Map CellType ElementDofs
  entityDofs : List (List (List Nat))
  cellDofsVec : List (List Nat)
  size : Nat

namespace LocalSpace

/-- `LocalFunctionSpace::new`, `src/function/function_space/serial.rs:35-57` (`none`: panic). -/
def new (g : Grid) (fam : CellType → ElementDofs) : Option LocalSpace := do
  let dm ← assignDofs 0 g fam
  some { grid := g, elements := (g.entityTypes 2).map fun t => (t, fam t), entityDofs := dm.entityDofs,
         cellDofsVec := dm.cellDofs, size := dm.size }

/-- `element`, `src/function/function_space/serial.rs:79-81`. -/
def element (s : LocalSpace) (t : CellType) : Option ElementDofs := s.elements.get? t

/-- `get_local_dof_numbers`, `src/function/function_space/serial.rs:82-84`. -/
def getLocalDofNumbers (s : LocalSpace) (d e : Nat) : Option (List Nat) := s.entityDofs[d]?.bind (·[e]?)

/-- `is_serial`, `src/function/function_space/serial.rs:85-87`. -/
def isSerial (_ : LocalSpace) : Bool := true

/-- `local_size`, `src/function/function_space/serial.rs:88-90`. -/
def localSize (s : LocalSpace) : Nat := s.size

/-- `global_size`, `src/function/function_space/serial.rs:91-93`. -/
def globalSize (s : LocalSpace) : Nat := s.size

/-- `cell_dofs`, `src/function/function_space/serial.rs:97-103`. -/
def cellDofs (s : LocalSpace) (c : Nat) : Option (List Nat) :=
  if c < s.cellDofsVec.length then s.cellDofsVec[c]? else none

/-- `global_dof_index`, `src/function/function_space/serial.rs:175-177`: any number is returned unchanged. -/
def globalDofIndex (_ : LocalSpace) (i : Nat) : Option Nat := some i

/-- `ownership`, `src/function/function_space/serial.rs:178-180`. -/
def ownership (_ : LocalSpace) (_i : Nat) : Option Ownership := some .owned

/-- `cell_colouring`, `src/function/function_space/serial.rs:104-174`. -/
def cellColouring (s : LocalSpace) : Option Colouring := do
  let g := s.grid
  let col0 : Colouring := fun t => if t ∈ g.entityTypes 2 then some [] else none
  let t0 ← (g.entityTypes 2)[0]?
  let el ← s.element t0
  let edim ← findEdim el 3 0
  let n ← entityColoursLen g edim
  let st ← (g.entityIter 2).foldlM (colourCell g edim) { col := col0, ec := List.replicate n [] }
  some st.col

end LocalSpace
end Bempp
