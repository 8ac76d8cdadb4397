import Verif.Spec.Shapes
/-
How many cells of a shape meet at a point, and how many touch a cell.
-/
namespace Bempp

variable {T : Type}

/-- The number of cells at the point `v`. -/
def Shape.cellsAt (s : Shape T) (v : Nat) : Nat := s.cells.countP fun c => decide (v ∈ c.2)

/-- Two cells touch when they have a common point. A cell touches itself. -/
def CellsTouch (c c' : List Nat) : Prop := ∃ v ∈ c, v ∈ c'

instance (c c' : List Nat) : Decidable (CellsTouch c c') := by unfold CellsTouch; infer_instance

/-- The number of cells that touch the cell with the points `c`. -/
def Shape.touching (s : Shape T) (c : List Nat) : Nat := s.cells.countP fun c' => decide (CellsTouch c c'.2)

/-- The number of ordered pairs of cells that touch. -/
def Shape.touchingPairs (s : Shape T) : Nat := (s.cells.map fun c => s.touching c.2).sum

end Bempp
