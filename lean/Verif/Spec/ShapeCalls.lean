import Verif.Model.ShapeCalls
/-
What the grid builder of `ndgrid` accepts.
-/
namespace Bempp

/-- The number of points of a Lagrange element of the degree. Only for triangles and quadrilaterals. -/
def elementPoints : CellType → Nat → Nat
  | .triangle, d => (d + 1) * (d + 2) / 2
  | .quadrilateral, d => (d + 1) * (d + 1)
  | _, _ => 0

/-- A builder: dimension, cell type and degree, room for points and cells, and what was added. -/
structure GridBuilder (T : Type) where
  gdim : Nat
  type : CellType
  degree : Nat
  room : Nat × Nat
  points : List (Nat × List T)
  cells : List (Nat × List Nat)

/-- There is no builder; there is a builder; the process has entered the collective creation of the grid, with the process
`root` sending the grid. -/
inductive BuilderState (T : Type) where
  | fresh
  | building (b : GridBuilder T)
  | creating (root : Nat) (b : GridBuilder T)

/-- The contract of the builder (`none`: panic). Points have `gdim` coordinates; numbers of points and of cells are not used
twice; a cell has as many points as the element, and they have been added before. A process that sends a grid has number 0. -/
def BuilderState.call {T : Type} : BuilderState T → BuilderCall T → Option (BuilderState T)
  | .fresh, .newWithCapacity gdim n m t d => some (.building ⟨gdim, t, d, (n, m), [], []⟩)
  | .fresh, .new gdim t d => some (.building ⟨gdim, t, d, (0, 0), [], []⟩)
  | .building b, .addPoint id x =>
    if x.length = b.gdim ∧ id ∉ b.points.map Prod.fst then some (.building { b with points := b.points ++ [(id, x)] })
    else none
  | .building b, .addCell id c =>
    if c.length = elementPoints b.type b.degree ∧ id ∉ b.cells.map Prod.fst ∧ ∀ v ∈ c, v ∈ b.points.map Prod.fst then
      some (.building { b with cells := b.cells ++ [(id, c)] })
    else none
  | .building b, .createRoot => some (.creating 0 b)
  | .building b, .create root => some (.creating root b)
  | _, _ => none

/-- All calls, in order. -/
def BuilderState.calls {T : Type} (l : List (BuilderCall T)) : Option (BuilderState T) :=
  l.foldlM BuilderState.call .fresh

/-- Process `rank` enters the creation of the grid in which process 0 sends the grid; `b` is its builder. -/
def Enters {T : Type} (calls : Nat → Option (List (BuilderCall T))) (rank : Nat) (b : GridBuilder T) : Prop :=
  ∃ l, calls rank = some l ∧ BuilderState.calls l = some (.creating 0 b)

/-- A builder that a shape has been given to. -/
def Shape.builder {T : Type} (s : Shape T) (n m : Nat) (t : CellType) (d : Nat) : GridBuilder T :=
  { gdim := 3, type := t, degree := d, room := (n, m)
    points := s.points.map fun p => (p.1, [p.2.1, p.2.2.1, p.2.2.2])
    cells := s.cells }

/-- A builder that nothing has been given to. -/
def GridBuilder.empty {T : Type} (t : CellType) (d : Nat) : GridBuilder T := ⟨3, t, d, (0, 0), [], []⟩

end Bempp
