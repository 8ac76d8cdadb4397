import Verif.Model.Shapes
/-
The functions of `src/shapes.rs` on all processes: the calls that each of them makes to the grid builder of `ndgrid`, with
the element and the capacities.
-/
namespace Bempp

/-- The calls to a `SingleElementGridBuilder`: `new_with_capacity`, `new`, `add_point`, `add_cell`,
`create_parallel_grid_root(comm)` and `create_parallel_grid(comm, root)`. `src/shapes.rs:25-30,102-112,129-134,140-143,148-163,
166-170,187-192,198-201,206-214,217-221`. -/
inductive BuilderCall (T : Type) where
  | newWithCapacity (gdim npoints ncells : Nat) (type : CellType) (degree : Nat)
  | new (gdim : Nat) (type : CellType) (degree : Nat)
  | addPoint (id : Nat) (x : List T)
  | addCell (id : Nat) (points : List Nat)
  | createRoot
  | create (root : Nat)

/-- The calls `add_point` and `add_cell` of a shape. `src/shapes.rs:102-107,138-164,196-215`. -/
def Shape.calls {T : Type} (s : Shape T) : List (BuilderCall T) :=
  (s.points.map fun p => .addPoint p.1 [p.2.1, p.2.2.1, p.2.2.2]) ++ s.cells.map fun c => .addCell c.1 c.2

/-- `regular_sphere` on process `rank` (`none`: panic outside of the builder). `src/shapes.rs:19-114`. -/
def regularSphereCalls {T : Type} [Zero T] [One T] [Neg T] [Add T] [Mul T] [Div T] (half : T) (sqrt : T → T)
    (refinementLevel degree rank : Nat) : Option (List (BuilderCall T)) :=
  if rank = 0 then do
    let s ← regularSphere half sqrt refinementLevel
    some ([.newWithCapacity 3 (2 + 4 ^ (refinementLevel + 1)) (8 * 4 ^ refinementLevel) .triangle degree] ++ s.calls ++
      [.createRoot])
  else some [.new 3 .triangle degree, .create 0]

/-- `screen_triangles` on process `rank`. `src/shapes.rs:120-172`. -/
def screenTrianglesCalls {T : Type} [Zero T] [Div T] (fromNat : Nat → T) (ncells rank : Nat) :
    Option (List (BuilderCall T)) :=
  if ncells = 0 then none
  else if rank = 0 then do
    let s ← screenTriangles fromNat ncells
    some ([.newWithCapacity 3 ((ncells + 1) * (ncells + 1)) (2 * ncells * ncells) .triangle 1] ++ s.calls ++ [.createRoot])
  else some [.new 3 .triangle 1, .create 0]

/-- `screen_quadrilaterals` on process `rank`. `src/shapes.rs:178-223`. -/
def screenQuadrilateralsCalls {T : Type} [Zero T] [Div T] (fromNat : Nat → T) (ncells rank : Nat) :
    Option (List (BuilderCall T)) :=
  if ncells = 0 then none
  else if rank = 0 then do
    let s ← screenQuadrilaterals fromNat ncells
    some ([.newWithCapacity 3 ((ncells + 1) * (ncells + 1)) (ncells * ncells) .quadrilateral 1] ++ s.calls ++ [.createRoot])
  else some [.new 3 .quadrilateral 1, .create 0]

end Bempp
