import Verif.Model.Blocks
/-
Model of `src/shapes.rs`. A function that builds a shape is modelled by the calls that process 0 makes
to the grid builder of `ndgrid`; the other processes only receive their part of the grid
(`create_parallel_grid`, lines 111-112, 169-170, 220-221). The degree of the geometry is only passed on to the builder
(line 29); degrees, capacities and the calls of the other processes are in `Model/ShapeCalls`.
-/
namespace Bempp

/-- The calls `b.add_point(id, coordinates)` and `b.add_cell(id, points)`, in order.
Calls at `src/shapes.rs:102-107,140-163,198-214`. -/
structure Shape (T : Type) where
  points : List (Nat × (T × T × T))
  cells : List (Nat × List Nat)

/-- A triangle: `[usize; 3]`. `src/shapes.rs:47-56`. -/
structure Tri where
  p0 : Nat
  p1 : Nat
  p2 : Nat
deriving DecidableEq, Repr

/-- The variables `points`, `point_n`, `edge_points`, `new_cells` of `regular_sphere`
(`src/shapes.rs:32,45,60-61`). -/
structure RefineState (T : Type) where
  points : List (T × T × T)
  pointN : Nat
  edgePoints : Map (Nat × Nat) Nat
  newCells : List Tri

section
variable {T : Type} [Zero T] [One T] [Neg T] [Add T] [Mul T] [Div T]

/-- The new point of an edge, `src/shapes.rs:77-87`. -/
def newPoint (half : T) (sqrt : T → T) (vi vj : T × T × T) : T × T × T :=
  let x := half * (vi.1 + vj.1)
  let y := half * (vi.2.1 + vj.2.1)
  let z := half * (vi.2.2 + vj.2.2)
  let size := sqrt (0 + x * x + y * y + z * z)
  (x / size, y / size, z / size)

/-- The closure `src/shapes.rs:70-93` for the edge between the points `i` and `j` with coordinates `vi`
and `vj`: the number of the point in the middle, which is made if it is new. -/
def edgePoint (half : T) (sqrt : T → T) (i j : Nat) (vi vj : T × T × T) (s : RefineState T) :
    RefineState T × Nat :=
  let key := if i > j then (j, i) else (i, j)
  match s.edgePoints.get? key with
  | some n => (s, n)
  | none =>
    ({ s with
        points := s.points ++ [newPoint half sqrt vi vj]
        pointN := s.pointN + 1
        edgePoints := s.edgePoints.insert key s.pointN }, s.pointN)

/-- Body of the loop over cells, `src/shapes.rs:63-98` (`none`: index panic). -/
def refineCell (half : T) (sqrt : T → T) (s : RefineState T) (c : Tri) : Option (RefineState T) := do
  let v0 ← s.points[c.p0]?
  let v1 ← s.points[c.p1]?
  let v2 ← s.points[c.p2]?
  let (s, e0) := edgePoint half sqrt c.p1 c.p2 v1 v2 s
  let (s, e1) := edgePoint half sqrt c.p0 c.p2 v0 v2 s
  let (s, e2) := edgePoint half sqrt c.p0 c.p1 v0 v1 s
  some { s with newCells := s.newCells ++ [⟨c.p0, e2, e1⟩, ⟨c.p1, e0, e2⟩, ⟨c.p2, e1, e0⟩, ⟨e0, e1, e2⟩] }

/-- The variables that survive a round of refinement. `points`, `point_n`, `cells`, `src/shapes.rs:32-56`. -/
structure SphereState (T : Type) where
  points : List (T × T × T)
  pointN : Nat
  cells : List Tri

/-- Body of the loop over levels, `src/shapes.rs:60-100`. -/
def refineLevel (half : T) (sqrt : T → T) (s : SphereState T) : Option (SphereState T) := do
  let r ← s.cells.foldlM (refineCell half sqrt) ⟨s.points, s.pointN, [], []⟩
  some ⟨r.points, r.pointN, r.newCells⟩

/-- The octahedron, `src/shapes.rs:38-56`. -/
def octahedronStart : SphereState T :=
  { points := [(0, 0, 1), (1, 0, 0), (0, 1, 0), (-1, 0, 0), (0, -1, 0), (0, 0, -1)]
    pointN := 6
    cells := [⟨0, 1, 2⟩, ⟨0, 2, 3⟩, ⟨0, 3, 4⟩, ⟨0, 4, 1⟩, ⟨5, 2, 1⟩, ⟨5, 3, 2⟩, ⟨5, 4, 3⟩, ⟨5, 1, 4⟩] }

/-- `regular_sphere`, `src/shapes.rs:19-114`. -/
def regularSphere (half : T) (sqrt : T → T) (refinementLevel : Nat) : Option (Shape T) := do
  let s ← (List.range refinementLevel).foldlM (fun s _ => refineLevel half sqrt s) octahedronStart
  some
    { points := s.points.zipIdx.map fun p => (p.2, p.1)
      cells := s.cells.zipIdx.map fun p => (p.2, [p.1.p0, p.1.p1, p.1.p2]) }

end

section
variable {T : Type} [Zero T] [Div T] (fromNat : Nat → T)

/-- The points of a screen, `src/shapes.rs:136-145` and 194-203; `fromNat` is `T::from(..).unwrap()`. -/
def screenPoints (ncells : Nat) : List (Nat × (T × T × T)) :=
  let n := fromNat (ncells + 1)
  (List.range (ncells + 1)).flatMap fun y => (List.range (ncells + 1)).map fun x =>
    (y * (ncells + 1) + x, (fromNat x / n, fromNat y / n, 0))

/-- `screen_triangles`, `src/shapes.rs:120-172` (`none`: panic). -/
def screenTriangles (ncells : Nat) : Option (Shape T) :=
  if ncells = 0 then none else
  some
    { points := screenPoints fromNat ncells
      cells := (List.range ncells).flatMap fun y => (List.range ncells).flatMap fun x =>
        [(2 * y * ncells + 2 * x,
            [y * (ncells + 1) + x, y * (ncells + 1) + x + 1, y * (ncells + 1) + x + ncells + 2]),
         (2 * y * ncells + 2 * x + 1,
            [y * (ncells + 1) + x, y * (ncells + 1) + x + ncells + 2,
              y * (ncells + 1) + x + ncells + 1])] }

/-- `screen_quadrilaterals`, `src/shapes.rs:178-223` (`none`: panic). -/
def screenQuadrilaterals (ncells : Nat) : Option (Shape T) :=
  if ncells = 0 then none else
  some
    { points := screenPoints fromNat ncells
      cells := (List.range ncells).flatMap fun y => (List.range ncells).map fun x =>
        (y * ncells + x,
          [y * (ncells + 1) + x, y * (ncells + 1) + x + 1, y * (ncells + 1) + x + ncells + 1,
            y * (ncells + 1) + x + ncells + 2]) }

end
end Bempp
