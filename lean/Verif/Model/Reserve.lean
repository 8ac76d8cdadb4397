import Verif.Model.Assembly
import Verif.Model.Shapes
/-
The memory that is reserved in advance (`Vec::with_capacity`), in numbers of elements. What a vector does when it has to
grow beyond its capacity is up to the standard library and not modelled.
-/
namespace Bempp

/-- A vector with its capacity at creation and the number of elements that are stored in the end.
`src/shapes.rs:32,61`, `src/boundary_assemblers/helpers.rs:99-106`. -/
structure Reservation where
  reserved : Nat
  used : Nat
deriving DecidableEq, Repr

/-- The rounds of `regular_sphere` with the reservations for `new_cells`, `src/shapes.rs:59-100`; the capacity is in
line 61. -/
def sphereRounds {T : Type} [Zero T] [One T] [Neg T] [Add T] [Mul T] [Div T] (half : T) (sqrt : T → T)
    (refinementLevel : Nat) : Option (SphereState T × List Reservation) :=
  (List.range refinementLevel).foldlM (fun s level => do
    let r ← refineLevel half sqrt s.1
    some (r, s.2 ++ [⟨8 * 6 ^ level, r.cells.length⟩])) (octahedronStart, [])

/-- The reservations of `regular_sphere`: for the points (`src/shapes.rs:32`) and for the cells of every round
(`src/shapes.rs:61`). -/
def regularSphereReserves {T : Type} [Zero T] [One T] [Neg T] [Add T] [Mul T] [Div T] (half : T) (sqrt : T → T)
    (refinementLevel : Nat) : Option (Reservation × List Reservation) := do
  let s ← sphereRounds half sqrt refinementLevel
  some (⟨2 + 4 ^ (refinementLevel + 1), s.1.points.length⟩, s.2)

/-- The capacity of the vectors `data`, `rows` and `cols` of a batch, `src/boundary_assemblers.rs:630-635`. -/
def batchCapacity {R T : Type} (trial test : Space R T) (pairs : List (Nat × Nat)) (rule : SingRule R T) :
    Option Nat := do
  let rel ← trial.fs.element rule.trialType
  let tel ← test.fs.element rule.testType
  some (pairs.length * rel.dim * tel.dim)

end Bempp
