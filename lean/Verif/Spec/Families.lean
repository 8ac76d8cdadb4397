import Verif.Spec.Builder
/-
The element families that the Python bindings offer.
-/
namespace Bempp

/-- Lagrange elements, continuous (`Continuity::Standard`) or not, and Raviart-Thomas and Nedelec elements (lowest degree:
1). `src/bindings/ndelement.rs:18-43`. -/
inductive StandardFamily where
  | lagrange (degree : Nat)
  | discontinuous (degree : Nat)
  | raviartThomas (degree : Nat)
  | nedelec (degree : Nat)

/-- The degrees that there are. -/
def StandardFamily.Valid : StandardFamily → Prop
  | .lagrange p => 0 < p
  | .discontinuous _ => True
  | .raviartThomas p => 0 < p
  | .nedelec p => 0 < p

/-- The number of polynomials of degree at most `p` in two variables is `(p + 1) (p + 2) / 2`. -/
def trianglePolynomials (p : Nat) : Nat := (p + 1) * (p + 2) / 2

/-- The number of DOFs on each vertex, on each edge and inside of each cell of type `t`. -/
def StandardFamily.counts (F : StandardFamily) (t : CellType) (d : Nat) : Nat :=
  match F, d with
  | .lagrange _, 0 => 1
  | .lagrange p, 1 => p - 1
  | .lagrange p, 2 => if t = .quadrilateral then (p - 1) * (p - 1) else (p - 1) * (p - 2) / 2
  | .discontinuous p, 2 => if t = .quadrilateral then (p + 1) * (p + 1) else trianglePolynomials p
  | .raviartThomas p, 1 => p
  | .raviartThomas p, 2 => if t = .quadrilateral then 2 * (p * (p - 1)) else p * (p - 1)
  | .nedelec p, 1 => p
  | .nedelec p, 2 => if t = .quadrilateral then 2 * (p * (p - 1)) else p * (p - 1)
  | _, _ => 0

/-- The dimension of the element on one cell: all polynomials of degree at most `p` (on quadrilaterals: in each variable),
or vector fields of the given degree. -/
def StandardFamily.dim (F : StandardFamily) (t : CellType) : Nat :=
  match F with
  | .lagrange p => if t = .quadrilateral then (p + 1) * (p + 1) else trianglePolynomials p
  | .discontinuous p => if t = .quadrilateral then (p + 1) * (p + 1) else trianglePolynomials p
  | .raviartThomas p => if t = .quadrilateral then 2 * p * (p + 1) else p * (p + 2)
  | .nedelec p => if t = .quadrilateral then 2 * p * (p + 1) else p * (p + 2)

/-- An element with `k d` DOFs on each sub-entity of dimension `d`, numbered first on the vertices, then on the edges, then
inside. -/
def layeredElement (k : Nat → Nat) (t : CellType) : ElementDofs :=
  { dim := refCount t 0 * k 0 + refCount t 1 * k 1 + refCount t 2 * k 2
    entityDofs := fun d i => if d ≤ 2 ∧ i < refCount t d then
        some (List.range' (((List.range d).map fun e => refCount t e * k e).sum + i * k d) (k d))
      else none }

end Bempp
