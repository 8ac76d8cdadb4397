import Verif.Model.Shapes
import Mathlib.Analysis.Real.Sqrt
import Mathlib.Logic.Relation
/-
What is said about shapes.
-/
namespace Bempp

/-- The boundary of a cell as directed edges. The points of a quadrilateral are in tensor product order:
the boundary is 0, 1, 3, 2. -/
def cellEdges : List Nat → List (Nat × Nat)
  | [a, b, c] => [(a, b), (b, c), (c, a)]
  | [a, b, c, d] => [(a, b), (b, d), (d, c), (c, a)]
  | _ => []

/-- All directed edges of all cells. -/
def Shape.edges {T : Type} (s : Shape T) : List (Nat × Nat) := s.cells.flatMap fun c => cellEdges c.2

/-- Points and cells are added with the numbers 0, 1, 2, … in order. -/
def Shape.Numbered {T : Type} (s : Shape T) : Prop :=
  s.points.map Prod.fst = List.range s.points.length ∧ s.cells.map Prod.fst = List.range s.cells.length

/-- Every cell refers to existing points, and every point belongs to a cell. -/
def Shape.Complete {T : Type} (s : Shape T) : Prop :=
  (∀ c ∈ s.cells, ∀ v ∈ c.2, v < s.points.length) ∧ ∀ v, v < s.points.length → ∃ c ∈ s.cells, v ∈ c.2

/-- Any two points are joined by a path of edges. -/
def Shape.Connected {T : Type} (s : Shape T) : Prop :=
  ∀ u v, u < s.points.length → v < s.points.length → Relation.ReflTransGen (fun a b => (a, b) ∈ s.edges) u v

/-- The coordinates of a point. -/
def Shape.at {T : Type} (s : Shape T) (v : Nat) : Option (T × T × T) := (s.points[v]?).map Prod.snd

abbrev Vec := ℝ × ℝ × ℝ

def Vec.dot (a b : Vec) : ℝ := a.1 * b.1 + a.2.1 * b.2.1 + a.2.2 * b.2.2

def Vec.cross (a b : Vec) : Vec :=
  (a.2.1 * b.2.2 - a.2.2 * b.2.1, a.2.2 * b.1 - a.1 * b.2.2, a.1 * b.2.1 - a.2.1 * b.1)

/-- `regular_sphere` in exact arithmetic. -/
noncomputable def realSphere (n : Nat) : Option (Shape ℝ) := regularSphere (1 / 2) Real.sqrt n

/-- `x` is the combination of the points in `c` with the coefficients `f ≥ 0`: a point of the cone over the
cell. -/
def Shape.Combination (s : Shape ℝ) (c : List Nat) (f : Nat → ℝ) (x : Vec) : Prop :=
  (∀ v, 0 ≤ f v) ∧ (∀ v, v ∉ c → f v = 0) ∧ x = (c.map fun v => f v • (s.at v).getD 0).sum

/-- `x` is the point of the triangle `c` with barycentric coordinates `f`. -/
def Shape.InTriangle (s : Shape ℝ) (c : List Nat) (f : Nat → ℝ) (x : Vec) : Prop :=
  s.Combination c f x ∧ (c.map f).sum = 1

/-- `x` is the point of the bilinear quadrilateral `c` with reference coordinates `p` and `q`; `f` are the values
of the four bilinear functions. -/
def Shape.InQuadrilateral (s : Shape ℝ) (c : List Nat) (f : Nat → ℝ) (x : Vec) : Prop :=
  s.Combination c f x ∧ ∃ p q, 0 ≤ p ∧ p ≤ 1 ∧ 0 ≤ q ∧ q ≤ 1 ∧
    c.map f = [(1 - p) * (1 - q), p * (1 - q), (1 - p) * q, p * q]

/-- Twice the area vector of a cell: the cross product of two sides of a triangle, or of the diagonals of a
quadrilateral. -/
def Shape.areaVector (s : Shape ℝ) : List Nat → Vec
  | [a, b, c] => Vec.cross ((s.at b).getD 0 - (s.at a).getD 0) ((s.at c).getD 0 - (s.at a).getD 0)
  | [a, b, c, d] => Vec.cross ((s.at d).getD 0 - (s.at a).getD 0) ((s.at c).getD 0 - (s.at b).getD 0)
  | _ => 0

/-- An edge on the boundary of the square with corners (0, 0) and (r, r). -/
def OnBoundary (r : ℝ) (a b : Vec) : Prop :=
  (a.1 = 0 ∧ b.1 = 0) ∨ (a.1 = r ∧ b.1 = r) ∨ (a.2.1 = 0 ∧ b.2.1 = 0) ∨ (a.2.1 = r ∧ b.2.1 = r)

end Bempp
