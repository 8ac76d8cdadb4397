import Verif.Spec.Motion
import Mathlib.Analysis.Real.Sqrt
/-
Surfaces given by the coordinates of the vertices of their cells, in exact real arithmetic.
-/
namespace Bempp

/-- The functions by which a cell is parametrised: how many vertices it has, the function of vertex `k` and its
derivative in direction `j`. -/
structure ShapeFunctions where
  n : Nat
  value : Nat → List ℝ → ℝ
  deriv : Nat → Nat → List ℝ → ℝ

/-- The functions add up to 1, and their derivatives to 0. -/
structure ShapeFunctions.SumToOne (N : ShapeFunctions) : Prop where
  value : ∀ x, ((List.range N.n).map fun k => N.value k x).sum = 1
  deriv : ∀ j x, ((List.range N.n).map fun k => N.deriv j k x).sum = 0

/-- Flat triangles. -/
def triangleFunctions : ShapeFunctions :=
  { n := 3
    value := fun k x => match k with
      | 0 => 1 - x.getD 0 0 - x.getD 1 0
      | 1 => x.getD 0 0
      | _ => x.getD 1 0
    deriv := fun j k _ => match k, j with
      | 0, _ => -1
      | 1, 0 => 1
      | 1, _ => 0
      | _, 0 => 0
      | _, _ => 1 }

/-- Bilinear quadrilaterals, with the vertices in tensor product order. -/
def quadrilateralFunctions : ShapeFunctions :=
  { n := 4
    value := fun k x =>
      (if k % 2 = 0 then 1 - x.getD 0 0 else x.getD 0 0) * (if k < 2 then 1 - x.getD 1 0 else x.getD 1 0)
    deriv := fun j k x =>
      if j = 0 then (if k % 2 = 0 then -1 else 1) * (if k < 2 then 1 - x.getD 1 0 else x.getD 1 0)
      else (if k % 2 = 0 then 1 - x.getD 0 0 else x.getD 0 0) * (if k < 2 then -1 else 1) }

/-- Components of the cross product. -/
def cross3 (u v : Nat → ℝ) : Nat → ℝ
  | 0 => u 1 * v 2 - u 2 * v 1
  | 1 => u 2 * v 0 - u 0 * v 2
  | _ => u 0 * v 1 - u 1 * v 0

/-- The Euclidean norm. -/
noncomputable def norm3 (u : Nat → ℝ) : ℝ := Real.sqrt (u 0 * u 0 + u 1 * u 1 + u 2 * u 2)

/-- The surface on which vertex `k` of cell `c` has the coordinates `V c k`: points and tangents are combinations of
the vertices, the integration element is the length of the cross product of the two tangents, and the normal is that
cross product divided by its length. -/
noncomputable def vertexGeometry (N : ShapeFunctions) (V : Nat → Nat → Nat → ℝ) : Geometry ℝ :=
  let tangent (c : Nat) (x : List ℝ) (j i : Nat) := ((List.range N.n).map fun k => N.deriv j k x * V c k i).sum
  { point := fun c x i => ((List.range N.n).map fun k => N.value k x * V c k i).sum
    jacobian := fun c x m => tangent c x (m / 3) (m % 3)
    jdet := fun c x => norm3 (cross3 (tangent c x 0) (tangent c x 1))
    normal := fun c x i => cross3 (tangent c x 0) (tangent c x 1) i / norm3 (cross3 (tangent c x 0) (tangent c x 1)) }

/-- The determinant of `A`. -/
def detA (A : Nat → Nat → ℝ) : ℝ :=
  A 0 0 * (A 1 1 * A 2 2 - A 1 2 * A 2 1) - A 0 1 * (A 1 0 * A 2 2 - A 1 2 * A 2 0) +
    A 0 2 * (A 1 0 * A 2 1 - A 1 1 * A 2 0)

/-- The vertices `V'` of the second surface are the images under `x ↦ s A x + b` of the vertices `V` of the first one;
cell `c` of the first one is cell `num c` of the second one. -/
def MovedVertices (s : ℝ) (A : Nat → Nat → ℝ) (b : Nat → ℝ) (g : Grid) (num : Nat → Nat) (n : Nat)
    (V V' : Nat → Nat → Nat → ℝ) : Prop :=
  ∀ c ∈ g.entityIter 2, ∀ k i, k < n → i < 3 →
    V' (num c.localIndex) k i = s * matVec A (V c.localIndex k) i + b i

end Bempp
