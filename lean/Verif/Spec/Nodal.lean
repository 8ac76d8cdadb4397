import Verif.Spec.Lagrange
import Verif.Spec.Positive
import Mathlib.Analysis.Calculus.Deriv.Basic
/-
Lagrange elements of all degrees: points, values and derivatives.
-/
namespace Bempp

/-- `n / p` is one of the points of the Lagrange elements of degree `p`. -/
def NodalPoint (p : Nat) (t : CellType) (n : Nat × Nat) : Prop :=
  if t = .quadrilateral then n.1 ≤ p ∧ n.2 ≤ p else n.1 + n.2 ≤ p

/-- The point of the reference cell. -/
noncomputable def nodePoint (p : Nat) (n : Nat × Nat) : ℝ × ℝ := ((n.1 : ℝ) / p, (n.2 : ℝ) / p)

/-- The basis functions of the Lagrange elements of degree `p`, continuous or discontinuous: there are as many of them as
points, different ones belong to different points, and each is the polynomial that is 1 at its own point and 0 at the others.
The derivatives are the derivatives of these polynomials. -/
structure NodalBasis (p : Nat) (t : CellType) (dim : Nat) (B : Basis ℝ ℝ) (node : Nat → Nat × Nat) : Prop where
  count : dim = (StandardFamily.lagrange p).dim t
  point : ∀ a, a < dim → NodalPoint p t (node a)
  injective : ∀ a a', a < dim → a' < dim → node a = node a' → a = a'
  value : ∀ a, a < dim → ∀ x, B t a 0 x = lagrangeFunction p t (node a) (x.getD 0 0, x.getD 1 0)
  first : ∀ a, a < dim → ∀ x,
    HasDerivAt (fun y => lagrangeFunction p t (node a) (y, x.getD 1 0)) (B t a 1 x) (x.getD 0 0)
  second : ∀ a, a < dim → ∀ x,
    HasDerivAt (fun y => lagrangeFunction p t (node a) (x.getD 0 0, y)) (B t a 2 x) (x.getD 1 0)

end Bempp
