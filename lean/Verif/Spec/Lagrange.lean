import Verif.Spec.Nested
import Verif.Spec.ShapeSurface
import Verif.Spec.Families
import Verif.Spec.Convergence
import Mathlib.Algebra.BigOperators.Ring.Finset
/-
Lagrange elements, and functions that are continuous on a surface.
-/
namespace Bempp

/-- The corners of the reference cells. -/
def refCorner : CellType → Nat → Nat × Nat
  | .quadrilateral, k => (k % 2, k / 2)
  | _, 0 => (0, 0)
  | _, 1 => (1, 0)
  | _, _ => (0, 1)

/-- `n / p` is the point of DOF number `k` of sub-entity number `i` of dimension `d`, in a Lagrange element of degree `p`: one
point on each corner; on each edge `p - 1` points from its first to its second end in the numbering of the reference cell; the
other points are inside. -/
def LagrangePoint (p : Nat) (t : CellType) (d i k : Nat) (n : Nat × Nat) : Prop :=
  match d with
  | 0 => n = (p * (refCorner t i).1, p * (refCorner t i).2)
  | 1 => ∃ a b, (refEdges t)[i]? = some (a, b) ∧
      n = ((p - 1 - k) * (refCorner t a).1 + (k + 1) * (refCorner t b).1,
        (p - 1 - k) * (refCorner t a).2 + (k + 1) * (refCorner t b).2)
  | _ => 0 < n.1 ∧ 0 < n.2 ∧ if t = .quadrilateral then n.1 < p ∧ n.2 < p else n.1 + n.2 < p

/-- The polynomial of degree `i` that is 0 at `0, 1/p, .., (i-1)/p` and 1 at `i/p`. -/
noncomputable def ramp (p i : Nat) (z : ℝ) : ℝ := ∏ m ∈ Finset.range i, ((p : ℝ) * z - m) / (m + 1)

/-- The polynomial that is 1 at the point `n / p` and 0 at the other points of the element of degree `p` (see
`lagrangeFunction_nodes`). -/
noncomputable def lagrangeFunction (p : Nat) (t : CellType) (n : Nat × Nat) (z : ℝ × ℝ) : ℝ :=
  match t with
  | .quadrilateral => ramp p n.1 z.1 * ramp p (p - n.1) (1 - z.1) * (ramp p n.2 z.2 * ramp p (p - n.2) (1 - z.2))
  | _ => ramp p (p - n.1 - n.2) (1 - z.1 - z.2) * ramp p n.1 z.1 * ramp p n.2 z.2

/-- The continuous Lagrange element of degree `p` on cells of type `t` (`ndelement`'s `LagrangeElementFamily` with
`Continuity::Standard` uses equally spaced points). -/
structure LagrangeElement (p : Nat) (t : CellType) (el : ElementDofs) (B : Basis ℝ ℝ) : Prop where
  degree : 0 < p
  uniform : el.Uniform t ((StandardFamily.lagrange p).counts t)
  basis : ∀ d, d ≤ 2 → ∀ i, i < refCount t d → ∀ l, el.entityDofs d i = some l → ∀ k a : Nat, l[k]? = some a →
    ∃ n, LagrangePoint p t d i k n ∧ ∀ z, B t a 0 (pointList z) = lagrangeFunction p t n z

/-- The point of the surface that belongs to a point of the reference cell. -/
def surfacePoint (G : Geometry ℝ) (c : Nat) (z : ℝ × ℝ) : ℝ × ℝ × ℝ :=
  (G.point c (pointList z) 0, G.point c (pointList z) 1, G.point c (pointList z) 2)

/-- The function with the coefficients `u` is a continuous function on the surface: there is a function of points in space,
continuous on the surface, that has the values that one gets on each cell. -/
def FunctionSpace.ContinuousFunction (sp : FunctionSpace) (G : Geometry ℝ) (t : CellType) (B : Basis ℝ ℝ) (u : Nat → ℝ) :
    Prop :=
  ∃ F : ℝ × ℝ × ℝ → ℝ,
    ContinuousOn F {x | ∃ c ∈ sp.grid.entityIter 2, ∃ z ∈ refCell t, x = surfacePoint G c.localIndex z} ∧
    ∀ c ∈ sp.grid.entityIter 2, ∀ z ∈ refCell t, F (surfacePoint G c.localIndex z) = sp.functionOn B u c 0 (pointList z)

/-- All cells go through common edges in the same direction: no edge has first end `v` and second end `w` in one cell and first
end `w` and second end `v` in another one. -/
def Shape.EdgesAgree {T : Type} (s : Shape T) (t : CellType) : Prop :=
  ∀ c ∈ s.cells, ∀ c' ∈ s.cells, ∀ e ∈ refEdges t, ∀ e' ∈ refEdges t, ∀ v w : Nat,
    c.2[e.1]? = some v → c.2[e.2]? = some w → ¬ (c'.2[e'.1]? = some w ∧ c'.2[e'.2]? = some v)

end Bempp
