import Verif.Spec.Builder
import Verif.Spec.Vertices
/-
The surfaces made from the shapes of the library.
-/
namespace Bempp

/-- `s` is the sphere of level `n` or a screen of `n` times `n` squares, in exact arithmetic; its cells are of type `t`. -/
def LibraryShape (n : Nat) (t : CellType) (s : Shape ℝ) : Prop :=
  realSphere n = some s ∧ t = .triangle ∨ screenTriangles (fun k => (k : ℝ)) n = some s ∧ t = .triangle ∨
    screenQuadrilaterals (fun k => (k : ℝ)) n = some s ∧ t = .quadrilateral

/-- How cells are parametrised: triangles are flat, quadrilaterals are bilinear. -/
def cellFunctions : CellType → ShapeFunctions
  | .quadrilateral => quadrilateralFunctions
  | _ => triangleFunctions

/-- On the grid `g` made from the shape `s`, vertex number `k` of every cell has the coordinates of its point. -/
def HasCorners (s : Shape ℝ) (g : Grid) (pt : Nat → Nat) (V : Nat → Nat → Nat → ℝ) : Prop :=
  ∀ c ∈ g.entityIter 2, ∀ k v p, (c.sub 0)[k]? = some v → s.at (pt v) = some p →
    V c.localIndex k 0 = p.1 ∧ V c.localIndex k 1 = p.2.1 ∧ V c.localIndex k 2 = p.2.2

end Bempp
