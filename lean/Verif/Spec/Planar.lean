import Verif.Spec.Assembly
import Verif.Spec.Green
/-
Surfaces that are part of a plane.
-/
namespace Bempp

/-- All points of the cells of `g` are at the same height `h`, and the normals point upwards. -/
structure Horizontal (G : Geometry ℝ) (g : Grid) (h : ℝ) : Prop where
  height : ∀ c ∈ g.entityIter 2, ∀ x, G.point c.localIndex x 2 = h
  normal : ∀ c ∈ g.entityIter 2, ∀ x, G.normal c.localIndex x 0 = 0 ∧ G.normal c.localIndex x 1 = 0 ∧
    G.normal c.localIndex x 2 = 1

/-- The third derivative of the kernel vanishes for points at the same height. -/
def LevelKernel {T : Type} [Zero T] (K : MathKernel ℝ T) : Prop :=
  ∀ x y, x.getD 2 0 = y.getD 2 0 → K x y 3 = 0

end Bempp
