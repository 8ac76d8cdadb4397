import Verif.Spec.Shapes
import Mathlib.Analysis.SpecialFunctions.Trigonometric.Inverse
/-
Lengths and angles.
-/
namespace Bempp

/-- The square of the distance of two points. -/
def Vec.distSq (a b : Vec) : ℝ := Vec.dot (a - b) (a - b)

/-- The angle at corner `a` of the triangle `a`, `b`, `c`, in radians. -/
noncomputable def Vec.angleAt (a b c : Vec) : ℝ :=
  Real.arccos (Vec.dot (b - a) (c - a) / (Real.sqrt (Vec.distSq b a) * Real.sqrt (Vec.distSq c a)))

end Bempp
