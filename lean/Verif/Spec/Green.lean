import Verif.Spec.Motion
import Mathlib.Analysis.SpecialFunctions.Sqrt
import Mathlib.Analysis.Complex.Exponential
import Mathlib.Analysis.Real.Pi.Bounds
/-
The Green's functions of the Laplace and the Helmholtz equation in three dimensions, in exact arithmetic.
`green_kernels::laplace_3d` and `green_kernels::helmholtz_3d` (outside the repository) evaluate rounded versions of them;
they are used by src/boundary_assemblers.rs:40-70 and src/helmholtz.rs, src/laplace.rs. Like the crate, they are 0 for
coinciding points, and their derivatives are those with respect to the target, which is the second point: assembly passes
the test points as sources and the trial points as targets (src/boundary_assemblers/cell_pair_assemblers.rs:110-114,284-288).
-/
namespace Bempp

/-- The difference of two points. -/
def pointDiff (x y : List ℝ) (i : Nat) : ℝ := x.getD i 0 - y.getD i 0

/-- The distance of two points. -/
noncomputable def pointDist (x y : List ℝ) : ℝ :=
  Real.sqrt (pointDiff x y 0 ^ 2 + pointDiff x y 1 ^ 2 + pointDiff x y 2 ^ 2)

/-- `1 / (4 π r)` and its gradient with respect to the second point. -/
noncomputable def laplaceGreen : MathKernel ℝ ℝ := fun x y i =>
  match i with
  | 0 => 1 / (4 * Real.pi * pointDist x y)
  | j + 1 => pointDiff x y j / (4 * Real.pi * pointDist x y ^ 3)

/-- The same with complex values. -/
noncomputable def laplaceGreenC : MathKernel ℝ ℂ := fun x y i => (laplaceGreen x y i : ℂ)

/-- `e^(i k r) / (4 π r)` and its gradient with respect to the second point. -/
noncomputable def helmholtzGreen (k : ℝ) : MathKernel ℝ ℂ := fun x y i =>
  let r : ℂ := pointDist x y
  let e := Complex.exp (Complex.I * k * r)
  match i with
  | 0 => e / (4 * Real.pi * r)
  | j + 1 => (1 - Complex.I * k * r) * e * pointDiff x y j / (4 * Real.pi * r ^ 3)

end Bempp
