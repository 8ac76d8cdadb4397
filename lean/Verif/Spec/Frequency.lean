import Verif.Spec.Decay
/-
How large pairs of basis functions are, with the quadrature rules of assembly. In exact arithmetic.
-/
namespace Bempp

/-- The quadrature of `size` for basis function `a` on cell `c` and basis function `b` on cell `c'`, with the absolute
values of the weights of the rules that assembly uses for these cells. -/
def absPairValue (GT GR : Geometry ℝ) (Q : Quadrature ℝ) (test trial : FunctionSpace)
    (size : Entity → Entity → Nat → Nat → List ℝ → List ℝ → ℝ) (c c' : Entity) (a b : Nat) : ℝ :=
  if test.grid.addr = trial.grid.addr ∧ c.Touches c' then
    ((Q.singular c.entityType c'.entityType (connectivity c c')).map fun p =>
      |p.2.2 * (GT.jdet c.localIndex p.1 * GR.jdet c'.localIndex p.2.1)| * size c c' a b p.1 p.2.1).sum
  else ((Q.regular c.entityType).map fun p => ((Q.regular c'.entityType).map fun q =>
    |p.2 * GT.jdet c.localIndex p.1| * |q.2 * GR.jdet c'.localIndex q.1| * size c c' a b p.1 q.1).sum).sum

section
variable (GT GR : Geometry ℝ) (BT BR : Basis ℝ ℂ) (Q : Quadrature ℝ) (test trial : FunctionSpace) (i j : Nat)

/-- The double quadrature of the absolute value of the product of the functions of the DOFs `i` and `j`. -/
noncomputable def pairMass : ℝ := doubleSum test trial (absPairValue GT GR Q test trial
  fun c c' a b x y => ‖BT c.entityType a 0 x‖ * ‖BR c'.entityType b 0 y‖) i j

/-- The double quadrature of the product of the lengths of their surface curls. -/
noncomputable def pairCurl : ℝ := doubleSum test trial (absPairValue GT GR Q test trial
  fun c c' a b x y => curlSize GT BT c.entityType c.localIndex a x * curlSize GR BR c'.entityType c'.localIndex b y) i j

/-- The double quadrature of the absolute value of their product with the Laplace kernel. -/
noncomputable def pairPotential : ℝ := doubleSum test trial (absPairValue GT GR Q test trial
  fun c c' a b x y => laplaceGreen (GT.coords c.localIndex x) (GR.coords c'.localIndex y) 0 *
    (‖BT c.entityType a 0 x‖ * ‖BR c'.entityType b 0 y‖)) i j

end
end Bempp
