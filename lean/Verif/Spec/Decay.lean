import Verif.Spec.Green
import Verif.Spec.Dense
import Verif.Spec.Operators
import Mathlib.Analysis.RCLike.Basic
/-
Basis functions that are far apart, and how large they are. In exact arithmetic. `t` is the type of the cells.
-/
namespace Bempp

/-- The sum, over all cells and all basis functions on them that belong to DOF `i`, of the quadrature of `size` with the
absolute values of the weights. -/
def dofQuadrature (fs : FunctionSpace) (G : Geometry ℝ) (Q : Quadrature ℝ) (t : CellType)
    (size : Nat → Nat → List ℝ → ℝ) (i : Nat) : ℝ :=
  ((fs.grid.entityIter 2).map fun c => ((((fs.cellDofs c.localIndex).getD []).zipIdx).map fun (ia : Nat × Nat) =>
    if ia.1 = i then ((Q.regular t).map fun p => |p.2 * G.jdet c.localIndex p.1| * size c.localIndex ia.2 p.1).sum
    else 0).sum).sum

variable {𝕜 : Type} [RCLike 𝕜]

/-- The quadrature of the absolute value of the function of DOF `i`. -/
def dofMass (fs : FunctionSpace) (G : Geometry ℝ) (B : Basis ℝ 𝕜) (Q : Quadrature ℝ) (t : CellType) (i : Nat) : ℝ :=
  dofQuadrature fs G Q t (fun _ a x => ‖B t a 0 x‖) i

/-- The length of the surface curl of basis function `a` at the point `x` of cell `c`. -/
noncomputable def curlSize (G : Geometry ℝ) (B : Basis ℝ 𝕜) (t : CellType) (c a : Nat) (x : List ℝ) : ℝ :=
  Real.sqrt (‖surfaceCurl (G.data (fun r : ℝ => (r : 𝕜)) c x) (fun d => B t a d x) 0‖ ^ 2 +
    ‖surfaceCurl (G.data (fun r : ℝ => (r : 𝕜)) c x) (fun d => B t a d x) 1‖ ^ 2 +
    ‖surfaceCurl (G.data (fun r : ℝ => (r : 𝕜)) c x) (fun d => B t a d x) 2‖ ^ 2) / |G.jdet c x|

/-- The quadrature of the length of the surface curl of the function of DOF `i`. -/
noncomputable def dofCurl (fs : FunctionSpace) (G : Geometry ℝ) (B : Basis ℝ 𝕜) (Q : Quadrature ℝ) (t : CellType)
    (i : Nat) : ℝ :=
  dofQuadrature fs G Q t (curlSize G B t) i

/-- The functions of the DOFs `i` and `j` are at least `d` apart: no cell of one touches a cell of the other, and the
distance of a quadrature point of one to a quadrature point of the other is at least `d`. -/
def FarApart (d : ℝ) (test trial : FunctionSpace) (GT GR : Geometry ℝ) (Q : Quadrature ℝ) (t : CellType) (i j : Nat) :
    Prop :=
  ∀ c ∈ test.grid.entityIter 2, ∀ c' ∈ trial.grid.entityIter 2, i ∈ (test.cellDofs c.localIndex).getD [] →
    j ∈ (trial.cellDofs c'.localIndex).getD [] → ¬ (test.grid.addr = trial.grid.addr ∧ c.Touches c') ∧
      ∀ p ∈ Q.regular t, ∀ q ∈ Q.regular t, d ≤ pointDist (GT.coords c.localIndex p.1) (GR.coords c'.localIndex q.1)

/-- The normals are not longer than 1. -/
def UnitNormals (G : Geometry ℝ) : Prop := ∀ c x, G.normal c x 0 ^ 2 + G.normal c x 1 ^ 2 + G.normal c x 2 ^ 2 ≤ 1

end Bempp
