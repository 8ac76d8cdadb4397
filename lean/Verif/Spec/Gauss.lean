import Verif.Spec.Convergence
/-
Integrals of basis functions over a surface.
-/
namespace Bempp
open MeasureTheory

/-- The basis functions of cells of type `t` add up to 1. -/
def ValuesSumOne (B : Basis ℝ ℝ) (t : CellType) (dim : Nat) : Prop :=
  ∀ z ∈ refCell t, ((List.range dim).map fun b => B t b 0 (pointList z)).sum = 1

/-- The integral over the surface of the function with coefficient 1 for DOF `i` and 0 for all others: the sum over all
cells and all local basis functions that belong to DOF `i`. -/
noncomputable def FunctionSpace.surfaceIntegral (fs : FunctionSpace) (B : Basis ℝ ℝ) (G : Geometry ℝ) (t : CellType)
    (i : Nat) : ℝ :=
  ((fs.grid.entityIter 2).map fun c => (((fs.cellDofs c.localIndex).getD []).zipIdx.map fun (ia : Nat × Nat) =>
    if ia.1 = i then ∫ z in refCell t, B t ia.2 0 (pointList z) * G.jdet c.localIndex (pointList z) else 0).sum).sum

/-- The area of the surface. -/
noncomputable def surfaceArea (g : Grid) (G : Geometry ℝ) (t : CellType) : ℝ :=
  ((g.entityIter 2).map fun c => ∫ z in refCell t, G.jdet c.localIndex (pointList z)).sum

/-- The sum of all entries of a matrix with `m` rows and `n` columns, stored column after column. -/
def matrixTotal (m n : Nat) (M : List ℝ) : ℝ :=
  ((List.range m).map fun i => ((List.range n).map fun j => M.getD (i + m * j) 0).sum).sum

end Bempp
