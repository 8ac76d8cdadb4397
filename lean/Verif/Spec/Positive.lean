import Verif.Spec.Convergence
import Verif.Spec.Nested
/-
Matrices that belong to invertible systems.
-/
namespace Bempp
open MeasureTheory

/-- Different cells of the surface have at most a set of measure 0 in common. -/
def NoOverlap (G : Geometry ℝ) (t : CellType) (g : Grid) : Prop :=
  ∀ c ∈ g.entityIter 2, ∀ c' ∈ g.entityIter 2, c ≠ c' →
    volume {x ∈ refCell t | ∃ y ∈ refCell t,
      G.coords c.localIndex (pointList x) = G.coords c'.localIndex (pointList y)} = 0

/-- A combination of the basis functions that is 0 everywhere has coefficients 0. -/
def IndependentBasis (B : Basis ℝ ℝ) (t : CellType) (dim : Nat) : Prop :=
  ∀ w : Nat → ℝ, (∀ z ∈ refCell t, ((List.range dim).map fun a => w a * B t a 0 (pointList z)).sum = 0) →
    ∀ a, a < dim → w a = 0

/-- `uᵀ A v` for the matrix with entries `A i j`. -/
def bilinear (A : Nat → Nat → ℝ) (n : Nat) (u v : Nat → ℝ) : ℝ :=
  ((List.range n).map fun i => ((List.range n).map fun j => u i * v j * A i j).sum).sum

/-- `uᵀ u`. -/
def sumSq (n : Nat) (u : Nat → ℝ) : ℝ := ((List.range n).map fun i => u i * u i).sum

/-- `x` solves the linear system with the matrix `M`, stored by columns, and the right-hand side `b`. -/
def Solves (M : List ℝ) (n : Nat) (x b : Nat → ℝ) : Prop :=
  ∀ i, i < n → ((List.range n).map fun j => M.getD (i + n * j) 0 * x j).sum = b i

/-- A combination of the basis functions whose derivatives are 0 everywhere has equal coefficients. -/
def GradientBasis (B : Basis ℝ ℝ) (t : CellType) (dim : Nat) : Prop :=
  ∀ w : Nat → ℝ, (∀ z ∈ refCell t, ((List.range dim).map fun a => w a * B t a 1 (pointList z)).sum = 0 ∧
    ((List.range dim).map fun a => w a * B t a 2 (pointList z)).sum = 0) → ∀ a b, a < dim → b < dim → w a = w b

/-- The mean of the entries of a vector. -/
noncomputable def mean (n : Nat) (u : Nat → ℝ) : ℝ := ((List.range n).map u).sum / n

end Bempp
