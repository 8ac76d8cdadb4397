import Verif.Spec.Nested
import Verif.Spec.Positive
/-
Spaces whose functions belong to another space.
-/
namespace Bempp

/-- Every function of the first space is a function of the second one: for all coefficients there are coefficients in the
second space with the same values and first derivatives on every cell. -/
def FunctionSpace.ContainedIn {R T : Type} [AddCommMonoid T] [Mul T] (sub sup : FunctionSpace) (B B' : Basis R T) : Prop :=
  ∀ u, ∃ u', SameFunction sub sup B B' u u'

/-- `uᵀ v`. -/
def dotOf (n : Nat) (u v : Nat → ℝ) : ℝ := ((List.range n).map fun i => u i * v i).sum

/-- `x` is a solution of the linear system `A x = b` with `n` unknowns. -/
def SolvesWith (A : Nat → Nat → ℝ) (n : Nat) (x b : Nat → ℝ) : Prop :=
  ∀ i, i < n → ((List.range n).map fun j => A i j * x j).sum = b i

end Bempp
