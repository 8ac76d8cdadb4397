import Verif.Spec.Positive
/-
Linear systems with complex matrices.
-/
namespace Bempp

/-- Basis functions with real values, as complex numbers. -/
noncomputable def complexBasis (B : Basis ℝ ℝ) : Basis ℝ ℂ := fun t a i x => (B t a i x : ℂ)

/-- `zᴴ A z` for the matrix with entries `A i j`. -/
noncomputable def hermitianForm (A : Nat → Nat → ℂ) (n : Nat) (z : Nat → ℂ) : ℂ :=
  ((List.range n).map fun i => ((List.range n).map fun j => (starRingEnd ℂ) (z i) * z j * A i j).sum).sum

/-- `x` solves the linear system with the matrix `A` and the right-hand side `b`. -/
def SystemSolves (A : Nat → Nat → ℂ) (n : Nat) (x b : Nat → ℂ) : Prop :=
  ∀ i, i < n → ((List.range n).map fun j => A i j * x j).sum = b i

/-- The linear systems with the matrix `A` have exactly one solution for every right-hand side. -/
def UniquelySolvable (A : Nat → Nat → ℂ) (n : Nat) : Prop :=
  ∀ b : Nat → ℂ, (∃ x, SystemSolves A n x b) ∧
    ∀ x y, SystemSolves A n x b → SystemSolves A n y b → ∀ i, i < n → x i = y i

end Bempp
