import Verif.Spec.Positive
import Verif.Spec.Helmholtz
/-
Systems of equations with matrices stored by columns, as assembly returns them.
-/
namespace Bempp

/-- The entry in row `i` and column `j` of a square matrix of size `n` that is stored by columns. -/
def columnEntry (M : List ℂ) (n i j : Nat) : ℂ := M.getD (i + n * j) 0

/-- The linear systems with the real matrix `M`, stored by columns, have exactly one solution for every right-hand side. -/
def RealUniquelySolvable (M : List ℝ) (n : Nat) : Prop :=
  ∀ b : Nat → ℝ, (∃ x, Solves M n x b) ∧ ∀ x y, Solves M n x b → Solves M n y b → ∀ i, i < n → x i = y i

end Bempp
