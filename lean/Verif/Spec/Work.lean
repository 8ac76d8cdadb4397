/-
How work is divided.
-/
namespace Bempp

/-- The number of groups that are needed to divide `n` things into groups of at most `b`. -/
def groups (n b : Nat) : Nat := (n + b - 1) / b

end Bempp
