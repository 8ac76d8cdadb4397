import Verif.Spec.Partition
/-
Which cells the owner of a cell knows, on a distributed grid.
-/
namespace Bempp

/-- The process that owns cell `c0` of the whole grid also has cell `c1` of the whole grid, as its own or as a ghost. -/
def OwnerHas (n : Nat) (G : Nat → Grid) (num : Nat → Nat → Nat → Nat) (c0 c1 : Entity) : Prop :=
  ∃ r, r < n ∧ (∃ c ∈ (G r).entityIter 2, c.ownership = .owned ∧ num r 2 c.localIndex = c0.localIndex) ∧
    ∃ c' ∈ (G r).entityIter 2, num r 2 c'.localIndex = c1.localIndex

end Bempp
