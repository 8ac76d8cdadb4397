import Verif.Spec.Distributed
import Verif.Model.FunctionSpace
/-
A grid and its distribution over `n` processes.
-/
namespace Bempp

/-- The grid `S` is distributed over `n` processes: `G r` is the part of process `r` and entity number `e` of
dimension `d` of this part is entity number `num r d e` of `S`. Cells keep their type and the order of their
sub-entities. Every entity of `S` is owned by exactly one process. A ghost refers to the owner's copy of the same
entity. -/
structure PartOf (n : Nat) (G : Nat → Grid) (S : Grid) (num : Nat → Nat → Nat → Nat) : Prop where
  pos : 0 < n
  whole : S.WF
  parts : ∀ r, r < n → (G r).WF
  types : ∀ r, r < n → ∀ t ∈ (G r).entityTypes 2, t ∈ S.entityTypes 2
  serial : ∀ d, d ≤ 2 → ∀ e ∈ S.entityIter d, e.ownership = .owned
  inj : ∀ r, r < n → ∀ d, d ≤ 2 → ∀ e ∈ (G r).entityIter d, ∀ e' ∈ (G r).entityIter d,
    num r d e.localIndex = num r d e'.localIndex → e.localIndex = e'.localIndex
  cell : ∀ r, r < n → ∀ c ∈ (G r).entityIter 2, ∃ c0 ∈ S.entityIter 2, c0.localIndex = num r 2 c.localIndex ∧
    c0.entityType = c.entityType ∧ ∀ d, d ≤ 2 → c0.sub d = (c.sub d).map (num r d)
  ghost : ∀ r, r < n → ∀ d, d ≤ 2 → ∀ e ∈ (G r).entityIter d, ∀ p i, e.ownership = .ghost p i →
    p < n ∧ p ≠ r ∧ ∃ e' ∈ (G p).entityIter d, e'.localIndex = i ∧ e'.ownership = .owned ∧
      num p d i = num r d e.localIndex
  owner : ∀ d, d ≤ 2 → ∀ e0, e0 < S.count d → ∃ r, r < n ∧
    ∃ e ∈ (G r).entityIter d, e.ownership = .owned ∧ num r d e.localIndex = e0
  owner_unique : ∀ d, d ≤ 2 → ∀ r, r < n → ∀ r', r' < n → ∀ e ∈ (G r).entityIter d, ∀ e' ∈ (G r').entityIter d,
    e.ownership = .owned → e'.ownership = .owned → num r d e.localIndex = num r' d e'.localIndex → r = r'

/-- Around the cells it owns, a process has all cells that touch them. -/
def GhostLayer (n : Nat) (G : Nat → Grid) (S : Grid) (num : Nat → Nat → Nat → Nat) : Prop :=
  ∀ r, r < n → ∀ c ∈ (G r).entityIter 2, c.ownership = .owned → ∀ c0 ∈ S.entityIter 2,
    ∀ c1 ∈ S.entityIter 2, c0.localIndex = num r 2 c.localIndex → (∃ v ∈ c0.sub 0, v ∈ c1.sub 0) →
    ∃ c' ∈ (G r).entityIter 2, num r 2 c'.localIndex = c1.localIndex

/-- `p` translates the global DOF numbers of the spaces `sp r` on the parts of a distributed grid into the DOF numbers
of the space `sS` on the whole grid: it is a bijection between the numbers `0 .. global_size-1`, and basis function `a`
of a cell of a part has the DOF on the whole grid that `p` says. -/
structure Renumbers (n : Nat) (G : Nat → Grid) (num : Nat → Nat → Nat → Nat) (sp : Nat → FunctionSpace)
    (sS : FunctionSpace) (p : Nat → Nat) : Prop where
  size : ∀ r, r < n → (sp r).globalSize = sS.globalSize
  lt : ∀ N, N < sS.globalSize → p N < sS.globalSize
  inj : ∀ N N', N < sS.globalSize → N' < sS.globalSize → p N = p N' → N = N'
  onto : ∀ m, m < sS.globalSize → ∃ N, N < sS.globalSize ∧ p N = m
  cell : ∀ r, r < n → ∀ c ∈ (G r).entityIter 2, ∃ cd cd0, (sp r).cellDofs c.localIndex = some cd ∧
    sS.cellDofs (num r 2 c.localIndex) = some cd0 ∧ cd.length = cd0.length ∧
    ∀ a i : Nat, cd[a]? = some i → ∃ N, (sp r).globalDofIndex i = some N ∧ N < sS.globalSize ∧ cd0[a]? = some (p N)

end Bempp
