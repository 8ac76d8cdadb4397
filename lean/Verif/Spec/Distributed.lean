import Verif.Spec.Contract
/-
Contract of a grid that is distributed over `n` processes (ndgrid's parallel grid).
-/
namespace Bempp

/-- `G r` is the part of the grid on process `r < n`. Every part is a grid; the element family is
compatible with it (`nd r d e` DOFs on entity `(d, e)` of process `r`); an entity that is a ghost of
entity `i` of process `p` refers to an entity that exists on `p`, is owned by `p` and carries as many
DOFs; different entities are ghosts of different entities. -/
structure Distributed (n : Nat) (G : Nat → Grid) (fam : CellType → ElementDofs)
    (nd : Nat → Nat → Nat → Nat) : Prop where
  pos : 0 < n
  wf : ∀ r, r < n → (G r).WF
  family : ∀ r, r < n → FamilyOn (G r) fam (nd r)
  ghost : ∀ r, r < n → ∀ d, d ≤ 2 → ∀ e ∈ (G r).entityIter d, ∀ p i, e.ownership = .ghost p i →
    p < n ∧ p ≠ r ∧ (∃ e' ∈ (G p).entityIter d, e'.localIndex = i ∧ e'.ownership = .owned) ∧
    nd p d i = nd r d e.localIndex
  ghost_inj : ∀ r, r < n → ∀ d, d ≤ 2 → ∀ e ∈ (G r).entityIter d, ∀ e' ∈ (G r).entityIter d,
    ∀ p i, e.ownership = .ghost p i → e'.ownership = .ghost p i → e.localIndex = e'.localIndex

/-- The number of DOFs on the part `g` of the grid that belong to process `p` (and not to the process of the part). -/
def ghostDofs (g : Grid) (nd : Nat → Nat → Nat) (p : Nat) : Nat :=
  ((List.range 3).map fun d => ((g.entityIter d).map fun e => match e.ownership with
    | .ghost q _ => if q = p then nd d e.localIndex else 0
    | .owned => 0).sum).sum

end Bempp
