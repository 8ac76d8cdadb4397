import Verif.Model.FunctionSpace
import Verif.Spec.Yields
import Verif.Proofs.AssignDofs
/-
Facts about every space that `FunctionSpace::new` can return.
-/
namespace Bempp

theorem yields_bind {α β : Type} {p : Prog α} {f : α → Prog β} {b : β}
    (h : (p >>= f).Yields b) : ∃ a, p.Yields a ∧ (f a).Yields b := by
  change (p.bind f).Yields b at h
  induction p with
  | done a => exact ⟨a, .done a, h⟩
  | panic => cases h
  | send d m k ih =>
    cases h with
    | send h => obtain ⟨a, h1, h2⟩ := ih h; exact ⟨a, .send h1, h2⟩
  | recv s k ih =>
    cases h with
    | recv m h => obtain ⟨a, h1, h2⟩ := ih m h; exact ⟨a, .recv m h1, h2⟩

theorem yields_lift {α : Type} {o : Option α} {a : α} (h : (Prog.lift o).Yields a) : o = some a := by
  cases o with
  | none => cases h
  | some b => cases h; rfl

/-- The local part of a space is what `assign_dofs` returned. -/
theorem new_local {rank size : Nat} {g : Grid} {fam : CellType → ElementDofs} {sp : FunctionSpace}
    (h : (FunctionSpace.new rank size g fam).Yields sp) :
    ∃ dm, assignDofs rank g fam = some dm ∧ sp.entityDofs = dm.entityDofs ∧
      sp.cellDofsVec = dm.cellDofs ∧ sp.localSize = dm.size ∧ sp.grid = g ∧ sp.commSize = size ∧
      sp.elements = (g.entityTypes g.topologyDim).map fun t => (t, fam t) := by
  unfold FunctionSpace.new at h
  obtain ⟨dm, h1, h⟩ := yields_bind h
  have h1 := yields_lift h1
  obtain ⟨off, _, h⟩ := yields_bind h
  obtain ⟨st, _, h⟩ := yields_bind h
  obtain ⟨_, _, h⟩ := yields_bind h
  obtain ⟨gs, _, h⟩ := yields_bind h
  obtain ⟨_, _, h⟩ := yields_bind h
  obtain ⟨_, _, h⟩ := yields_bind h
  obtain ⟨fin, _, h⟩ := yields_bind h
  cases h
  exact ⟨dm, h1, rfl, rfl, rfl, rfl, rfl, rfl⟩

end Bempp
