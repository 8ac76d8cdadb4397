import Verif.Proofs.Space
import Verif.Proofs.Number
import Verif.Spec.Examples
/-
C01-C05, C18: the DOF map of a function space.

In every theorem `sp` is any function space that process `rank` of `size` can obtain from
`FunctionSpace::new`, whatever the other processes send to it (`Yields`). That `new` does return is
the last part of C03 for one process and C21 for several.
-/
namespace Bempp
open Examples

variable {rank size : Nat} {g : Grid} {fam : CellType → ElementDofs} {nd : Nat → Nat → Nat}
  {sp : FunctionSpace}

/-- The facts the loop invariant gives about a space. -/
theorem space_inv (wf : g.WF) (fo : FamilyOn g fam nd)
    (h : (FunctionSpace.new rank size g fam).Yields sp) :
    ∃ dm, DofInv rank g nd (allVisits g fam) dm ∧ sp.entityDofs = dm.entityDofs ∧
      sp.cellDofsVec = dm.cellDofs ∧ sp.localSize = dm.size ∧
      ∀ c ∈ g.entityIter 2, ∃ row, dm.cellDofs[c.localIndex]? = some row ∧
        row.length = (fam c.entityType).dim := by
  obtain ⟨dm, h1, h2, h3, h4, _⟩ := new_local h
  obtain ⟨dm', h5, h6, h7⟩ := assignDofs_inv rank g fam nd wf fo
  rw [h1] at h5
  cases h5
  exact ⟨dm, h6, h2, h3, h4, h7⟩

theorem cellDofs_eq (sp : FunctionSpace) (c : Nat) : sp.cellDofs c = sp.cellDofsVec[c]? := by
  unfold FunctionSpace.cellDofs
  split
  · rfl
  · rename_i h; exact (List.getElem?_eq_none (by omega)).symm

/-- **C01.** `get_local_dof_numbers(d, e)` answers exactly for the entities of the grid; every number
below `local_size()` is in exactly one place of exactly one of these lists; nothing else is. -/
theorem C01_numbering_bijection (wf : g.WF) (fo : FamilyOn g fam nd)
    (h : (FunctionSpace.new rank size g fam).Yields sp) :
    (∀ d e, (sp.getLocalDofNumbers d e).isSome ↔ d ≤ 2 ∧ e < g.count d) ∧
    (∀ n, n < sp.localSize → ∃! x : Nat × Nat × Nat,
      ∃ l, sp.getLocalDofNumbers x.1 x.2.1 = some l ∧ l[x.2.2]? = some n) ∧
    (∀ d e l, sp.getLocalDofNumbers d e = some l → ∀ n ∈ l, n < sp.localSize) := by
  obtain ⟨dm, inv, hE, hC, hS, _⟩ := space_inv wf fo h
  have hget : ∀ d e, sp.getLocalDofNumbers d e = dm.ent d e := by
    intro d e; simp [FunctionSpace.getLocalDofNumbers, DofState.ent, hE]
  obtain ⟨loc, hl1, _, hl3, _⟩ := inv.loc
  refine ⟨?_, ?_, ?_⟩
  · intro d e
    rw [hget]
    unfold DofState.ent
    by_cases hd : d ≤ 2
    · obtain ⟨X, hX, hXl⟩ := inv.shape d hd
      simp [hX, hd, hXl]
    · by_cases hd3 : d = 3
      · subst hd3; simp [inv.shape3]
      · rw [List.getElem?_eq_none (by have := inv.shape0; omega)]
        simp [hd]
  · intro n hn
    rw [hS, ← hl1] at hn
    refine ⟨loc[n], ?_, ?_⟩
    · have := (hl3 loc[n].1 loc[n].2.1 loc[n].2.2 n).mpr (by simp)
      rw [Option.bind_eq_some_iff] at this
      simpa only [hget] using this
    · rintro ⟨d, e, k⟩ ⟨l, h1, h2⟩
      rw [hget] at h1
      have := (hl3 d e k n).mp (by rw [h1]; exact h2)
      exact ((List.getElem?_eq_some_iff.mp this).2).symm
  · intro d e l hl n hn
    rw [hget] at hl
    obtain ⟨k, hk⟩ := List.getElem?_of_mem hn
    have := (hl3 d e k n).mp (by rw [hl]; exact hk)
    rw [hS, ← hl1]
    exact (List.getElem?_eq_some_iff.mp this).1

/-- **C02.** If the element puts its reference DOF `lo` at position `k` of sub-entity number `i` of
dimension `d`, and that sub-entity of the cell is `e`, then entry `lo` of the cell's DOF list is entry
`k` of the DOF list of `(d, e)`. -/
theorem C02_conformity (wf : g.WF) (fo : FamilyOn g fam nd)
    (h : (FunctionSpace.new rank size g fam).Yields sp)
    (c : Entity) (hc : c ∈ g.entityIter 2) (d i e : Nat) (hd : d ≤ 2)
    (hi : (c.sub d)[i]? = some e) (l : List Nat)
    (hl : (fam c.entityType).entityDofs d i = some l) (k lo : Nat) (hk : l[k]? = some lo) :
    ∃ cd ed n, sp.cellDofs c.localIndex = some cd ∧ sp.getLocalDofNumbers d e = some ed ∧
      ed.length = l.length ∧ cd[lo]? = some n ∧ ed[k]? = some n := by
  obtain ⟨dm, inv, hE, hC, hS, hrows⟩ := space_inv wf fo h
  have hv : (⟨c.localIndex, fam c.entityType, d, i, e⟩ : Visit) ∈ allVisits g fam :=
    List.mem_flatMap.mpr ⟨c, hc, mem_visitsOf.mpr ⟨rfl, rfl, hd, hi⟩⟩
  obtain ⟨m, h1, h2, h3⟩ := inv.done _ hv l hl
  obtain ⟨row, hrow, hrl⟩ := hrows c hc
  have hkl : k < m.length := by rw [h2]; exact (List.getElem?_eq_some_iff.mp hk).1
  have h4 := h3 k lo m[k] hk (by simp [hkl])
  simp only [hrow, Option.bind_some] at h4
  refine ⟨row, m, m[k], by rw [cellDofs_eq, hC]; exact hrow, ?_, h2, h4, by simp [hkl]⟩
  simpa [FunctionSpace.getLocalDofNumbers, DofState.ent, hE] using h1

/-- C02, second sentence: two cells that contain the same entity see the same DOF numbers on it,
position by position. -/
theorem C02_shared_entity (wf : g.WF) (fo : FamilyOn g fam nd)
    (h : (FunctionSpace.new rank size g fam).Yields sp)
    (c c' : Entity) (hc : c ∈ g.entityIter 2) (hc' : c' ∈ g.entityIter 2) (d i i' e : Nat)
    (hd : d ≤ 2) (hi : (c.sub d)[i]? = some e) (hi' : (c'.sub d)[i']? = some e) (l l' : List Nat)
    (hl : (fam c.entityType).entityDofs d i = some l)
    (hl' : (fam c'.entityType).entityDofs d i' = some l') :
    l.length = l'.length ∧ ∀ k lo lo' : Nat, l[k]? = some lo → l'[k]? = some lo' →
      ∃ cd cd' n, sp.cellDofs c.localIndex = some cd ∧ sp.cellDofs c'.localIndex = some cd' ∧
        cd[lo]? = some n ∧ cd'[lo']? = some n := by
  refine ⟨by rw [fo.count c hc d hd i e hi l hl, fo.count c' hc' d hd i' e hi' l' hl'], ?_⟩
  intro k lo lo' hk hk'
  obtain ⟨cd, ed, n, h1, h2, _, h3, h4⟩ := C02_conformity wf fo h c hc d i e hd hi l hl k lo hk
  obtain ⟨cd', ed', n', h1', h2', _, h3', h4'⟩ :=
    C02_conformity wf fo h c' hc' d i' e hd hi' l' hl' k lo' hk'
  rw [h2] at h2'; cases h2'
  rw [h4] at h4'; cases h4'
  exact ⟨cd, cd', n, h1, h1', h3, h3'⟩

/-- Where a DOF of a cell comes from. -/
theorem cell_dof_origin (wf : g.WF) (fo : FamilyOn g fam nd)
    (h : (FunctionSpace.new rank size g fam).Yields sp) (c : Entity) (hc : c ∈ g.entityIter 2)
    (cd : List Nat) (hcd : sp.cellDofs c.localIndex = some cd) (lo n : Nat) (hn : cd[lo]? = some n) :
    ∃ (d i e k : Nat) (l ed : List Nat), d ≤ 2 ∧ (c.sub d)[i]? = some e ∧
      (fam c.entityType).entityDofs d i = some l ∧ l[k]? = some lo ∧
      sp.getLocalDofNumbers d e = some ed ∧ ed[k]? = some n := by
  obtain ⟨dm, inv, hE, hC, hS, hrows⟩ := space_inv wf fo h
  obtain ⟨row, hrow, hrl⟩ := hrows c hc
  have : cd = row := by
    rw [cellDofs_eq, hC, hrow] at hcd; cases hcd; rfl
  subst this
  have hwf := fo.elem _ (wf.types c hc)
  have hlo : lo < (fam c.entityType).dim := by
    rw [← hrl]; exact (List.getElem?_eq_some_iff.mp hn).1
  obtain ⟨d, i, l, k, hd, hi, hl, hk⟩ := hwf.exists_entity hlo
  have hi2 : i < (c.sub d).length := by rw [wf.sub_length c hc d hd]; exact hi
  obtain ⟨cd', ed, n', h1, h2, h3, h4, h5⟩ := C02_conformity wf fo h c hc d i (c.sub d)[i] hd
    (by simp [hi2]) l hl k lo hk
  rw [hcd] at h1; cases h1
  rw [hn] at h4; cases h4
  exact ⟨d, i, _, k, l, ed, hd, by simp [hi2], hl, hk, h2, h5⟩

/-- **C03.** `cell_dofs(c)` is `Some` exactly for the cells of the grid; it then has the dimension of
the cell's element as length, no repetition, and only valid DOF numbers. -/
theorem C03_cell_dofs (wf : g.WF) (fo : FamilyOn g fam nd)
    (h : (FunctionSpace.new rank size g fam).Yields sp) :
    (∀ i, (sp.cellDofs i).isSome ↔ ∃ c ∈ g.entityIter 2, c.localIndex = i) ∧
    (∀ c ∈ g.entityIter 2, ∃ cd, sp.cellDofs c.localIndex = some cd ∧
      cd.length = (fam c.entityType).dim ∧ cd.Nodup ∧ ∀ n ∈ cd, n < sp.localSize) := by
  obtain ⟨dm, inv, hE, hC, hS, hrows⟩ := space_inv wf fo h
  refine ⟨?_, ?_⟩
  · intro i
    rw [cellDofs_eq, hC]
    constructor
    · intro hi
      have : i < g.count 2 := by
        rw [← inv.cshape]
        simpa using hi
      obtain ⟨c, hc, hci, _⟩ := entity_exists g wf (d := 2) (by omega) this
      exact ⟨c, hc, hci⟩
    · rintro ⟨c, hc, rfl⟩
      obtain ⟨row, hrow, _⟩ := hrows c hc
      simp [hrow]
  · intro c hc
    obtain ⟨row, hrow, hrl⟩ := hrows c hc
    have hcd : sp.cellDofs c.localIndex = some row := by rw [cellDofs_eq, hC]; exact hrow
    have hbij := C01_numbering_bijection wf fo h
    refine ⟨row, hcd, hrl, ?_, ?_⟩
    · rw [List.nodup_iff_getElem?_ne_getElem?]
      intro a b hab hb heq
      obtain ⟨n, hn⟩ : ∃ n, row[b]? = some n := ⟨row[b], by simp [hb]⟩
      rw [hn] at heq
      obtain ⟨d, i, e, k, l, ed, hd, hi, hl, hk, hed, hkn⟩ :=
        cell_dof_origin wf fo h c hc row hcd a n heq
      obtain ⟨d', i', e', k', l', ed', hd', hi', hl', hk', hed', hkn'⟩ :=
        cell_dof_origin wf fo h c hc row hcd b n hn
      have hlt : n < sp.localSize := hbij.2.2 d e ed hed n (List.mem_of_getElem? hkn)
      have huniq := (hbij.2.1 n hlt).unique (y₁ := (d, e, k)) (y₂ := (d', e', k'))
        ⟨ed, hed, hkn⟩ ⟨ed', hed', hkn'⟩
      simp only [Prod.mk.injEq] at huniq
      obtain ⟨rfl, rfl, rfl⟩ := huniq
      have hii : i = i' := by
        have hnd := wf.sub_nodup c hc d hd
        have hil := (List.getElem?_eq_some_iff.mp hi).1
        exact (List.getElem?_inj hil hnd).mp (by rw [hi, hi'])
      subst hii
      rw [hl] at hl'; cases hl'
      rw [hk] at hk'; cases hk'
      omega
    · intro n hn
      obtain ⟨lo, hlo⟩ := List.getElem?_of_mem hn
      obtain ⟨d, i, e, k, l, ed, _, _, _, _, hed, hkn⟩ :=
        cell_dof_origin wf fo h c hc row hcd lo n hlo
      exact hbij.2.2 d e ed hed n (List.mem_of_getElem? hkn)

/-- **C04.** Two different cells have a DOF in common iff they have a common sub-entity that carries a
DOF. -/
theorem C04_shared_dofs (wf : g.WF) (fo : FamilyOn g fam nd)
    (h : (FunctionSpace.new rank size g fam).Yields sp)
    (c c' : Entity) (hc : c ∈ g.entityIter 2) (hc' : c' ∈ g.entityIter 2) :
    (∃ cd cd' n, sp.cellDofs c.localIndex = some cd ∧ sp.cellDofs c'.localIndex = some cd' ∧
      n ∈ cd ∧ n ∈ cd') ↔
    ∃ d e, d ≤ 2 ∧ e ∈ c.sub d ∧ e ∈ c'.sub d ∧ 0 < nd d e := by
  have hbij := C01_numbering_bijection wf fo h
  constructor
  · rintro ⟨cd, cd', n, hcd, hcd', hn, hn'⟩
    obtain ⟨lo, hlo⟩ := List.getElem?_of_mem hn
    obtain ⟨lo', hlo'⟩ := List.getElem?_of_mem hn'
    obtain ⟨d, i, e, k, l, ed, hd, hi, hl, hk, hed, hkn⟩ :=
      cell_dof_origin wf fo h c hc cd hcd lo n hlo
    obtain ⟨d', i', e', k', l', ed', hd', hi', hl', hk', hed', hkn'⟩ :=
      cell_dof_origin wf fo h c' hc' cd' hcd' lo' n hlo'
    have hlt : n < sp.localSize := hbij.2.2 d e ed hed n (List.mem_of_getElem? hkn)
    have huniq := (hbij.2.1 n hlt).unique (y₁ := (d, e, k)) (y₂ := (d', e', k'))
      ⟨ed, hed, hkn⟩ ⟨ed', hed', hkn'⟩
    simp only [Prod.mk.injEq] at huniq
    obtain ⟨rfl, rfl, rfl⟩ := huniq
    refine ⟨d, e, hd, List.mem_of_getElem? hi, List.mem_of_getElem? hi', ?_⟩
    rw [← fo.count c hc d hd i e hi l hl]
    exact Nat.lt_of_le_of_lt (Nat.zero_le _) (List.getElem?_eq_some_iff.mp hk).1
  · rintro ⟨d, e, hd, he, he', hpos⟩
    obtain ⟨i, hi⟩ := List.getElem?_of_mem he
    obtain ⟨i', hi'⟩ := List.getElem?_of_mem he'
    have hdef := (fo.elem _ (wf.types c hc)).defined d hd i (by
      rw [← wf.sub_length c hc d hd]; exact (List.getElem?_eq_some_iff.mp hi).1)
    have hdef' := (fo.elem _ (wf.types c' hc')).defined d hd i' (by
      rw [← wf.sub_length c' hc' d hd]; exact (List.getElem?_eq_some_iff.mp hi').1)
    obtain ⟨l, hl⟩ := Option.isSome_iff_exists.mp hdef
    obtain ⟨l', hl'⟩ := Option.isSome_iff_exists.mp hdef'
    have h1 : 0 < l.length := by rw [fo.count c hc d hd i e hi l hl]; exact hpos
    have h2 : 0 < l'.length := by rw [fo.count c' hc' d hd i' e hi' l' hl']; exact hpos
    obtain ⟨_, hsh⟩ := C02_shared_entity wf fo h c c' hc hc' d i i' e hd hi hi' l l' hl hl'
    obtain ⟨cd, cd', n, h3, h4, h5, h6⟩ := hsh 0 l[0] l'[0] (by simp [h1]) (by simp [h2])
    exact ⟨cd, cd', n, h3, h4, List.mem_of_getElem? h5, List.mem_of_getElem? h6⟩

/-- **C05.** `local_size()` is the sum over all entities of the number of DOFs on the entity. -/
theorem C05_size (wf : g.WF) (fo : FamilyOn g fam nd)
    (h : (FunctionSpace.new rank size g fam).Yields sp) :
    sp.localSize = ((List.range 3).map fun d => ((List.range (g.count d)).map (nd d)).sum).sum := by
  obtain ⟨dm, inv, hE, hC, hS, hrows⟩ := space_inv wf fo h
  have key : ∀ d, d ≤ 2 → ∃ X, dm.entityDofs[d]? = some X ∧
      X.map List.length = (List.range (g.count d)).map (nd d) := by
    intro d hd
    obtain ⟨X, hX, hXl⟩ := inv.shape d hd
    refine ⟨X, hX, ?_⟩
    apply List.ext_getElem?
    intro e
    by_cases he : e < g.count d
    · have heX : e < X.length := by omega
      rw [List.getElem?_map, List.getElem?_map, List.getElem?_range he]
      simp only [heX, List.getElem?_eq_getElem, Option.map_some, Option.some.injEq]
      obtain ⟨c, hc, hce⟩ := wf.covered d hd e he
      obtain ⟨i, hi⟩ := List.getElem?_of_mem hce
      have hdef := (fo.elem _ (wf.types c hc)).defined d hd i (by
        rw [← wf.sub_length c hc d hd]; exact (List.getElem?_eq_some_iff.mp hi).1)
      obtain ⟨l, hl⟩ := Option.isSome_iff_exists.mp hdef
      have hv : (⟨c.localIndex, fam c.entityType, d, i, e⟩ : Visit) ∈ allVisits g fam :=
        List.mem_flatMap.mpr ⟨c, hc, mem_visitsOf.mpr ⟨rfl, rfl, hd, hi⟩⟩
      obtain ⟨m, h1, h2, _⟩ := inv.done _ hv l hl
      have : m = X[e] := by
        simp only [DofState.ent, hX, Option.bind_some, List.getElem?_eq_getElem heX,
          Option.some.injEq] at h1
        exact h1.symm
      rw [← this, h2]
      exact fo.count c hc d hd i e hi l hl
    · rw [List.getElem?_eq_none (by simp; omega), List.getElem?_eq_none (by simp; omega)]
  rw [hS, inv.total]
  unfold totalLen
  obtain ⟨X0, h0, e0⟩ := key 0 (by omega)
  obtain ⟨X1, h1, e1⟩ := key 1 (by omega)
  obtain ⟨X2, h2, e2⟩ := key 2 (by omega)
  have h3 := inv.shape3
  have hL : dm.entityDofs = [X0, X1, X2, []] := by
    have hlen := inv.shape0
    apply List.ext_getElem?
    intro i
    match i with
    | 0 => rw [h0]; rfl
    | 1 => rw [h1]; rfl
    | 2 => rw [h2]; rfl
    | 3 => rw [h3]; rfl
    | i + 4 => rw [List.getElem?_eq_none (by omega)]; rfl
  rw [hL]
  simp [e0, e1, e2, List.range_succ]


/-- All entities of the grid belong to this process (as on a grid that is not distributed). -/
def Grid.AllOwned (g : Grid) : Prop :=
  ∀ d, d ≤ 2 → ∀ e ∈ g.entityIter d, e.ownership = .owned

theorem mem_loc_valid {dm : DofState} {V : List Visit} (inv : DofInv rank g nd V dm)
    (loc : List (Nat × Nat × Nat)) (hl3 : ∀ (d e k n : Nat), (dm.ent d e).bind (·[k]?) = some n ↔
      loc[n]? = some (d, e, k)) (x : Nat × Nat × Nat) (hx : x ∈ loc) :
    x.1 ≤ 2 ∧ x.2.1 < g.count x.1 := by
  obtain ⟨n, hn⟩ := List.getElem?_of_mem hx
  have h1 := (hl3 x.1 x.2.1 x.2.2 n).mpr hn
  rw [Option.bind_eq_some_iff] at h1
  obtain ⟨l, h1, _⟩ := h1
  unfold DofState.ent at h1
  rw [Option.bind_eq_some_iff] at h1
  obtain ⟨Y, hY, hYl⟩ := h1
  have h4 := (List.getElem?_eq_some_iff.mp hY).1
  rw [inv.shape0] at h4
  by_cases h5 : x.1 ≤ 2
  · obtain ⟨X, hX, hXl⟩ := inv.shape x.1 h5
    rw [hX] at hY; cases hY
    exact ⟨h5, by rw [← hXl]; exact (List.getElem?_eq_some_iff.mp hYl).1⟩
  · have : x.1 = 3 := by omega
    rw [this, inv.shape3] at hY
    cases hY
    simp at hYl

theorem owned_of_allOwned (wf : g.WF) (ho : g.AllOwned) {dm : DofState} {V : List Visit}
    (inv : DofInv rank g nd V dm) : ∀ o ∈ dm.ownerData, o.1 = rank := by
  obtain ⟨loc, hl1, hl2, hl3, _⟩ := inv.loc
  intro o hm
  rw [hl2] at hm
  obtain ⟨x, hx, rfl⟩ := List.mem_map.mp hm
  obtain ⟨h1, h2⟩ := mem_loc_valid inv loc hl3 x hx
  obtain ⟨ent, hent, _, hge⟩ := entity_exists g wf h1 h2
  unfold ownerOf
  simp only [hge, ho x.1 h1 ent hent]

theorem ownedCount_all {od : List (Nat × Nat × Nat × Nat)} (h : ∀ o ∈ od, o.1 = rank) :
    ownedCount rank od = od.length := by
  unfold ownedCount
  rw [List.countP_eq_length]
  intro o ho
  simpa using h o ho

/-- **C03** (last sentence) and **C18.** On one process `new` returns without communication or panic;
the global number of every DOF is its local number, every DOF is `Owned` and
`global_size() = local_size()`. -/
theorem C18_serial_space (wf : g.WF) (fo : FamilyOn g fam nd) (ho : g.AllOwned) :
    ∃ sp, FunctionSpace.new 0 1 g fam = .done sp ∧ sp.isSerial = true ∧
      sp.globalSize = sp.localSize ∧
      (∀ i, i < sp.localSize → sp.globalDofIndex i = some i ∧ sp.ownership i = some .owned) ∧
      (∀ i, sp.localSize ≤ i → sp.globalDofIndex i = none ∧ sp.ownership i = none) := by
  obtain ⟨dm, hdm, inv, _⟩ := assignDofs_inv 0 g fam nd wf fo
  have hown := owned_of_allOwned wf ho inv
  have hlen : dm.ownerData.length = dm.size := by
    obtain ⟨loc, hl1, hl2, _⟩ := inv.loc
    rw [hl2]; simpa using hl1
  obtain ⟨st, hst, h1, h2, h3, h4⟩ := numberOwned_spec 0 1 dm.ownerData 0
    (fun o hm => by rw [hown o hm]; omega)
  rw [hlen] at hst
  have hnum : st.globalDofNumbers = List.range dm.size := by
    rw [h2, hlen]
    conv_rhs => rw [← List.map_id (List.range dm.size)]
    apply List.map_congr_left
    intro i hi
    have hi' : i < dm.ownerData.length := by rw [hlen]; simpa using hi
    unfold numOf
    rw [List.getElem?_eq_getElem hi']
    simp only [hown _ (List.getElem_mem hi'), if_true, Nat.zero_add, id]
    rw [ownedCount_all (fun o hm => hown o (List.mem_of_mem_take hm))]
    simp; omega
  refine ⟨{ grid := g, commSize := 1,
            elements := (g.entityTypes g.topologyDim).map fun t => (t, fam t),
            entityDofs := dm.entityDofs, cellDofsVec := dm.cellDofs, localSize := dm.size,
            globalSize := st.dofN, globalDofNumbers := st.globalDofNumbers,
            ownershipVec := List.replicate dm.size .owned }, ?_, rfl, ?_, ?_, ?_⟩
  · unfold FunctionSpace.new
    have hb : ∀ {α β : Type} (a : α) (f : α → Prog β), (Prog.done a >>= f) = f a := fun _ _ => rfl
    have hl : ∀ {α : Type} (a : α), Prog.lift (some a) = .done a := fun _ => rfl
    rw [hdm]
    simp only [hb, hl, FunctionSpace.recvOffset, if_true, hst]
    rfl
  · simp only [h1, Nat.zero_add]
    rw [ownedCount_all hown, hlen]
  · intro i hi
    simp only [FunctionSpace.globalDofIndex, FunctionSpace.ownership, hnum]
    simp only at hi
    exact ⟨by rw [List.getElem?_range hi], by simp [hi]⟩
  · intro i hi
    simp only at hi
    simp only [FunctionSpace.globalDofIndex, FunctionSpace.ownership, hnum]
    exact ⟨List.getElem?_eq_none (by simpa using hi), List.getElem?_eq_none (by simpa using hi)⟩

/-! ### The hypotheses can be met -/

theorem mixed_owned : mixed.AllOwned := by
  intro d hd
  revert d
  apply le2 <;> decide

/-- A P2 space on the mixed triangle/quadrilateral grid exists, has 6 + 8 + 1 DOFs (C05), and two of
its cells share DOFs (C04). -/
example : ∃ sp, FunctionSpace.new 0 1 mixed p2 = .done sp ∧ sp.localSize = 15 ∧
    ∃ cd cd' n, sp.cellDofs 1 = some cd ∧ sp.cellDofs 2 = some cd' ∧ n ∈ cd ∧ n ∈ cd' := by
  obtain ⟨sp, h, _⟩ := C18_serial_space mixed_wf p2_mixed mixed_owned
  have hy : (FunctionSpace.new 0 1 mixed p2).Yields sp := by rw [h]; exact .done sp
  refine ⟨sp, h, ?_, ?_⟩
  · rw [C05_size mixed_wf p2_mixed hy]; decide
  · obtain ⟨c, hc, e1⟩ : ∃ c ∈ mixed.entityIter 2, c.localIndex = 1 := by decide
    obtain ⟨c', hc', e2⟩ : ∃ c ∈ mixed.entityIter 2, c.localIndex = 2 := by decide
    rw [← e1, ← e2, C04_shared_dofs mixed_wf p2_mixed hy c c' hc hc']
    refine ⟨0, 1, by omega, ?_, ?_, by decide⟩
    · revert c; decide
    · clear hc e1
      revert c'; decide

end Bempp
