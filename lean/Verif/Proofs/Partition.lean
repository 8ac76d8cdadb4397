import Verif.Props.Distributed
import Verif.Props.Dofs
import Verif.Spec.Partition
/-
Facts about distributed grids and the numbering of DOFs on them.
-/
set_option linter.unusedSectionVars false

namespace Bempp

theorem Runs.yields {α : Type} {p : Prog α} {t : Trace} {a : α} (h : Runs p t a) : p.Yields a := by
  induction h with
  | done a => exact .done a
  | send _ ih => exact .send ih
  | recv _ ih => exact .recv _ ih

variable {n : Nat} {G : Nat → Grid} {S : Grid} {num : Nat → Nat → Nat → Nat} {fam : CellType → ElementDofs}
  {ndS : Nat → Nat → Nat}

/-- An entity of a part is a sub-entity of a cell. -/
theorem PartOf.in_cell (h : PartOf n G S num) {r : Nat} (hr : r < n) {d : Nat} (hd : d ≤ 2) {e : Entity}
    (he : e ∈ (G r).entityIter d) : ∃ c ∈ (G r).entityIter 2, e.localIndex ∈ c.sub d := by
  refine (h.parts r hr).covered d hd _ ?_
  have := ((h.parts r hr).index d hd).mem_iff.mp (List.mem_map_of_mem (f := Entity.localIndex) he)
  exact List.mem_range.mp this

theorem Grid.WF.exists_of_lt {g : Grid} (wf : g.WF) {d : Nat} (hd : d ≤ 2) {i : Nat} (hi : i < g.count d) :
    ∃ e ∈ g.entityIter d, e.localIndex = i := by
  have := (wf.index d hd).mem_iff.mpr (List.mem_range.mpr hi)
  obtain ⟨e, he, rfl⟩ := List.mem_map.mp this
  exact ⟨e, he, rfl⟩

theorem Grid.WF.lt {g : Grid} (wf : g.WF) {d : Nat} (hd : d ≤ 2) {e : Entity} (he : e ∈ g.entityIter d) :
    e.localIndex < g.count d :=
  List.mem_range.mp ((wf.index d hd).mem_iff.mp (List.mem_map_of_mem (f := Entity.localIndex) he))

theorem PartOf.num_lt (h : PartOf n G S num) {r : Nat} (hr : r < n) {d : Nat} (hd : d ≤ 2) {e : Entity}
    (he : e ∈ (G r).entityIter d) : num r d e.localIndex < S.count d := by
  obtain ⟨c, hc, hm⟩ := h.in_cell hr hd he
  obtain ⟨c0, h0, _, _, hs⟩ := h.cell r hr c hc
  refine h.whole.sub_lt c0 h0 d hd _ ?_
  rw [hs d hd]
  exact List.mem_map_of_mem hm

/-- The family on the parts. -/
theorem PartOf.family (h : PartOf n G S num) (fo : FamilyOn S fam ndS) {r : Nat} (hr : r < n) :
    FamilyOn (G r) fam (fun d e => ndS d (num r d e)) where
  elem := fun t h1 => fo.elem t (h.types r hr t h1)
  count := by
    intro c hc d hd i e hi l hl
    obtain ⟨c0, h0, _, hty, hs⟩ := h.cell r hr c hc
    refine fo.count c0 h0 d hd i _ ?_ l (by rw [hty]; exact hl)
    rw [hs d hd, List.getElem?_map, hi]
    rfl

theorem PartOf.distributed (h : PartOf n G S num) (fo : FamilyOn S fam ndS) :
    Distributed n G fam (fun r d e => ndS d (num r d e)) where
  pos := h.pos
  wf := h.parts
  family := fun r hr => h.family fo hr
  ghost := by
    intro r hr d hd e he p i hg
    obtain ⟨h1, h2, e', h3, h4, h5, h6⟩ := h.ghost r hr d hd e he p i hg
    exact ⟨h1, h2, ⟨e', h3, h4, h5⟩, by rw [h6]⟩
  ghost_inj := by
    intro r hr d hd e he e' he' p i hg hg'
    obtain ⟨_, _, _, _, _, _, h6⟩ := h.ghost r hr d hd e he p i hg
    obtain ⟨_, _, _, _, _, _, h6'⟩ := h.ghost r hr d hd e' he' p i hg'
    exact h.inj r hr d hd e he e' he' (h6.symm.trans h6')

/-- The spaces of a finished run are spaces. -/
theorem Finished.yields {nd : Nat → Nat → Nat → Nat} (dist : Distributed n G fam nd) {sp : Nat → FunctionSpace}
    (h : Finished n G fam sp) {r : Nat} (hr : r < n) : (FunctionSpace.new r n (G r) fam).Yields (sp r) := by
  obtain ⟨D, hD, hsp⟩ := finished_spaces dist h
  rw [hsp r hr]
  exact (new_runs dist hD hr).yields

/-- `n` is the number of the serial DOF at position `k` of the entity that is `(d, e)` on process `r`. -/
def SerialDof (sS : FunctionSpace) (num : Nat → Nat → Nat → Nat) (r d e k m : Nat) : Prop :=
  ∃ L, sS.getLocalDofNumbers d (num r d e) = some L ∧ L[k]? = some m

/-- The relation between distributed and serial numbers: `N` is the global number of DOF `i` of process `r`, which
is at position `k` of entity `(d, e)`, and `m` is the number of the serial DOF at the same position. -/
def SameDof (sp : Nat → FunctionSpace) (sS : FunctionSpace) (n : Nat) (G : Nat → Grid) (num : Nat → Nat → Nat → Nat)
    (N m : Nat) : Prop :=
  ∃ r d k i L, ∃ e ∈ (G r).entityIter d, r < n ∧ d ≤ 2 ∧ (sp r).getLocalDofNumbers d e.localIndex = some L ∧
    L[k]? = some i ∧ (sp r).globalDofIndex i = some N ∧ SerialDof sS num r d e.localIndex k m

section
variable {sp : Nat → FunctionSpace} {sS : FunctionSpace}

/-- The lists of DOFs of an entity and of its serial counterpart have the same length. -/
theorem entity_dofs (h : PartOf n G S num) (fo : FamilyOn S fam ndS) (hf : Finished n G fam sp)
    (hS : (FunctionSpace.new 0 1 S fam).Yields sS) {r : Nat} (hr : r < n) {d : Nat} (hd : d ≤ 2) {e : Entity}
    (he : e ∈ (G r).entityIter d) : ∃ L L', (sp r).getLocalDofNumbers d e.localIndex = some L ∧
      sS.getLocalDofNumbers d (num r d e.localIndex) = some L' ∧ L.length = L'.length := by
  have dist := h.distributed fo
  obtain ⟨dm, h1, h2, _⟩ := space_inv (h.parts r hr) (h.family fo hr) (hf.yields dist hr)
  obtain ⟨dm', h1', h2', _⟩ := space_inv h.whole fo hS
  obtain ⟨L, e1, e2⟩ := ent_length (h.parts r hr) (h.family fo hr) h1 hd ((h.parts r hr).lt hd he)
  obtain ⟨L', e1', e2'⟩ := ent_length h.whole fo h1' hd (h.num_lt hr hd he)
  refine ⟨L, L', ?_, ?_, by rw [e2, e2']⟩
  · unfold FunctionSpace.getLocalDofNumbers; rw [h2]; exact e1
  · unfold FunctionSpace.getLocalDofNumbers; rw [h2']; exact e1'


/-- A DOF of an entity of a part, traced to its owner. -/
theorem SameDof.owned (h : PartOf n G S num) (fo : FamilyOn S fam ndS) (hf : Finished n G fam sp) {N m : Nat} (hs : SameDof sp sS n G num N m) :
    ∃ r d k i L, ∃ e ∈ (G r).entityIter d, r < n ∧ d ≤ 2 ∧ (sp r).getLocalDofNumbers d e.localIndex = some L ∧
      L[k]? = some i ∧ (sp r).globalDofIndex i = some N ∧ SerialDof sS num r d e.localIndex k m ∧
      e.ownership = .owned ∧ (sp r).ownership i = some .owned := by
  obtain ⟨r, d, k, i, L, e, he, hr, hd, hL, hk, hN, hm⟩ := hs
  obtain ⟨h1, h2⟩ := C20_ghosts (h.distributed fo) hf hr hd e he L hL k i hk
  cases ho : e.ownership with
  | owned => exact ⟨r, d, k, i, L, e, he, hr, hd, hL, hk, hN, hm, ho, h1 ho⟩
  | ghost p e' =>
    obtain ⟨hp, _, L', l, N', g1, g2, _, g4, g5, g6⟩ := h2 p e' ho
    obtain ⟨_, _, e1, k1, k2, k3, k4⟩ := h.ghost r hr d hd e he p e' ho
    rw [hN] at g5
    cases g5
    subst k2
    refine ⟨p, d, k, l, L', e1, k1, hp, hd, g1, g2, g6, ?_, k3, g4⟩
    unfold SerialDof at hm ⊢
    rw [k4]
    exact hm

theorem SameDof.functional (h : PartOf n G S num) (fo : FamilyOn S fam ndS) (hf : Finished n G fam sp)
    (_hS : (FunctionSpace.new 0 1 S fam).Yields sS) {N m m' : Nat} (hs : SameDof sp sS n G num N m)
    (hs' : SameDof sp sS n G num N m') : m = m' := by
  obtain ⟨r, d, k, i, L, e, he, hr, hd, hL, hk, hN, ⟨M, hM, hm⟩, ho, hio⟩ := hs.owned h fo hf
  obtain ⟨r', d', k', i', L', e', he', hr', hd', hL', hk', hN', ⟨M', hM', hm'⟩, ho', hio'⟩ := hs'.owned h fo hf
  have dist := h.distributed fo
  obtain ⟨total, -, h1, h2⟩ := C19_global_numbering dist hf
  have hx := (h2 N (h1 r hr i N hio hN)).unique (y₁ := (r, i)) (y₂ := (r', i')) ⟨hr, hio, hN⟩ ⟨hr', hio', hN'⟩
  simp only [Prod.mk.injEq] at hx
  obtain ⟨rfl, rfl⟩ := hx
  obtain ⟨-, c2, c3⟩ := C01_numbering_bijection (h.parts r hr) (h.family fo hr) (hf.yields dist hr)
  have hy := (c2 i (c3 d _ L hL i (List.mem_of_getElem? hk))).unique (y₁ := (d, e.localIndex, k))
    (y₂ := (d', e'.localIndex, k')) ⟨L, hL, hk⟩ ⟨L', hL', hk'⟩
  simp only [Prod.mk.injEq] at hy
  obtain ⟨rfl, hy, rfl⟩ := hy
  rw [hy] at hM
  rw [hM] at hM'
  cases hM'
  rw [hm] at hm'
  exact Option.some_inj.mp hm'

theorem SameDof.injective (h : PartOf n G S num) (fo : FamilyOn S fam ndS) (hf : Finished n G fam sp)
    (hS : (FunctionSpace.new 0 1 S fam).Yields sS) {N N' m : Nat} (hs : SameDof sp sS n G num N m)
    (hs' : SameDof sp sS n G num N' m) : N = N' := by
  obtain ⟨r, d, k, i, L, e, he, hr, hd, hL, hk, hN, ⟨M, hM, hm⟩, ho, hio⟩ := hs.owned h fo hf
  obtain ⟨r', d', k', i', L', e', he', hr', hd', hL', hk', hN', ⟨M', hM', hm'⟩, ho', hio'⟩ := hs'.owned h fo hf
  obtain ⟨-, c2, c3⟩ := C01_numbering_bijection h.whole fo hS
  have hy := (c2 m (c3 d _ M hM m (List.mem_of_getElem? hm))).unique (y₁ := (d, num r d e.localIndex, k))
    (y₂ := (d', num r' d' e'.localIndex, k')) ⟨M, hM, hm⟩ ⟨M', hM', hm'⟩
  simp only [Prod.mk.injEq] at hy
  obtain ⟨rfl, hy, rfl⟩ := hy
  obtain rfl := h.owner_unique d hd r hr r' hr' e he e' he' ho ho' hy
  have := h.inj r hr d hd e he e' he' hy
  rw [this] at hL
  rw [hL] at hL'
  cases hL'
  rw [hk] at hk'
  cases hk'
  rw [hN] at hN'
  exact Option.some_inj.mp hN'

theorem SameDof.lt (h : PartOf n G S num) (fo : FamilyOn S fam ndS) (hf : Finished n G fam sp)
    (hS : (FunctionSpace.new 0 1 S fam).Yields sS) {N m : Nat} (hs : SameDof sp sS n G num N m) :
    (∀ r, r < n → N < (sp r).globalSize) ∧ m < sS.localSize := by
  obtain ⟨r, d, k, i, L, e, he, hr, hd, hL, hk, hN, ⟨M, hM, hm⟩, ho, hio⟩ := hs.owned h fo hf
  obtain ⟨total, h0, h1, h2⟩ := C19_global_numbering (h.distributed fo) hf
  refine ⟨fun q hq => ?_, ?_⟩
  · rw [h0 q hq]; exact h1 r hr i N hio hN
  · exact (C01_numbering_bijection h.whole fo hS).2.2 d _ M hM m (List.mem_of_getElem? hm)

/-- Every DOF of every entity of every part has a counterpart. -/
theorem sameDof_of (h : PartOf n G S num) (fo : FamilyOn S fam ndS) (hf : Finished n G fam sp)
    (hS : (FunctionSpace.new 0 1 S fam).Yields sS) {r : Nat} (hr : r < n) {d : Nat} (hd : d ≤ 2) {e : Entity}
    (he : e ∈ (G r).entityIter d) {L L' : List Nat} (hL : (sp r).getLocalDofNumbers d e.localIndex = some L)
    (hL' : sS.getLocalDofNumbers d (num r d e.localIndex) = some L') {k i N : Nat} (hk : L[k]? = some i)
    (hN : (sp r).globalDofIndex i = some N) : ∃ m, L'[k]? = some m ∧ SameDof sp sS n G num N m := by
  obtain ⟨M, M', e1, e2, e3⟩ := entity_dofs h fo hf hS hr hd he
  rw [hL] at e1
  cases e1
  rw [hL'] at e2
  cases e2
  have hlt : k < L'.length := by rw [← e3]; exact (List.getElem?_eq_some_iff.mp hk).1
  exact ⟨L'[k], by simp [hlt], r, d, k, i, L, e, he, hr, hd, hL, hk, hN, L', hL', by simp [hlt]⟩

theorem sameDof_total (h : PartOf n G S num) (fo : FamilyOn S fam ndS) (hf : Finished n G fam sp)
    (hS : (FunctionSpace.new 0 1 S fam).Yields sS) {N : Nat} (hN : N < (sp 0).globalSize) :
    ∃ m, SameDof sp sS n G num N m := by
  have dist := h.distributed fo
  obtain ⟨total, h0, h1, h2⟩ := C19_global_numbering dist hf
  rw [h0 0 h.pos] at hN
  obtain ⟨⟨r, i⟩, ⟨hr, ho, hg⟩, -⟩ := h2 N hN
  obtain ⟨c1, c2, -⟩ := C01_numbering_bijection (h.parts r hr) (h.family fo hr) (hf.yields dist hr)
  have hi : i < (sp r).localSize := by
    obtain ⟨D, hD, hsp⟩ := finished_spaces dist hf
    simp only at hg
    rw [hsp r hr, spaceOf_global] at hg
    rw [hsp r hr]
    by_contra hc
    have hc' : ¬ i < (D r).size := hc
    rw [if_neg hc'] at hg
    cases hg
  obtain ⟨⟨d, e, k⟩, ⟨L, hL, hk⟩, -⟩ := c2 i hi
  have hde := (c1 d e).mp (by simp only at hL; rw [hL]; rfl)
  obtain ⟨ent, hent, rfl⟩ := (h.parts r hr).exists_of_lt hde.1 hde.2
  obtain ⟨M, M', e1, e2, e3⟩ := entity_dofs h fo hf hS hr hde.1 hent
  obtain ⟨m, -, hm⟩ := sameDof_of h fo hf hS hr hde.1 hent hL e2 hk hg
  exact ⟨m, hm⟩

theorem sameDof_onto (h : PartOf n G S num) (fo : FamilyOn S fam ndS) (hf : Finished n G fam sp)
    (hS : (FunctionSpace.new 0 1 S fam).Yields sS) {m : Nat} (hm : m < sS.localSize) :
    ∃ N, SameDof sp sS n G num N m := by
  have dist := h.distributed fo
  obtain ⟨c1, c2, -⟩ := C01_numbering_bijection h.whole fo hS
  obtain ⟨⟨d, e0, k⟩, ⟨L', hL', hk⟩, -⟩ := c2 m hm
  have hde := (c1 d e0).mp (by simp only at hL'; rw [hL']; rfl)
  obtain ⟨r, hr, e, he, ho, rfl⟩ := h.owner d hde.1 e0 hde.2
  obtain ⟨M, M', e1, e2, e3⟩ := entity_dofs h fo hf hS hr hde.1 he
  simp only at hL'
  rw [hL'] at e2
  cases e2
  have hlt : k < M.length := by rw [e3]; exact (List.getElem?_eq_some_iff.mp hk).1
  have hi : M[k] < (sp r).localSize :=
    (C01_numbering_bijection (h.parts r hr) (h.family fo hr) (hf.yields dist hr)).2.2 d _ M e1 _ (by simp)
  obtain ⟨D, hD, hsp⟩ := finished_spaces dist hf
  refine ⟨gnum D r M[k], r, d, k, M[k], M, e, he, hr, hde.1, e1, by simp [hlt], ?_, L', hL', hk⟩
  rw [hsp r hr, spaceOf_global]
  rw [hsp r hr] at hi
  exact if_pos hi

end
end Bempp
