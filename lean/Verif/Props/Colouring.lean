import Verif.Proofs.Colouring
import Verif.Props.Dofs
import Mathlib.Data.List.FinRange
/-
C06, C07, C50: the colouring of the cells.
-/
namespace Bempp
open Examples

theorem perm_by_key {α : Type} (key : α → Nat) (l : List α) (N : Nat) :
    ((List.range N).flatMap fun c => l.filter fun x => decide (key x = c)).Perm
      (l.filter fun x => decide (key x < N)) := by
  induction N with
  | zero => simp
  | succ N ih =>
    rw [List.range_succ, List.flatMap_append]
    have h := List.filter_append_perm (fun x => decide (key x < N))
      (l.filter fun x => decide (key x < N + 1))
    rw [List.filter_filter, List.filter_filter] at h
    refine List.Perm.trans ?_ h
    apply List.Perm.append
    · refine ih.trans (List.Perm.of_eq ?_)
      apply List.filter_congr
      intro x _
      by_cases h : key x < N
      · have : key x < N + 1 := by omega
        simp [h, this]
      · simp [h]
    · refine List.Perm.of_eq ?_
      simp only [List.flatMap_cons, List.flatMap_nil, List.append_nil]
      apply List.filter_congr
      intro x _
      by_cases h : key x = N
      · simp [h]
      · by_cases h2 : key x < N
        · simp [h, h2]
        · have : ¬ key x < N + 1 := by omega
          simp [h, this]

variable {rank size : Nat} {g : Grid} {fam : CellType → ElementDofs} {nd : Nat → Nat → Nat}
  {sp : FunctionSpace} {t0 : CellType}

/-- Two cells with the same number are the same cell. -/
theorem cell_ext (wf : g.WF) {c c' : Entity} (hc : c ∈ g.entityIter 2) (hc' : c' ∈ g.entityIter 2)
    (h : c.localIndex = c'.localIndex) : c = c' := by
  have h1 := wf.entity 2 (by omega) c hc
  have h2 := wf.entity 2 (by omega) c' hc'
  rw [h, h2] at h1
  cases h1; rfl

theorem colouring_exists (wf : g.WF) (fo : FamilyOn g fam nd) (co : Colourable g fam nd t0)
    (h : (FunctionSpace.new rank size g fam).Yields sp) :
    ∃ col edim κ N s, sp.cellColouring = some col ∧ s.col = col ∧
      κ.map Prod.fst = g.entityIter 2 ∧ ColInv g edim κ N s ∧ edim ≤ 2 ∧
      (∀ d, d < edim → ∀ e, nd d e = 0) ∧ (fam t0).entityDofs edim 0 ≠ some [] := by
  obtain ⟨dm, _, _, _, _, hg, _, hel⟩ := new_local h
  have ht0 : t0 ∈ g.entityTypes 2 := List.mem_of_getElem? co.first
  have hwf := fo.elem t0 ht0
  have hdef : ∀ d, d ≤ 2 → ((fam t0).entityDofs d 0).isSome := by
    intro d hd
    apply hwf.defined d hd 0
    rcases wf.cell_types t0 ht0 with rfl | rfl <;>
      rcases (by omega : d = 0 ∨ d = 1 ∨ d = 2) with rfl | rfl | rfl <;> decide
  obtain ⟨edim, he, he2, hhere, hlow⟩ := findEdim_spec (fam t0) hdef co.exists_dof
  have hlen : entityColoursLen g edim = some (g.count edim) := by
    unfold entityColoursLen
    rcases (by omega : edim = 0 ∨ edim = 1 ∨ edim = 2) with rfl | rfl | rfl
    · simp [Grid.count, wf.types0]
    · simp [Grid.count, wf.types1]
    · simp [Grid.count, wf.tdim]
  obtain ⟨s, κ, N, hs, hκ, inv⟩ := colourLoop_inv g wf edim he2
  refine ⟨s.col, edim, κ, N, s, ?_, rfl, hκ, inv, he2, ?_, hhere⟩
  · unfold FunctionSpace.cellColouring FunctionSpace.element
    rw [hg, hel, wf.tdim]
    simp only [co.first, Option.bind_eq_bind, Option.bind_some, lookup_map_self, ht0, if_true, he,
      hlen, hs]
  · intro d hd e
    exact co.lowest d (by omega) (hlow d hd) e

/-- **C06.** `cell_colouring()` succeeds, has exactly the cell types of the grid as keys, and the lists
of each key together are a rearrangement of the cells of that type: every cell appears exactly once,
under its own type, and nothing else appears. -/
theorem C06_colouring_partition (wf : g.WF) (fo : FamilyOn g fam nd) (co : Colourable g fam nd t0)
    (h : (FunctionSpace.new rank size g fam).Yields sp) :
    ∃ col, sp.cellColouring = some col ∧
      (∀ t, (col t).isSome ↔ t ∈ g.entityTypes 2) ∧
      (∀ t cols, col t = some cols → cols.flatten.Perm
        (((g.entityIter 2).filter fun c => decide (c.entityType = t)).map Entity.localIndex)) ∧
      ((g.entityIter 2).map Entity.localIndex).Nodup := by
  obtain ⟨col, edim, κ, N, s, h1, h2, hκ, inv, _, _, _⟩ := colouring_exists wf fo co h
  subst h2
  refine ⟨s.col, h1, ?_, ?_, (wf.index 2 (by omega)).nodup_iff.mpr List.nodup_range⟩
  · intro t
    rw [inv.col t]
    split <;> simp_all
  · intro t cols hcols
    rw [inv.col t] at hcols
    split at hcols
    · cases hcols
      have hp := perm_by_key (fun x : Entity × Nat => x.2)
        (κ.filter fun x => decide (x.1.entityType = t)) N
      have e1 : (List.map (fun c => classOf κ t c) (List.range N)).flatten =
          ((List.range N).flatMap fun c => (κ.filter fun x => decide (x.1.entityType = t)).filter
            fun x => decide (x.2 = c)).map fun x => x.1.localIndex := by
        rw [List.map_flatMap, ← List.flatMap_def]
        congr 1
        funext c
        unfold classOf
        rw [List.filter_filter]
        congr 1
        apply List.filter_congr
        intro x _
        rw [Bool.decide_and, Bool.and_comm]
      rw [e1]
      refine (hp.map _).trans (List.Perm.of_eq ?_)
      rw [← hκ, List.filter_map, List.map_map, List.filter_filter]
      congr 1
      apply List.filter_congr
      intro x hx
      have := inv.lt x hx
      simp [this]
    · cases hcols

/-- A cell has colour `k` in a colouring. -/
def HasColour (col : Colouring) (c : Entity) (k : Nat) : Prop :=
  ∃ cols l, col c.entityType = some cols ∧ cols[k]? = some l ∧ c.localIndex ∈ l

/-- The colour of a cell in the final state is the one recorded by the loop. -/
theorem hasColour_iff (wf : g.WF) {edim N : Nat} {κ : List (Entity × Nat)} {s : ColState}
    (hκ : κ.map Prod.fst = g.entityIter 2) (inv : ColInv g edim κ N s) {c : Entity}
    (hc : c ∈ g.entityIter 2) {k : Nat} : HasColour s.col c k ↔ (c, k) ∈ κ := by
  constructor
  · rintro ⟨cols, l, hl1, hl2, hl3⟩
    rw [inv.col, if_pos (wf.types c hc)] at hl1
    cases hl1
    rw [List.getElem?_map] at hl2
    simp only [Option.map_eq_some_iff] at hl2
    obtain ⟨k', hk1, rfl⟩ := hl2
    have hkk : k' = k := by
      have := (List.getElem?_eq_some_iff.mp hk1).2
      simpa using this.symm
    subst hkk
    unfold classOf at hl3
    simp only [List.mem_map, List.mem_filter, decide_eq_true_eq] at hl3
    obtain ⟨x, ⟨hx, _, hx2⟩, hx3⟩ := hl3
    have hxc : x.1 ∈ g.entityIter 2 := by rw [← hκ]; exact List.mem_map_of_mem hx
    have : x.1 = c := cell_ext wf hxc hc hx3
    rw [← this, ← hx2]; exact hx
  · intro hm
    refine ⟨_, classOf κ c.entityType k, by rw [inv.col, if_pos (wf.types c hc)], ?_, ?_⟩
    · rw [List.getElem?_map, List.getElem?_range (inv.lt _ hm)]; rfl
    · unfold classOf
      simp only [List.mem_map, List.mem_filter, decide_eq_true_eq]
      exact ⟨(c, k), ⟨hm, rfl, rfl⟩, rfl⟩

/-- On a conforming grid, cells with a common edge have a common vertex. -/
theorem shared_vertex_of_edge {ev : Nat → Nat × Nat} (ed : g.Edges ev) {c c' : Entity}
    (hc : c ∈ g.entityIter 2) (hc' : c' ∈ g.entityIter 2) {e : Nat} (he : e ∈ c.sub 1)
    (he' : e ∈ c'.sub 1) : ∃ v, v ∈ c.sub 0 ∧ v ∈ c'.sub 0 := by
  obtain ⟨i, hi⟩ := List.getElem?_of_mem he
  obtain ⟨i', hi'⟩ := List.getElem?_of_mem he'
  obtain ⟨a, b, va, vb, _, ha, hb, hs⟩ := ed.ref c hc i e hi
  obtain ⟨a', b', va', vb', _, ha', hb', hs'⟩ := ed.ref c' hc' i' e hi'
  refine ⟨va, List.mem_of_getElem? ha, ?_⟩
  have : va = va' ∨ va = vb' := by
    rcases hs with h | h <;> rcases hs' with h' | h' <;> rw [h] at h' <;>
      simp only [Prod.mk.injEq] at h' <;> tauto
  rcases this with rfl | rfl
  · exact List.mem_of_getElem? ha'
  · exact List.mem_of_getElem? hb'

/-- **C07.** Two different cells with the same colour (of the same type or not) have no DOF in
common. -/
theorem C07_same_colour_disjoint (wf : g.WF) {ev : Nat → Nat × Nat} (ed : g.Edges ev)
    (fo : FamilyOn g fam nd) (co : Colourable g fam nd t0)
    (h : (FunctionSpace.new rank size g fam).Yields sp) (col : Colouring)
    (hcol : sp.cellColouring = some col) (c c' : Entity) (hc : c ∈ g.entityIter 2)
    (hc' : c' ∈ g.entityIter 2) (hne : c.localIndex ≠ c'.localIndex) (k : Nat)
    (hk : HasColour col c k) (hk' : HasColour col c' k) (cd cd' : List Nat)
    (hcd : sp.cellDofs c.localIndex = some cd) (hcd' : sp.cellDofs c'.localIndex = some cd') :
    ∀ n ∈ cd, n ∉ cd' := by
  obtain ⟨col', edim, κ, N, s, h1, h2, hκ, inv, he2, hlow, _⟩ := colouring_exists wf fo co h
  rw [hcol] at h1; cases h1; subst h2
  intro n hn hn'
  obtain ⟨d, e, hd, he, he', hpos⟩ :=
    (C04_shared_dofs wf fo h c c' hc hc').mp ⟨cd, cd', n, hcd, hcd', hn, hn'⟩
  have hged : edim ≤ d := by
    rcases Nat.lt_or_ge d edim with hlt | hge
    · rw [hlow d hlt e] at hpos; omega
    · exact hge
  have hd1 : d ≤ 1 := by
    rcases (by omega : d ≤ 1 ∨ d = 2) with h | h
    · exact h
    · subst h
      rw [wf.sub_self c hc] at he
      rw [wf.sub_self c' hc'] at he'
      simp at he he'
      omega
  -- a common entity of the colouring dimension
  obtain ⟨v, hv, hv'⟩ : ∃ v, v ∈ c.sub edim ∧ v ∈ c'.sub edim := by
    rcases (by omega : edim = d ∨ (edim = 0 ∧ d = 1)) with h | ⟨h, h'⟩
    · subst h; exact ⟨e, he, he'⟩
    · subst h; subst h'; exact shared_vertex_of_edge ed hc hc' he he'
  -- both cells are in the list of coloured cells
  have m1 := (hasColour_iff wf hκ inv hc).mp hk
  have m2 := (hasColour_iff wf hκ inv hc').mp hk'
  have := pairwise_forall (fun x y hxy heq v hv hv' => hxy heq.symm v hv' hv) inv.proper m1 m2
    (fun heq => hne (by rw [(Prod.mk.inj heq).1])) rfl v hv
  exact this hv'

/-- Two cells share a DOF: `cell_dofs` of both contain the same number. -/
def SharesDof (sp : FunctionSpace) (c c' : Entity) : Prop :=
  ∃ cd cd' n, sp.cellDofs c.localIndex = some cd ∧ sp.cellDofs c'.localIndex = some cd' ∧
    n ∈ cd ∧ n ∈ cd'

/-- **C50.** A colour is never wasted: a cell of colour `k` shares, for every lower colour `j`, a DOF
with some other cell that has colour `j`. -/
theorem C50_no_wasted_colour (wf : g.WF) (fo : FamilyOn g fam nd) (co : Colourable g fam nd t0)
    (full : ∀ d, d ≤ 2 → (fam t0).entityDofs d 0 ≠ some [] → ∀ e, e < g.count d → 0 < nd d e)
    (h : (FunctionSpace.new rank size g fam).Yields sp) (col : Colouring)
    (hcol : sp.cellColouring = some col) (c : Entity) (hc : c ∈ g.entityIter 2) (k : Nat)
    (hk : HasColour col c k) (j : Nat) (hj : j < k) :
    ∃ c' ∈ g.entityIter 2, c'.localIndex ≠ c.localIndex ∧ HasColour col c' j ∧ SharesDof sp c c' := by
  obtain ⟨col', edim, κ, N, s, h1, h2, hκ, inv, he2, _, hhere⟩ := colouring_exists wf fo co h
  rw [hcol] at h1; cases h1; subst h2
  obtain ⟨y, hy, rfl, v, hv, hv'⟩ := inv.blocked _ ((hasColour_iff wf hκ inv hc).mp hk) j hj
  have hyc : y.1 ∈ g.entityIter 2 := by rw [← hκ]; exact List.mem_map_of_mem hy
  refine ⟨y.1, hyc, ?_, (hasColour_iff wf hκ inv hyc).mpr hy, ?_⟩
  · intro heq
    have e1 : y.1 = c := cell_ext wf hyc hc heq
    have hnd : (κ.map Prod.fst).Nodup := by
      rw [hκ]
      exact List.Nodup.of_map Entity.localIndex
        ((wf.index 2 (by omega)).nodup_iff.mpr List.nodup_range)
    have e2 := List.inj_on_of_nodup_map hnd hy ((hasColour_iff wf hκ inv hc).mp hk) e1
    rw [e2] at hj
    exact absurd hj (Nat.lt_irrefl _)
  · exact (C04_shared_dofs wf fo h c y.1 hc hyc).mpr
      ⟨edim, v, he2, hv, hv', full edim he2 hhere v (wf.sub_lt c hc edim he2 v hv)⟩

open Classical in
/-- **C50.** The number of colours is at most one more than the largest number of other cells with
which a cell shares a DOF; it is the same for all cell types, and no colour is empty. -/
theorem C50_number_of_colours (wf : g.WF) (fo : FamilyOn g fam nd) (co : Colourable g fam nd t0)
    (full : ∀ d, d ≤ 2 → (fam t0).entityDofs d 0 ≠ some [] → ∀ e, e < g.count d → 0 < nd d e)
    (h : (FunctionSpace.new rank size g fam).Yields sp) (col : Colouring)
    (hcol : sp.cellColouring = some col) (D : Nat)
    (hD : ∀ c ∈ g.entityIter 2, ((g.entityIter 2).filter fun c' =>
      decide (c'.localIndex ≠ c.localIndex ∧ SharesDof sp c c')).length ≤ D) :
    ∃ N, N ≤ D + 1 ∧ (∀ t ∈ g.entityTypes 2, ∃ cols, col t = some cols ∧ cols.length = N) ∧
      ∀ k, k < N → ∃ c ∈ g.entityIter 2, HasColour col c k := by
  obtain ⟨col', edim, κ, N, s, h1, h2, hκ, inv, he2, _, hhere⟩ := colouring_exists wf fo co h
  rw [hcol] at h1; cases h1; subst h2
  have hused : ∀ k, k < N → ∃ c ∈ g.entityIter 2, HasColour s.col c k := by
    intro k hk
    obtain ⟨x, hx, rfl⟩ := inv.used k hk
    have hxc : x.1 ∈ g.entityIter 2 := by rw [← hκ]; exact List.mem_map_of_mem hx
    exact ⟨x.1, hxc, (hasColour_iff wf hκ inv hxc).mpr hx⟩
  refine ⟨N, ?_, ?_, hused⟩
  · rcases Nat.eq_zero_or_pos N with h0 | hpos
    · omega
    obtain ⟨c, hc, hk⟩ := hused (N - 1) (by omega)
    have hnb : ∀ j : Fin (N - 1), ∃ c' ∈ g.entityIter 2, c'.localIndex ≠ c.localIndex ∧
        HasColour s.col c' j ∧ SharesDof sp c c' := fun j =>
      C50_no_wasted_colour wf fo co full h s.col hcol c hc (N - 1) hk j j.2
    choose f hf1 hf2 hf3 hf4 using hnb
    have hinj : Function.Injective f := by
      intro a b hab
      have ha := (hasColour_iff wf hκ inv (hf1 a)).mp (hf3 a)
      have hb := (hasColour_iff wf hκ inv (hf1 b)).mp (hf3 b)
      have hnd : (κ.map Prod.fst).Nodup := by
        rw [hκ]
        exact List.Nodup.of_map Entity.localIndex
          ((wf.index 2 (by omega)).nodup_iff.mpr List.nodup_range)
      have := List.inj_on_of_nodup_map hnd ha hb hab
      exact Fin.ext (Prod.mk.inj this).2
    have hsub : (List.ofFn f).Subperm ((g.entityIter 2).filter fun c' =>
        decide (c'.localIndex ≠ c.localIndex ∧ SharesDof sp c c')) := by
      apply List.subperm_of_subset (List.nodup_ofFn_ofInjective hinj)
      intro x hx
      obtain ⟨j, rfl⟩ := List.mem_ofFn.mp hx
      rw [List.mem_filter, decide_eq_true_eq]
      exact ⟨hf1 j, hf2 j, hf4 j⟩
    have := hsub.length_le
    rw [List.length_ofFn] at this
    have := hD c hc
    omega
  · intro t ht
    exact ⟨_, by rw [inv.col, if_pos ht], by simp⟩

/-! ### The hypotheses can be met -/

theorem p2_colourable : Colourable mixed p2
    (fun d e => if d = 0 ∨ d = 1 then 1 else if e = 2 then 1 else 0) .triangle where
  first := rfl
  exists_dof := ⟨0, [0], by decide, by decide, by decide⟩
  lowest := by
    intro d hd h
    exfalso
    rcases (by omega : d = 0 ∨ d = 1) with rfl | rfl <;> revert h <;> decide

/-- All hypotheses of C06 and C07 hold for a P2 space on the mixed grid, and its colouring needs
several colours: cells 1 (a triangle) and 2 (a quadrilateral) have different colours. -/
example : ∃ sp col, FunctionSpace.new 0 1 mixed p2 = .done sp ∧ sp.cellColouring = some col ∧
    col .triangle = some [[0], [1], []] ∧ col .quadrilateral = some [[], [], [2]] ∧
    ∃ ev, mixed.Edges ev := by
  obtain ⟨sp, h, _⟩ := C18_serial_space mixed_wf p2_mixed mixed_owned
  have hy : (FunctionSpace.new 0 1 mixed p2).Yields sp := by rw [h]; exact .done sp
  obtain ⟨col, hcol, _⟩ := C06_colouring_partition mixed_wf p2_mixed p2_colourable hy
  obtain ⟨dm, _, _, _, _, hg, _, hel⟩ := new_local hy
  refine ⟨sp, col, h, hcol, ?_, ?_, _, mkGrid_edges _ _ _ _ (by decide)⟩
  all_goals
    unfold FunctionSpace.cellColouring FunctionSpace.element at hcol
    rw [hg, hel] at hcol
    have := Option.some_inj.mp (hcol.symm.trans (by rfl))
    rw [this]
    rfl

/-- All hypotheses of C50 hold for the same space: cell 2 has colour 2, so it shares DOFs with a cell
of colour 0 and one of colour 1; the number of colours is bounded too. -/
example : ∃ sp col, FunctionSpace.new 0 1 mixed p2 = .done sp ∧ sp.cellColouring = some col ∧
    (∀ c ∈ mixed.entityIter 2, c.localIndex = 2 → HasColour col c 2 ∧
      ∃ c' ∈ mixed.entityIter 2, c'.localIndex ≠ c.localIndex ∧ HasColour col c' 1 ∧
        SharesDof sp c c') ∧
    ∃ N, N ≤ 3 + 1 ∧ ∀ t ∈ mixed.entityTypes 2, ∃ cols, col t = some cols ∧ cols.length = N := by
  obtain ⟨sp, h, _⟩ := C18_serial_space mixed_wf p2_mixed mixed_owned
  have hy : (FunctionSpace.new 0 1 mixed p2).Yields sp := by rw [h]; exact .done sp
  obtain ⟨col, hcol, _⟩ := C06_colouring_partition mixed_wf p2_mixed p2_colourable hy
  have full : ∀ d, d ≤ 2 → (p2 .triangle).entityDofs d 0 ≠ some [] → ∀ e, e < mixed.count d →
      0 < (fun d e => if d = 0 ∨ d = 1 then 1 else if e = 2 then 1 else 0 : Nat → Nat → Nat) d e := by
    intro d hd hne e _
    rcases (by omega : d = 0 ∨ d = 1 ∨ d = 2) with rfl | rfl | rfl
    · simp
    · simp
    · exact absurd (by decide) hne
  refine ⟨sp, col, h, hcol, ?_, ?_⟩
  · intro c hc hi
    have hk : HasColour col c 2 := by
      obtain ⟨dm, _, _, _, _, hg, _, hel⟩ := new_local hy
      unfold FunctionSpace.cellColouring FunctionSpace.element at hcol
      rw [hg, hel] at hcol
      have := Option.some_inj.mp (hcol.symm.trans (by rfl))
      rw [this]
      have ht : c.entityType = .quadrilateral := by
        revert hi; revert c; decide
      exact ⟨[[], [], [2]], [2], by rw [ht]; rfl, rfl, by rw [hi]; decide⟩
    exact ⟨hk, C50_no_wasted_colour mixed_wf p2_mixed p2_colourable full hy col hcol c hc 2 hk 1
      (by decide)⟩
  · obtain ⟨N, h1, h2, _⟩ := C50_number_of_colours mixed_wf p2_mixed p2_colourable full hy col hcol 3
      (fun c _ => by
        refine Nat.le_trans (List.length_filter_le _ _) ?_
        decide)
    exact ⟨N, h1, h2⟩

end Bempp
