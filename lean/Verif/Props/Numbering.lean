import Verif.Props.Dofs
import Mathlib.Data.List.Induction
/-
C51: the order in which DOF numbers are given out.
-/
namespace Bempp
open Examples

variable {rank size : Nat} {g : Grid} {fam : CellType → ElementDofs} {nd : Nat → Nat → Nat}
  {sp : FunctionSpace}

theorem allVisits_order : (allVisits g fam).map (fun v => (v.d, v.e)) = g.visitOrder := by
  unfold allVisits Grid.visitOrder visitsOf
  simp only [List.map_flatMap, List.map_map]
  congr 1
  funext c
  congr 1
  funext d
  conv_rhs => rw [← List.zipIdx_map_fst 0 (c.sub d), List.map_map]
  rfl

/-- **C51.** DOF number `n` is at position `k` of entity `(d, e)` exactly if `(d, e, k)` is entry `n` of
the list of places one gets by going through the cells in the order of the grid, through the vertices,
edges and interior of each, skipping entities met before, and through the positions on the entity. -/
theorem C51_numbering_order (wf : g.WF) (fo : FamilyOn g fam nd)
    (h : (FunctionSpace.new rank size g fam).Yields sp) (d e k n : Nat) :
    (∃ l, sp.getLocalDofNumbers d e = some l ∧ l[k]? = some n) ↔
      (dofPlaces nd g.visitOrder)[n]? = some (d, e, k) := by
  obtain ⟨dm, inv, hE, hC, hS, _⟩ := space_inv wf fo h
  obtain ⟨loc, hl1, _, hl3, hl4⟩ := inv.loc
  rw [allVisits_order] at hl4
  rw [← hl4, ← hl3, Option.bind_eq_some_iff]
  have hget : sp.getLocalDofNumbers d e = dm.ent d e := by
    simp [FunctionSpace.getLocalDofNumbers, DofState.ent, hE]
  rw [hget]

/-- Entities without DOFs do not matter for the places. -/
theorem dofPlaces_filter (nd : Nat → Nat → Nat) (p : Nat × Nat → Bool)
    (h : ∀ x, p x = false → nd x.1 x.2 = 0) (es : List (Nat × Nat)) :
    dofPlaces nd es = dofPlaces nd (es.filter p) := by
  induction es using List.reverseRecOn with
  | nil => rfl
  | append_singleton es x ih =>
    rw [dofPlaces_append, List.filter_append, ih]
    by_cases hp : p x = true
    · rw [List.filter_cons_of_pos hp, List.filter_nil, dofPlaces_append]
      congr 1
      simp [List.mem_filter, hp]
    · rw [List.filter_cons_of_neg hp, List.filter_nil, List.append_nil]
      have := h x (by simpa using hp)
      simp [this]

theorem dofPlaces_nodup (nd : Nat → Nat → Nat) (es : List (Nat × Nat)) (h : es.Nodup) :
    dofPlaces nd es = es.flatMap fun x => (List.range (nd x.1 x.2)).map fun k => (x.1, x.2, k) := by
  induction es using List.reverseRecOn with
  | nil => rfl
  | append_singleton es x ih =>
    rw [List.nodup_append] at h
    rw [dofPlaces_append, List.flatMap_append, ih h.1, if_neg]
    · simp
    · intro hx
      exact h.2.2 x hx x (by simp) rfl

/-- **C51.** If an element family has all its DOFs in the interior of cells, in the order of the element
(discontinuous elements), the DOFs of the cells are consecutive blocks in the order in which the grid
lists its cells. -/
theorem C51_discontinuous (wf : g.WF) (fo : FamilyOn g fam nd)
    (h : (FunctionSpace.new rank size g fam).Yields sp)
    (hint : ∀ t ∈ g.entityTypes 2, (fam t).entityDofs 2 0 = some (List.range (fam t).dim))
    (pre post : List Entity) (c : Entity) (hc : g.entityIter 2 = pre ++ c :: post) :
    sp.cellDofs c.localIndex = some (List.range'
      ((pre.map fun c => (fam c.entityType).dim).sum) (fam c.entityType).dim) := by
  have hcm : c ∈ g.entityIter 2 := by simp [hc]
  have hnd2 : ∀ c ∈ g.entityIter 2, nd 2 c.localIndex = (fam c.entityType).dim := by
    intro c hc
    have := fo.count c hc 2 (by omega) 0 c.localIndex (by rw [wf.sub_self c hc]; rfl) _
      (hint _ (wf.types c hc))
    rw [← this, List.length_range]
  have hnd : ∀ c ∈ g.entityIter 2, ∀ d, d ≤ 1 → ∀ e ∈ c.sub d, nd d e = 0 := by
    intro c hc d hd e he
    obtain ⟨i, hi⟩ := List.getElem?_of_mem he
    have hwf := fo.elem _ (wf.types c hc)
    have hi2 : i < refCount c.entityType d := by
      rw [← wf.sub_length c hc d (by omega)]; exact (List.getElem?_eq_some_iff.mp hi).1
    obtain ⟨l, hl⟩ := Option.isSome_iff_exists.mp (hwf.defined d (by omega) i hi2)
    rw [← fo.count c hc d (by omega) i e hi l hl]
    rw [List.length_eq_zero_iff, List.eq_nil_iff_forall_not_mem]
    intro x hx
    have h2 : 0 < refCount c.entityType 2 := by
      rw [← wf.sub_length c hc 2 (by omega), wf.sub_self c hc]; simp
    refine hwf.disjoint (by omega : d ≤ 2) hi2 hl (by omega : 2 ≤ 2) h2 (hint _ (wf.types c hc))
      (by simp only [ne_eq, Prod.mk.injEq]; omega) hx ?_
    rw [List.mem_range]
    exact hwf.lt_dim (by omega) hi2 hl hx
  -- the places
  let nd' : Nat → Nat → Nat := fun d e => if d = 2 then nd d e else 0
  have hcongr : dofPlaces nd g.visitOrder = dofPlaces nd' g.visitOrder := by
    unfold dofPlaces
    rw [List.flatMap_def, List.flatMap_def]
    congr 1
    apply List.map_congr_left
    intro x hx
    rw [List.mem_eraseDups] at hx
    unfold Grid.visitOrder at hx
    simp only [List.mem_flatMap, List.mem_map, List.mem_range] at hx
    obtain ⟨c, hc, d, hd, e, he, rfl⟩ := hx
    simp only [nd']
    split
    · rfl
    · rw [hnd c hc d (by omega) e he]
  have hfil : g.visitOrder.filter (fun x => decide (x.1 = 2)) =
      (g.entityIter 2).map fun c => (2, c.localIndex) := by
    unfold Grid.visitOrder
    rw [List.filter_flatMap, List.map_eq_flatMap, List.flatMap_def, List.flatMap_def]
    congr 1
    apply List.map_congr_left
    intro c hc
    simp [List.range_succ, List.filter_append, List.filter_map, Function.comp_def, wf.sub_self c hc]
  have hplaces : dofPlaces nd g.visitOrder = (g.entityIter 2).flatMap fun c =>
      (List.range (fam c.entityType).dim).map fun k => (2, c.localIndex, k) := by
    rw [hcongr, dofPlaces_filter nd' (fun x => decide (x.1 = 2)) (by
      intro x hx
      simp only [decide_eq_false_iff_not] at hx
      simp [nd', hx]), hfil, dofPlaces_nodup]
    · rw [List.flatMap_map, List.flatMap_def, List.flatMap_def]
      congr 1
      apply List.map_congr_left
      intro c hc
      simp [nd', hnd2 c hc]
    · rw [show (fun c : Entity => (2, c.localIndex)) = (fun i => ((2, i) : Nat × Nat)) ∘ Entity.localIndex
        from rfl, ← List.map_map]
      exact ((wf.index 2 (by omega)).nodup_iff.mpr List.nodup_range).map
        (fun a b hab => (Prod.mk.inj hab).2)
  obtain ⟨cd, hcd, hlen, _, _⟩ := (C03_cell_dofs wf fo h).2 c hcm
  rw [hcd, Option.some.injEq]
  apply List.ext_getElem?
  intro k
  by_cases hk : k < (fam c.entityType).dim
  · obtain ⟨cd', ed, n, h1, h2, _, h4, h5⟩ := C02_conformity wf fo h c hcm 2 0 c.localIndex (by omega)
      (by rw [wf.sub_self c hcm]; rfl) _ (hint _ (wf.types c hcm)) k k (by
        rw [List.getElem?_range hk])
    rw [hcd] at h1
    cases h1
    have hn := (C51_numbering_order wf fo h 2 c.localIndex k n).mp ⟨ed, h2, h5⟩
    have hm : (dofPlaces nd g.visitOrder)[(pre.map fun c => (fam c.entityType).dim).sum + k]? =
        some (2, c.localIndex, k) := by
      rw [hplaces, hc, List.flatMap_append, List.flatMap_cons]
      have hl : ((pre.flatMap fun c => (List.range (fam c.entityType).dim).map fun k =>
          ((2, c.localIndex, k) : Nat × Nat × Nat)).length) =
          (pre.map fun c => (fam c.entityType).dim).sum := by
        simp [List.length_flatMap]
      rw [List.getElem?_append_right (by omega), hl, Nat.add_sub_cancel_left,
        List.getElem?_append_left (by simpa using hk), List.getElem?_map, List.getElem?_range hk]
      rfl
    obtain ⟨l, h6, h7⟩ := (C51_numbering_order wf fo h _ _ _ _).mpr hm
    rw [h2] at h6
    cases h6
    rw [h5] at h7
    rw [h4, h7, List.getElem?_range' hk]
    simp
  · rw [List.getElem?_eq_none (by omega), List.getElem?_eq_none (by simpa using hk)]

/-! ### The hypotheses can be met -/

/-- On the mixed grid DP0 gives cell `i` the DOF `i`. -/
example : ∃ sp, FunctionSpace.new 0 1 mixed dp0 = .done sp ∧ sp.cellDofs 2 = some [2] := by
  obtain ⟨sp, h, _⟩ := C18_serial_space mixed_wf dp0_mixed mixed_owned
  have hy : (FunctionSpace.new 0 1 mixed dp0).Yields sp := by rw [h]; exact .done sp
  refine ⟨sp, h, ?_⟩
  have := C51_discontinuous mixed_wf dp0_mixed hy (by decide)
    ((mixed.entityIter 2).take 2) [] ((mixed.entityIter 2).getLast (by decide)) (by rfl)
  exact this

/-- The P2 space on the mixed grid numbers the vertices, edges of the first triangle first, then what
the second triangle adds. -/
example : ∃ sp, FunctionSpace.new 0 1 mixed p2 = .done sp ∧
    ∃ l, sp.getLocalDofNumbers 1 0 = some l ∧ l[0]? = some 3 := by
  obtain ⟨sp, h, _⟩ := C18_serial_space mixed_wf p2_mixed mixed_owned
  have hy : (FunctionSpace.new 0 1 mixed p2).Yields sp := by rw [h]; exact .done sp
  refine ⟨sp, h, (C51_numbering_order mixed_wf p2_mixed hy 1 0 0 3).mpr (by decide +kernel)⟩

end Bempp
