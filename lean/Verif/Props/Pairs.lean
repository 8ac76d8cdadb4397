import Verif.Props.Schedule
import Verif.Proofs.Galerkin
/-
C12, C13, C40: which pairs of cells are integrated, and by which rule.
-/
set_option linter.unusedSectionVars false

namespace Bempp
open Examples

variable {R T : Type}

theorem cells_nodup {g : Grid} (wf : g.WF) : ((g.entityIter 2).map Entity.localIndex).Nodup :=
  (wf.index 2 (by omega)).nodup_iff.mpr List.nodup_range

/-- The numbers of the cells of a pair. -/
def pairIndex (p : Entity × Entity) : Nat × Nat := (p.1.localIndex, p.2.localIndex)

theorem adjacentPairs_nodup {g : Grid} (wf : g.WF) : ((adjacentPairs g).map pairIndex).Nodup := by
  have hn := cells_nodup wf
  have hnE : (g.entityIter 2).Nodup := List.Nodup.of_map _ hn
  unfold adjacentPairs
  rw [List.map_flatMap, List.nodup_flatMap]
  constructor
  · intro c hc
    rw [List.map_map]
    have : (pairIndex ∘ fun c' => (c, c')) = (fun i => (c.localIndex, i)) ∘ Entity.localIndex := rfl
    rw [this, ← List.map_map]
    refine List.Nodup.map (fun a b h => by cases h; rfl) ?_
    exact hn.sublist (List.Sublist.map _ List.filter_sublist)
  · have : ((g.entityIter 2).filter fun c => c.ownership = .owned).Pairwise
        fun a b => a.localIndex ≠ b.localIndex :=
      List.Pairwise.sublist List.filter_sublist (List.pairwise_map.mp hn)
    refine this.imp ?_
    intro a b hab
    simp only [Function.onFun]
    rw [List.disjoint_left]
    intro x hx hy
    rw [List.map_map, List.mem_map] at hx hy
    obtain ⟨_, _, rfl⟩ := hx
    obtain ⟨_, _, e⟩ := hy
    exact hab (congrArg Prod.fst e).symm

theorem SplitAll.length_le {α : Type} {b : Nat} {l : List (List α × Nat)} {bl : List (Nat × List α)}
    (h : SplitAll b l bl) : ∀ x ∈ bl, x.2.length ≤ b := by
  induction h with
  | nil => simp
  | cons h1 _ ih =>
    intro x hx
    rcases List.mem_append.mp hx with hx | hx
    · obtain ⟨y, hy, rfl⟩ := List.mem_map.mp hx
      exact h1.length_le y hy
    · exact ih x hx

/-! ### C12 -/

section
variable [Zero R] [Mul R] [Zero T] [Add T] [Mul T]
  {env : Env R T} {asm : Assembler R T} {trial test : Space R T}
  {famT famR : CellType → ElementDofs} {F : MathIntegrand T} {K : MathKernel R T} {GT GR G : Geometry R}
  {BT BR : Basis R T} {Q : Quadrature R} {t : CellType}

/-- C12: on a conforming grid and for any batch size of at least one, the list of batches is determined;
each ordered pair (owned test cell, trial cell) that has a common vertex is in exactly one batch, once,
and no other pair is; no batch is longer than the batch size; and the rule of a batch is made for the
cell types of each of its pairs and has the quadrature nodes of the connectivity of that very pair. -/
theorem C12_pairs_once (h : SingularSetting env asm trial test famT famR F K G BT BR Q)
    (hb : 0 < asm.options.batchSize) :
    ∃ tb bl, singTables env asm trial test = some tb ∧
    (∀ out, MakeCellBlocks (fun tt rt pairs => tb.pairIndices.get? (tt, rt, pairs)) tb.pairIndices.length
      test.fs.grid asm.options.batchSize out ↔ out = some bl) ∧
    (bl.flatMap Prod.snd).Nodup ∧
    (∀ i j, (i, j) ∈ bl.flatMap Prod.snd ↔ ∃ c ∈ test.fs.grid.entityIter 2, ∃ c' ∈ test.fs.grid.entityIter 2,
      c.localIndex = i ∧ c'.localIndex = j ∧ c.ownership = .owned ∧ c.Touches c') ∧
    (∀ batch ∈ bl, batch.2.length ≤ asm.options.batchSize) ∧
    ∀ batch ∈ bl, ∀ c ∈ test.fs.grid.entityIter 2, ∀ c' ∈ test.fs.grid.entityIter 2,
      (c.localIndex, c'.localIndex) ∈ batch.2 → ∃ rule, tb.rules[batch.1]? = some rule ∧
        rule.testType = c.entityType ∧ rule.trialType = c'.entityType ∧
        rule.testPoints = (Q.singular c.entityType c'.entityType (connectivity c c')).map (fun p => p.1) ∧
        rule.trialPoints = (Q.singular c.entityType c'.entityType (connectivity c c')).map
          (fun p => p.2.1) ∧
        rule.weights = (Q.singular c.entityType c'.entityType (connectivity c c')).map fun p => p.2.2 := by
  have wf := h.testSpace.wf
  obtain ⟨ev, ed, co⟩ := h.conforming
  have hn := h.keys_nodup
  have hcp := cellPairs_eq wf h.vertices ed co hn
    (f := fun k => Map.get? (allKeys test.fs.grid).zipIdx.reverse k) (lookup_keys hn)
    (fun k h1 h2 h3 => mem_allKeys.mpr ⟨h1, h2, h3⟩)
  obtain ⟨bl, hbl⟩ := SplitAll.exists hb (buckets (allKeys test.fs.grid) (foundPairs test.fs.grid)).zipIdx
  have hperm : (bl.flatMap Prod.snd).Perm ((adjacentPairs test.fs.grid).map pairIndex) := by
    have h1 := hbl.flatMap fun _ a => [a]
    simp only [List.flatMap_singleton'] at h1
    have h2 : (bl.flatMap Prod.snd) = bl.flatMap fun x => x.2 := rfl
    rw [h2, h1]
    have h3 : ((buckets (allKeys test.fs.grid) (foundPairs test.fs.grid)).zipIdx.flatMap fun x => x.1) =
        (allKeys test.fs.grid).flatMap fun k =>
          ((foundPairs test.fs.grid).filter fun x => x.1 = k).flatMap fun e => [e.2] := by
      unfold buckets
      rw [List.flatMap_def, List.zipIdx_map_fst, ← List.flatMap_def]
      congr 1
      funext k
      rw [List.map_eq_flatMap]
    rw [h3]
    have h4 := perm_by_keys (fun e : RuleKey × Nat × Nat => e.1) (foundPairs test.fs.grid)
      (allKeys test.fs.grid) hn (found_key wf h.vertices ed co) (fun e => [e.2])
    refine h4.trans (((foundPairs_perm wf h.vertices).flatMap_right _).trans (List.Perm.of_eq ?_))
    rw [List.flatMap_map, List.map_eq_flatMap]
    rfl
  refine ⟨_, bl, h.tables, ?_, hperm.nodup_iff.mpr (adjacentPairs_nodup wf), ?_, ?_, ?_⟩
  · intro out
    unfold MakeCellBlocks
    simp only [List.length_reverse, List.length_zipIdx]
    rw [hcp]
    constructor
    · rintro ⟨bl', h1, rfl⟩
      rw [h1.unique hbl]
    · rintro rfl
      exact ⟨bl, hbl, rfl⟩
  · intro i j
    rw [hperm.mem_iff, List.mem_map]
    constructor
    · rintro ⟨p, hp, e⟩
      obtain ⟨h1, h2, h3, h4⟩ := mem_adjacentPairs.mp hp
      exact ⟨p.1, h1, p.2, h2, congrArg Prod.fst e, congrArg Prod.snd e, h3, h4⟩
    · rintro ⟨c, hc, c', hc', rfl, rfl, h3, h4⟩
      exact ⟨(c, c'), mem_adjacentPairs.mpr ⟨hc, hc', h3, h4⟩, rfl⟩
  · intro batch hm
    exact hbl.length_le batch hm
  · intro batch hm c hc c' hc' hcc
    obtain ⟨⟨y, i⟩, hy, e, hsub⟩ := hbl.mem batch hm
    simp only at e hsub
    subst e
    have hy := List.mk_mem_zipIdx_iff_getElem?.mp hy
    unfold buckets at hy
    rw [List.getElem?_map] at hy
    cases hki : (allKeys test.fs.grid)[batch.1]? with
    | none => rw [hki] at hy; cases hy
    | some k =>
      rw [hki] at hy
      simp only [Option.map_some, Option.some.injEq] at hy
      have := hsub _ hcc
      rw [← hy] at this
      obtain ⟨x, hx, ex⟩ := List.mem_map.mp this
      obtain ⟨hx1, hx2⟩ := List.mem_filter.mp hx
      simp only [decide_eq_true_eq] at hx2
      rw [(foundPairs_perm wf h.vertices).mem_iff] at hx1
      obtain ⟨p, hp, rfl⟩ := List.mem_map.mp hx1
      obtain ⟨p1, p2, _, p3⟩ := mem_adjacentPairs.mp hp
      have e1 := cell_ext wf p1 hc (congrArg Prod.fst ex)
      have e2 := cell_ext wf p2 hc' (congrArg Prod.snd ex)
      rw [e1, e2] at p3
      have hcon := (sharedVertices_possible wf ed co hc hc' p3).2
      refine ⟨singRuleOf asm famT famR BT BR Q k, by simp [hki], ?_⟩
      rw [← hx2]
      unfold singRuleOf keyOf RuleKey.nodes
      simp only [e1, e2, hcon, and_self]

/-! ### C13 -/

/-- The pairs of cells that the tasks of a parallel section integrate: the loop bodies of a task skip
neighbours (`src/boundary_assemblers.rs:750-757`). -/
def regularVisits (test trial : Grid) (tasks : List (List Nat × List Nat)) : List (Nat × Nat) :=
  tasks.flatMap fun task => task.2.flatMap fun rc =>
    (task.1.filter fun tc => neighbours test trial tc rc = some false).map fun tc => (tc, rc)

/-- The visits are what a task does: the `+=` operations of a task are, visit by visit, those of the local
matrix of regular quadrature values, at the positions of the DOFs of the two cells. -/
theorem C13_task_does_visits (h : DenseSetting env asm trial test famT famR F K GT GR BT BR Q t)
    {q : RegRule R T} (hq : regRule env asm trial test t t = some q) (task : List Nat × List Nat)
    (h1 : ∀ i ∈ task.1, ∃ c ∈ test.fs.grid.entityIter 2, c.localIndex = i ∧ c.entityType = t)
    (h2 : ∀ i ∈ task.2, ∃ c ∈ trial.fs.grid.entityIter 2, c.localIndex = i ∧ c.entityType = t) :
    assembleBatchNonadjacent env asm (test.fs.globalSize, trial.fs.globalSize) t t trial task.2 test task.1
      q = some ((regularVisits test.fs.grid trial.fs.grid [task]).flatMap fun p =>
        localOps (test.fs.globalSize, trial.fs.globalSize) ((test.fs.cellDofs p.1).getD [])
          ((trial.fs.cellDofs p.2).getD [])
          ((List.range (famR t).dim).map fun b => (List.range (famT t).dim).map fun a =>
            regularValue env.cast F K GT GR BT BR Q t t p.1 p.2 a b)) := by
  rw [h.regRule_eq] at hq
  cases hq
  rw [h.batch h1 h2]
  congr 1
  simp only [regularVisits, List.flatMap_cons, List.flatMap_nil, List.append_nil]
  rw [List.flatMap_assoc]
  apply flatMap_congr_mem
  intro rc hrc
  rw [List.flatMap_map]
  have : ∀ tc ∈ task.1, neighbours test.fs.grid trial.fs.grid tc rc = some true ∨
      neighbours test.fs.grid trial.fs.grid tc rc = some false := by
    intro tc htc
    obtain ⟨b, hb⟩ := h.neighbours_isSome (h1 tc htc) (h2 rc hrc)
    rw [hb]
    cases b <;> simp
  generalize task.1 = l at this
  induction l with
  | nil => rfl
  | cons a l ih =>
    have ih' := ih fun tc htc => this tc (by simp [htc])
    rw [List.flatMap_cons, ih']
    rcases this a (by simp) with e | e
    · rw [List.filter_cons_of_neg (by simp [e])]
      simp [pairOps, e]
    · rw [List.filter_cons_of_pos (by simp [e]), List.flatMap_cons]
      simp only [pairOps, e, Option.some.injEq, Bool.false_eq_true, if_false, cellDofs_eq,
        FunctionSpace.dofs, FunctionSpace.cellDofsUnchecked]

theorem regularVisits_perm {test trial : Grid} {b : Nat} {testC trialC : List Nat}
    {tasks : List (List Nat × List Nat)} (h : SplitPairs b testC trialC 0 tasks) :
    (regularVisits test trial tasks).Perm (testC.flatMap fun tc => trialC.flatMap fun rc =>
      if neighbours test trial tc rc = some false then [(tc, rc)] else []) := by
  have := h.perm fun tc rc => if neighbours test trial tc rc = some false then [(tc, rc)] else []
  rw [List.drop_zero] at this
  refine List.Perm.trans (List.Perm.of_eq ?_) this
  unfold regularVisits
  congr 1
  funext task
  congr 1
  funext rc
  generalize task.1 = l
  induction l with
  | nil => rfl
  | cons a l ih =>
    rw [List.flatMap_cons, ← ih]
    by_cases hp : neighbours test trial a rc = some false
    · rw [List.filter_cons_of_pos (by simpa using hp), if_pos hp]; rfl
    · rw [List.filter_cons_of_neg (by simpa using hp), if_neg hp]; rfl

theorem flatMap_filter_split {α β : Type} (l : List α) (p q : α → β → Bool) (m : List β) (f : α → β → Nat × Nat)
    (hpq : ∀ a ∈ l, ∀ b ∈ m, q a b = !p a b) :
    ((l.flatMap fun a => (m.filter (p a)).map (f a)) ++ (l.flatMap fun a => m.flatMap fun b =>
      if q a b then [f a b] else [])).Perm (l.flatMap fun a => m.map (f a)) := by
  induction l with
  | nil => simp
  | cons a l ih =>
    simp only [List.flatMap_cons]
    have ih' := ih fun a ha => hpq a (by simp [ha])
    have h1 : ((m.filter (p a)).map (f a) ++ m.flatMap fun b => if q a b then [f a b] else []).Perm
        (m.map (f a)) := by
      have : (m.flatMap fun b => if q a b then [f a b] else []) = (m.filter fun b => !p a b).map (f a) := by
        have hq := hpq a (by simp)
        clear ih ih' hpq
        induction m with
        | nil => rfl
        | cons b m ih =>
          rw [List.flatMap_cons, hq b (by simp), ih fun b hb => hq b (by simp [hb])]
          cases hb : p a b <;> simp [hb]
      rw [this, ← List.map_append]
      exact (List.filter_append_perm (p a) m).map _
    refine List.Perm.trans ?_ (h1.append ih')
    rw [List.append_assoc, List.append_assoc]
    refine List.Perm.append_left _ ?_
    rw [← List.append_assoc, ← List.append_assoc]
    exact List.perm_append_comm.append_right _

theorem types_flatMap {g : Grid} (wf : g.WF) {β : Type} {cols : CellType → List (List Nat)}
    (hc : ∀ t ∈ g.entityTypes 2, (cols t).flatten.Perm
      (((g.entityIter 2).filter fun c => decide (c.entityType = t)).map Entity.localIndex))
    (f : Nat → List β) :
    ((g.entityTypes 2).flatMap fun t => (cols t).flatMap fun l => l.flatMap f).Perm
      ((g.entityIter 2).flatMap fun c => f c.localIndex) := by
  have h1 := perm_by_keys (fun c : Entity => c.entityType) (g.entityIter 2) (g.entityTypes 2) wf.types_nodup
    wf.types (fun c => f c.localIndex)
  refine List.Perm.trans ?_ h1
  apply flatMap_perm_congr
  intro t ht
  rw [← flatten_flatMap]
  refine ((hc t ht).flatMap_right f).trans (List.Perm.of_eq ?_)
  rw [List.flatMap_map]

/-- C13: for two spaces on one grid (which may have both triangles and quadrilaterals), the pairs of the
singular batches together with the pairs that the parallel sections integrate (over all pairs of cell
types, all pairs of colours and all tasks) are all pairs of cells, each exactly once. -/
theorem C13_one_method (h : SingularSetting env asm trial test famT famR F K G BT BR Q)
    (ht : SerialSpace test.fs famT) (hr : SerialSpace trial.fs famR)
    {tb : SingTables R T} (htb : singTables env asm trial test = some tb) {bl : List (Nat × List (Nat × Nat))}
    (hbl : MakeCellBlocks (fun tt rt pairs => tb.pairIndices.get? (tt, rt, pairs)) tb.pairIndices.length
      test.fs.grid asm.options.batchSize (some bl))
    {testCol trialCol : Colouring} (htc : test.fs.cellColouring = some testCol)
    (hrc : trial.fs.cellColouring = some trialCol)
    {tcs rcs : CellType → List (List Nat)}
    (htcs : ∀ t ∈ test.fs.grid.entityTypes 2, testCol t = some (tcs t))
    (hrcs : ∀ t ∈ trial.fs.grid.entityTypes 2, trialCol t = some (rcs t))
    {tasks : List Nat → List Nat → List (List Nat × List Nat)}
    (htasks : ∀ testC trialC, SplitPairs asm.options.batchSize testC trialC 0 (tasks testC trialC)) :
    (bl.flatMap Prod.snd ++
      (test.fs.grid.entityTypes 2).flatMap fun tt => (trial.fs.grid.entityTypes 2).flatMap fun rt =>
        (tcs tt).flatMap fun testC => (rcs rt).flatMap fun trialC =>
          regularVisits test.fs.grid trial.fs.grid (tasks testC trialC)).Perm
    ((test.fs.grid.entityIter 2).flatMap fun c => (test.fs.grid.entityIter 2).map fun c' =>
      (c.localIndex, c'.localIndex)) := by
  have hb : 0 < asm.options.batchSize := by
    rcases Nat.eq_zero_or_pos asm.options.batchSize with h0 | h0
    · have := htasks [0] []
      rw [h0] at this
      exact absurd (this.zero) (by simp)
    · exact h0
  have wf := h.testSpace.wf
  have wf' := h.trialSpace.wf
  obtain ⟨tb', bl', h1, h2, h3, h4, _⟩ := C12_pairs_once h hb
  rw [htb] at h1
  cases h1
  have := (h2 _).mp hbl
  cases this
  -- the regular pairs
  have hreg : ((test.fs.grid.entityTypes 2).flatMap fun tt => (trial.fs.grid.entityTypes 2).flatMap fun rt =>
        (tcs tt).flatMap fun testC => (rcs rt).flatMap fun trialC =>
          regularVisits test.fs.grid trial.fs.grid (tasks testC trialC)).Perm
      ((test.fs.grid.entityIter 2).flatMap fun c => (trial.fs.grid.entityIter 2).flatMap fun c' =>
        if neighbours test.fs.grid trial.fs.grid c.localIndex c'.localIndex = some false then
          [(c.localIndex, c'.localIndex)] else []) := by
    obtain ⟨col, c1, _, c2⟩ := ht.colouring
    rw [htc] at c1; cases c1
    obtain ⟨col, d1, _, d2⟩ := hr.colouring
    rw [hrc] at d1; cases d1
    have e1 := types_flatMap wf (cols := tcs) (fun t ht => c2 t _ (htcs t ht)) fun tc =>
      (trial.fs.grid.entityIter 2).flatMap fun c' =>
        if neighbours test.fs.grid trial.fs.grid tc c'.localIndex = some false then
          [(tc, c'.localIndex)] else []
    refine List.Perm.trans ?_ e1
    apply flatMap_perm_congr
    intro tt _
    refine (flatMap_swap _ _ _).trans ?_
    apply flatMap_perm_congr
    intro testC _
    refine List.Perm.trans (l₂ := (trial.fs.grid.entityTypes 2).flatMap fun rt => (rcs rt).flatMap
      fun trialC => trialC.flatMap fun rc => testC.flatMap fun tc =>
        if neighbours test.fs.grid trial.fs.grid tc rc = some false then [(tc, rc)] else []) ?_ ?_
    · apply flatMap_perm_congr
      intro rt _
      apply flatMap_perm_congr
      intro trialC _
      exact (regularVisits_perm (htasks testC trialC)).trans (flatMap_swap _ _ _)
    · refine (types_flatMap wf' (cols := rcs) (fun t ht => d2 t _ (hrcs t ht)) _).trans ?_
      exact flatMap_swap _ _ _
  -- the singular pairs
  have hsing : (bl.flatMap Prod.snd).Perm ((test.fs.grid.entityIter 2).flatMap fun c =>
      ((test.fs.grid.entityIter 2).filter fun c' => decide (c.Touches c')).map fun c' =>
        (c.localIndex, c'.localIndex)) := by
    rw [List.perm_ext_iff_of_nodup h3]
    · rintro ⟨i, j⟩
      rw [h4, List.mem_flatMap]
      simp only [List.mem_map, List.mem_filter, decide_eq_true_eq, Prod.mk.injEq]
      constructor
      · rintro ⟨c, hc, c', hc', e1, e2, _, h⟩
        exact ⟨c, hc, c', ⟨hc', h⟩, e1, e2⟩
      · rintro ⟨c, hc, c', ⟨hc', h⟩, e1, e2⟩
        exact ⟨c, hc, c', hc', e1, e2, ht.owned 2 (by omega) c hc, h⟩
    · have hall := adjacentPairs_nodup wf
      unfold adjacentPairs at hall
      rw [List.filter_eq_self.mpr (fun c hc => by simp [ht.owned 2 (by omega) c hc]), List.map_flatMap] at hall
      convert hall using 2
      funext c
      rw [List.map_map]
      congr 1
      apply List.filter_congr
      intro c' _
      rw [Bool.eq_iff_iff, decide_eq_true_eq]
      simp [Entity.Touches]
  refine (hsing.append hreg).trans ?_
  rw [h.sameGrid]
  refine List.Perm.trans (List.Perm.of_eq ?_) (flatMap_filter_split (test.fs.grid.entityIter 2)
    (fun c c' => decide (c.Touches c')) (fun c c' => decide (neighbours test.fs.grid test.fs.grid
      c.localIndex c'.localIndex = some false)) (test.fs.grid.entityIter 2)
    (fun c c' => (c.localIndex, c'.localIndex)) ?_)
  · simp only [decide_eq_true_eq]
  · intro c hc c' hc'
    rw [neighbours_cells wf (fun _ => rfl) hc hc']
    simp

end

/-! ### C40 -/

section
variable {env : Env R T} {g : Grid}

/-- C40: let `c` and `c'` be two cells of a conforming grid that touch each other, and `pairs` the list of
local vertex pairs that the assembler finds for them. The list is exactly the list of coinciding local
vertices; and the rule that is looked up is the Duffy rule of the two cell types for a connectivity whose
dimension is 2 if the cells are the same cell, 1 if they are different and have an edge in common, 0 if they
are different and have exactly one vertex in common. The list is among those for which rules are made. -/
theorem C40_rule_matches {ev : Nat → Nat × Nat} (wf : g.WF) (ed : g.Edges ev) (co : g.Conforming ev)
    {c c' : Entity} (hc : c ∈ g.entityIter 2) (hc' : c' ∈ g.entityIter 2) (hs : c.Touches c')
    {v : Nat} {pairs : List (Nat × Nat)} (hp : getPairsIfSmallest c c' v = some pairs) :
    pairs ∈ possiblePairs c.entityType c'.entityType ∧
    (∀ i j : Nat, (i, j) ∈ pairs ↔ ∃ u, (c.sub 0)[i]? = some u ∧ (c'.sub 0)[j]? = some u) ∧
    ∃ dim, (∀ n, getSingularQuadratureRule env c.entityType c'.entityType pairs n =
        env.duffy c.entityType c'.entityType ⟨dim, pairs⟩ n) ∧
      Connectivity.Possible c.entityType c'.entityType ⟨dim, pairs⟩ ∧
      (dim = 2 ↔ c = c') ∧
      (dim = 1 ↔ c ≠ c' ∧ ∃ e, e ∈ c.sub 1 ∧ e ∈ c'.sub 1) ∧
      (dim = 0 ↔ c ≠ c' ∧ ∃! u, u ∈ c.sub 0 ∧ u ∈ c'.sub 0) := by
  rw [getPairsIfSmallest_eq] at hp
  split at hp
  · cases hp
  rw [Option.some.injEq] at hp
  subst hp
  obtain ⟨h1, h2⟩ := sharedVertices_possible wf ed co hc hc' hs
  have tt := wf.cell_types _ (wf.types c hc)
  have rt := wf.cell_types _ (wf.types c' hc')
  obtain ⟨h3, h4⟩ := possiblePairs_possible tt h1
  have hcon : conOf (sharedVertices c c') = ⟨(connectivity c c').connectivityDimension,
    sharedVertices c c'⟩ := h2
  have heq : c.localIndex = c'.localIndex ↔ c = c' := ⟨cell_ext wf hc hc', fun e => by rw [e]⟩
  have hn := wf.sub_nodup c hc 0 (by omega)
  have hn' := wf.sub_nodup c' hc' 0 (by omega)
  have hsorted := sharedVertices_sorted (c' := c') hn
  have hone : c ≠ c' → ((sharedVertices c c').length = 1 ↔ ∃! u, u ∈ c.sub 0 ∧ u ∈ c'.sub 0) := by
    intro hcc
    constructor
    · intro hl
      obtain ⟨p, e⟩ := List.length_eq_one_iff.mp hl
      obtain ⟨u, hu, hu'⟩ := hs
      refine ⟨u, ⟨hu, hu'⟩, ?_⟩
      rintro w ⟨hw, hw'⟩
      obtain ⟨i, hi⟩ := List.getElem?_of_mem hu
      obtain ⟨j, hj⟩ := List.getElem?_of_mem hu'
      obtain ⟨k, hk⟩ := List.getElem?_of_mem hw
      obtain ⟨l, hl⟩ := List.getElem?_of_mem hw'
      have m1 : (i, j) ∈ sharedVertices c c' := mem_sharedVertices.mpr ⟨u, hi, hj⟩
      have m2 : (k, l) ∈ sharedVertices c c' := mem_sharedVertices.mpr ⟨w, hk, hl⟩
      rw [e, List.mem_singleton] at m1 m2
      rw [← m1] at m2
      cases m2
      rw [hi] at hk
      cases hk
      rfl
    · rintro ⟨u, _, huniq⟩
      cases hsv : sharedVertices c c' with
      | nil => exact absurd hsv h3
      | cons p l =>
        cases l with
        | nil => rfl
        | cons q l =>
          exfalso
          have hp : p ∈ sharedVertices c c' := by rw [hsv]; simp
          have hq : q ∈ sharedVertices c c' := by rw [hsv]; simp
          obtain ⟨a, ha, ha'⟩ := mem_sharedVertices.mp hp
          obtain ⟨b, hb, hb'⟩ := mem_sharedVertices.mp hq
          have ea := huniq a ⟨List.mem_of_getElem? ha, List.mem_of_getElem? ha'⟩
          have eb := huniq b ⟨List.mem_of_getElem? hb, List.mem_of_getElem? hb'⟩
          rw [ea] at ha'
          rw [eb] at hb'
          have := nodup_index hn' ha' hb'
          rw [hsv] at hsorted
          have := (List.pairwise_cons.mp hsorted).1 q (by simp)
          omega
  have hedge : c ≠ c' → (¬ (sharedVertices c c').length = 1 ↔ ∃ e, e ∈ c.sub 1 ∧ e ∈ c'.sub 1) := by
    intro hcc
    have hli : c.localIndex ≠ c'.localIndex := fun e => hcc (heq.mp e)
    rw [hone hcc]
    constructor
    · intro hnu
      obtain ⟨u, hu, hu'⟩ := hs
      have : ∃ w, (w ∈ c.sub 0 ∧ w ∈ c'.sub 0) ∧ u ≠ w := by
        by_contra hno
        apply hnu
        refine ⟨u, ⟨hu, hu'⟩, fun w hw => ?_⟩
        by_contra hwu
        exact hno ⟨w, hw, fun e => hwu e.symm⟩
      obtain ⟨w, ⟨hw, hw'⟩, huw⟩ := this
      obtain ⟨e, he, he', _⟩ := co.edge c hc c' hc' hli u hu w hw hu' hw' huw
      exact ⟨e, he, he'⟩
    · rintro ⟨e, he, he'⟩ ⟨u, _, huniq⟩
      obtain ⟨i, hi⟩ := List.getElem?_of_mem he
      obtain ⟨i', hi'⟩ := List.getElem?_of_mem he'
      obtain ⟨a, b, va, vb, e1, e2, e3, e4⟩ := ed.ref c hc i e hi
      obtain ⟨a', b', va', vb', f1, f2, f3, f4⟩ := ed.ref c' hc' i' e hi'
      have hab := refEdges_lt (List.mem_of_getElem? e1)
      have hv : va ≠ vb := by
        rintro rfl
        have := nodup_index hn e2 e3
        omega
      have : va ∈ c'.sub 0 ∧ vb ∈ c'.sub 0 := by
        rcases e4.cases f4 with ⟨rfl, rfl⟩ | ⟨rfl, rfl⟩
        · exact ⟨List.mem_of_getElem? f2, List.mem_of_getElem? f3⟩
        · exact ⟨List.mem_of_getElem? f3, List.mem_of_getElem? f2⟩
      exact hv ((huniq va ⟨List.mem_of_getElem? e2, this.1⟩).trans
        (huniq vb ⟨List.mem_of_getElem? e3, this.2⟩).symm)
  refine ⟨h1, fun i j => mem_sharedVertices, (connectivity c c').connectivityDimension, ?_, ?_, ?_⟩
  · intro n
    rw [singularRule_eq env tt rt h3, hcon]
  · rw [← hcon]; exact h4
  · unfold connectivity
    simp only
    by_cases hcc : c = c'
    · subst hcc
      simp
    · rw [if_neg (fun e => hcc (heq.mp e))]
      have a1 := hone hcc
      have a2 := hedge hcc
      by_cases hl : (sharedVertices c c').length = 1
      · rw [if_pos hl]
        refine ⟨⟨fun e => by omega, fun e => absurd e hcc⟩, ⟨fun e => by omega, fun e => ?_⟩, fun _ =>
          ⟨hcc, a1.mp hl⟩, fun _ => rfl⟩
        exact absurd hl (a2.mpr e.2)
      · rw [if_neg hl]
        refine ⟨⟨fun e => by omega, fun e => absurd e hcc⟩, ⟨fun _ => ⟨hcc, a2.mp hl⟩, fun _ => rfl⟩,
          fun e => by omega, fun e => ?_⟩
        exact absurd (a1.mpr e.2) hl

/-- C40: no rule is given for cells that do not touch or that are neither triangles nor quadrilaterals. -/
theorem C40_rejected (tt rt : CellType) (pairs : List (Nat × Nat)) (n : Nat)
    (h : pairs = [] ∨ (tt ≠ .triangle ∧ tt ≠ .quadrilateral) ∨ (rt ≠ .triangle ∧ rt ≠ .quadrilateral)) :
    getSingularQuadratureRule env tt rt pairs n = none := by
  unfold getSingularQuadratureRule
  by_cases hp : pairs = []
  · subst hp; rfl
  · rw [if_neg (by simpa using hp)]
    rcases h with h | h
    · exact absurd h hp
    · cases tt <;> cases rt <;> simp at h ⊢

end

/-! ### The hypotheses can be met -/

/-- On the octahedron every cell touches all cells but the opposite one. -/
example : (adjacentPairs octahedron).length = 56 := by decide +kernel

/-- C12 for P1 on the octahedron with batch size 5. -/
example : ∃ fs tb bl, SerialSpace fs p1 ∧
    let asm := Laplace.singleLayer (kernelOf squareKernel) (smallOptions.setBatchSize 5)
    let sp := spaceOf fs p1 octGeometry p1Basis
    singTables exEnv asm sp sp = some tb ∧
    MakeCellBlocks (fun tt rt pairs => tb.pairIndices.get? (tt, rt, pairs)) tb.pairIndices.length
      octahedron 5 (some bl) ∧ (bl.flatMap Prod.snd).Nodup ∧ (0, 1) ∈ bl.flatMap Prod.snd ∧
      (0, 6) ∉ bl.flatMap Prod.snd := by
  obtain ⟨fs, h, hg⟩ := octSpace
  have hset := octSingularSetting (asm := Laplace.singleLayer (kernelOf squareKernel)
    (smallOptions.setBatchSize 5)) h hg (exSingle_computes _) (by decide)
  obtain ⟨tb, bl, h1, h2, h3, h4, _⟩ := C12_pairs_once hset (by decide)
  have hg' : (spaceOf fs p1 octGeometry p1Basis).fs.grid = octahedron := hg
  rw [hg'] at h2 h4
  refine ⟨fs, tb, bl, h, h1, (h2 _).mpr rfl, h3, ?_, ?_⟩
  · rw [h4]; decide +kernel
  · rw [h4]; decide +kernel

/-- C13 for P1 on the octahedron with batch size 5: the hypotheses are met. -/
example : ∃ (fs : FunctionSpace) (tb : SingTables Rat Rat) (bl : List (Nat × List (Nat × Nat)))
    (col : Colouring) (tcs : CellType → List (List Nat))
    (tasks : List Nat → List Nat → List (List Nat × List Nat)), SerialSpace fs p1 ∧
    let asm := Laplace.singleLayer (kernelOf squareKernel) (smallOptions.setBatchSize 5)
    let sp := spaceOf fs p1 octGeometry p1Basis
    singTables exEnv asm sp sp = some tb ∧
    MakeCellBlocks (fun tt rt pairs => tb.pairIndices.get? (tt, rt, pairs)) tb.pairIndices.length
      fs.grid 5 (some bl) ∧ fs.cellColouring = some col ∧
    (∀ t ∈ fs.grid.entityTypes 2, col t = some (tcs t)) ∧
    (∀ testC trialC, SplitPairs 5 testC trialC 0 (tasks testC trialC)) ∧
    (bl.flatMap Prod.snd ++
      (fs.grid.entityTypes 2).flatMap fun tt => (fs.grid.entityTypes 2).flatMap fun rt =>
        (tcs tt).flatMap fun testC => (tcs rt).flatMap fun trialC =>
          regularVisits fs.grid fs.grid (tasks testC trialC)).length = 64 := by
  obtain ⟨fs, h, hg⟩ := octSpace
  have hset := octSingularSetting (asm := Laplace.singleLayer (kernelOf squareKernel)
    (smallOptions.setBatchSize 5)) h hg (exSingle_computes _) (by decide)
  obtain ⟨tb, bl, h1, h2, _⟩ := C12_pairs_once hset (by decide)
  obtain ⟨col, hc, hc2, _⟩ := h.colouring
  have htc : ∀ t ∈ fs.grid.entityTypes 2, col t = some ((col t).getD []) := by
    intro t ht
    obtain ⟨x, hx⟩ := Option.isSome_iff_exists.mp ((hc2 t).mpr ht)
    simp [hx]
  refine ⟨fs, tb, bl, col, fun t => (col t).getD [], fun a b =>
    (SplitPairs.exists (b := 5) (by omega) a b 0).choose, h, h1, (h2 _).mpr rfl, hc, htc,
    fun a b => (SplitPairs.exists (b := 5) (by omega) a b 0).choose_spec, ?_⟩
  have := C13_one_method hset h h h1 ((h2 _).mpr rfl) hc hc htc htc
    (fun a b => (SplitPairs.exists (b := 5) (by omega) a b 0).choose_spec)
  refine this.length_eq.trans ?_
  have hg' : (spaceOf fs p1 octGeometry p1Basis).fs.grid = octahedron := hg
  rw [hg']
  decide +kernel

/-- C40: cells 0 and 1 of the octahedron have an edge in common, cells 0 and 2 one vertex. -/
example : ∃ c0 c1 c2, octahedron.entity 2 0 = some c0 ∧ octahedron.entity 2 1 = some c1 ∧
    octahedron.entity 2 2 = some c2 ∧ getPairsIfSmallest c0 c1 0 = some [(0, 0), (2, 1)] ∧
    getPairsIfSmallest c0 c2 0 = some [(0, 0)] ∧ getPairsIfSmallest c0 c1 2 = none :=
  ⟨_, _, _, rfl, rfl, rfl, by decide +kernel⟩

end Bempp
