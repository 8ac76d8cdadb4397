import Verif.Spec.Work
import Verif.Props.Touching
import Verif.Props.Concurrent
import Verif.Props.Pairs
import Verif.Proofs.ExampleSettings
/-
**C114.** How the work of assembly is divided into tasks.
-/
set_option linter.unusedSectionVars false

namespace Bempp

/-! ### Groups -/

theorem groups_zero {b : Nat} (hb : 0 < b) : groups 0 b = 0 := by
  unfold groups
  exact Nat.div_eq_of_lt (by omega)

theorem groups_step {n b : Nat} (hb : 0 < b) (hn : 0 < n) : groups n b = groups (n - min b n) b + 1 := by
  unfold groups
  rcases Nat.lt_or_ge b n with h | h
  · rw [Nat.min_eq_left (by omega), ← Nat.add_div_right _ hb]
    congr 1
    omega
  · rw [Nat.min_eq_right h, Nat.sub_self, Nat.div_eq_of_lt (by omega : 0 + b - 1 < b)]
    rw [show n + b - 1 = (n - 1) + b by omega, Nat.add_div_right _ hb, Nat.div_eq_of_lt (by omega)]

theorem groups_le (n : Nat) {b : Nat} (hb : 0 < b) : groups n b ≤ n / b + 1 := by
  unfold groups
  rw [← Nat.add_div_right _ hb]
  exact Nat.div_le_div_right (by omega)

/-- `groups n b` groups of at most `b` are enough for `n` things, and fewer are not. -/
theorem groups_least {b : Nat} (hb : 0 < b) (n k : Nat) : groups n b ≤ k ↔ n ≤ k * b := by
  unfold groups
  rw [Nat.div_le_iff_le_mul hb]
  rw [Nat.mul_comm]
  omega

theorem groups_sum {α : Type} {b : Nat} (hb : 0 < b) (l : List α) (f : α → Nat) :
    (l.map fun a => groups (f a) b).sum ≤ (l.map f).sum / b + l.length := by
  induction l with
  | nil => simp
  | cons a l ih =>
    simp only [List.map_cons, List.sum_cons, List.length_cons]
    have h1 := groups_le (f a) hb
    have h2 : f a / b + (l.map f).sum / b ≤ (f a + (l.map f).sum) / b := by
      rw [Nat.le_div_iff_mul_le hb, Nat.add_mul]
      exact Nat.add_le_add (Nat.div_mul_le_self _ _) (Nat.div_mul_le_self _ _)
    omega

theorem Split.sizes {α : Type} {b : Nat} (hb : 0 < b) {c : List α} {start : Nat} {bs : List (List α)} (h : Split b c start bs) :
    bs.length = groups (c.length - start) b ∧ ∀ x ∈ bs, 0 < x.length ∧ x.length ≤ b := by
  induction h with
  | stop h => rw [Nat.sub_eq_zero_of_le (by omega), groups_zero hb]; simp
  | @step start stop rest h1 h2 _ ih =>
    refine ⟨?_, ?_⟩
    · rw [List.length_cons, ih.1, groups_step hb (by omega : 0 < c.length - start)]
      congr 2
      omega
    · intro x hx
      rcases List.mem_cons.mp hx with rfl | hx
      · rw [List.length_take, List.length_drop]; omega
      · exact ih.2 x hx

theorem SplitTrial.sizes {α : Type} {b : Nat} (hb : 0 < b) {c : List α} {start : Nat} {bs : List (List α)}
    (h : SplitTrial b c start bs) :
    bs.length = groups (c.length - start) b ∧ ∀ x ∈ bs, 0 < x.length ∧ x.length ≤ b := by
  induction h with
  | stop h => rw [Nat.sub_eq_zero_of_le (by omega), groups_zero hb]; simp
  | @step start stop rest h1 h2 _ ih =>
    refine ⟨?_, ?_⟩
    · rw [List.length_cons, ih.1, groups_step hb (by omega : 0 < c.length - start)]
      congr 2
      split at h2 <;> omega
    · intro x hx
      rcases List.mem_cons.mp hx with rfl | hx
      · rw [List.length_take, List.length_drop]; split at h2 <;> omega
      · exact ih.2 x hx

theorem SplitPairs.sizes {b : Nat} (hb : 0 < b) {testC trialC : List Nat} {start : Nat} {tasks : List (List Nat × List Nat)}
    (h : SplitPairs b testC trialC start tasks) :
    tasks.length = groups (testC.length - start) b * groups trialC.length b ∧
    ∀ x ∈ tasks, (0 < x.1.length ∧ x.1.length ≤ b) ∧ 0 < x.2.length ∧ x.2.length ≤ b := by
  induction h with
  | stop h => rw [Nat.sub_eq_zero_of_le (by omega), groups_zero hb]; simp
  | @step start stop trs rest h1 h2 h3 _ ih =>
    obtain ⟨e, hs⟩ := h3.sizes hb
    refine ⟨?_, ?_⟩
    · rw [List.length_append, List.length_map, ih.1, e, groups_step hb (by omega : 0 < testC.length - start), Nat.sub_zero, Nat.add_mul,
        Nat.one_mul, Nat.add_comm]
      congr 3
      split at h2 <;> omega
    · intro x hx
      rcases List.mem_append.mp hx with hx | hx
      · obtain ⟨tr, htr, rfl⟩ := List.mem_map.mp hx
        refine ⟨?_, hs tr htr⟩
        rw [List.length_take, List.length_drop]
        split at h2 <;> omega
      · exact ih.2 x hx

theorem SplitAll.sizes {α : Type} {b : Nat} (hb : 0 < b) {l : List (List α × Nat)} {bl : List (Nat × List α)} (h : SplitAll b l bl) :
    bl.length = (l.map fun x => groups x.1.length b).sum ∧ ∀ x ∈ bl, 0 < x.2.length ∧ x.2.length ≤ b := by
  induction h with
  | nil => simp
  | @cons c i l bs rest h1 _ ih =>
    obtain ⟨e, hs⟩ := h1.sizes hb
    refine ⟨?_, ?_⟩
    · rw [List.length_append, List.length_map, ih.1, e]
      simp
    · intro x hx
      rcases List.mem_append.mp hx with hx | hx
      · obtain ⟨y, hy, rfl⟩ := List.mem_map.mp hx
        exact hs y hy
      · exact ih.2 x hx

/-! ### One parallel section -/

/-- **C114**, a parallel section of dense assembly, for any two colours and any batch size of at least one: every task has at least one
test and one trial cell and not more of either than the batch size; there are exactly as many tasks as groups of this size are needed
for the test cells times as many as are needed for the trial cells; and every test cell meets every trial cell in exactly one task. -/
theorem C114_section {b : Nat} (hb : 0 < b) (testC trialC : List Nat) :
    ∃ tasks, (∀ tasks', SplitPairs b testC trialC 0 tasks' ↔ tasks' = tasks) ∧
      tasks.length = groups testC.length b * groups trialC.length b ∧
      (∀ t ∈ tasks, (0 < t.1.length ∧ t.1.length ≤ b) ∧ 0 < t.2.length ∧ t.2.length ≤ b) ∧
      (tasks.flatMap fun t => t.2.flatMap fun r => t.1.map fun c => (c, r)).Perm
        (testC.flatMap fun c => trialC.map fun r => (c, r)) := by
  obtain ⟨tasks, h⟩ := SplitPairs.exists hb testC trialC 0
  refine ⟨tasks, fun tasks' => ⟨fun h' => h'.unique h, fun e => e ▸ h⟩, ?_, (h.sizes hb).2, ?_⟩
  · simpa using (h.sizes hb).1
  · have := h.perm fun tc rc => [(tc, rc)]
    simpa [List.map_eq_flatMap] using this

section
variable {R T : Type} [Zero R] [Mul R] [Zero T] [Add T] [Mul T] {env : Env R T} {asm : Assembler R T} {trial test : Space R T}

theorem forPlan_lengths {α : Type} {body : α → Phases T → Prop} {l : List α} {p : Phases T} (h : ForPlan body l p) (f : α → List Nat)
    (hb : ∀ a ∈ l, ∀ q, body a q → q.map List.length = f a) : p.map List.length = l.flatMap f := by
  induction h with
  | nil => rfl
  | cons h1 _ ih =>
    rw [List.map_append, List.flatMap_cons, hb _ (by simp) _ h1, ih fun a ha => hb a (by simp [ha])]

theorem mapM_id_length {α : Type} {l : List (Option α)} {r : List α} (h : l.mapM id = some r) : r.length = l.length := by
  induction l generalizing r with
  | nil => simp at h; subst h; rfl
  | cons a l ih =>
    simp only [List.mapM_cons, id_eq, Option.pure_def, Option.bind_eq_bind, Option.bind_eq_some_iff, Option.some.injEq] at h
    obtain ⟨x, -, y, hy, rfl⟩ := h
    simp [ih hy]

theorem mapM_id_mem {α : Type} {l : List (Option α)} {r : List α} (h : l.mapM id = some r) : ∀ x ∈ r, some x ∈ l := by
  induction l generalizing r with
  | nil => simp at h; subst h; simp
  | cons a l ih =>
    simp only [List.mapM_cons, id_eq, Option.pure_def, Option.bind_eq_bind, Option.bind_eq_some_iff, Option.some.injEq] at h
    obtain ⟨x, rfl, y, hy, rfl⟩ := h
    intro z hz
    rcases List.mem_cons.mp hz with rfl | hz
    · simp
    · exact List.mem_cons_of_mem _ (ih hy z hz)

/-- **C114**, a call of `assemble_into_memory`: it runs one parallel section after the other, one for each pair of a colour of the test
cells and a colour of the trial cells of each pair of cell types, with exactly as many tasks as groups of the batch size are needed; the
values of the singular part are added at the end, without parallelism. -/
theorem C114_call (hb : 0 < asm.options.batchSize) {p : Phases T} (h : CallPlan env asm trial test p) :
    ∃ testCol trialCol, test.fs.cellColouring = some testCol ∧ trial.fs.cellColouring = some trialCol ∧
      p.map List.length =
        ((test.fs.grid.entityTypes 2).flatMap fun tt => (trial.fs.grid.entityTypes 2).flatMap fun rt =>
          ((testCol tt).getD []).flatMap fun a => ((trialCol rt).getD []).map fun b =>
            groups a.length asm.options.batchSize * groups b.length asm.options.batchSize) ++ [1] := by
  obtain ⟨-, -, testCol, trialCol, p1, sm, h1, h2, h3, -, rfl⟩ := h
  refine ⟨testCol, trialCol, h1, h2, ?_⟩
  rw [List.map_append]
  congr 1
  refine forPlan_lengths h3 _ fun tt _ q hq => forPlan_lengths hq _ fun rt _ q' hq' => ?_
  obtain ⟨_, tcs, rcs, -, e1, e2, h4⟩ := hq'
  rw [e1, e2]
  simp only [Option.getD_some]
  refine forPlan_lengths h4 _ fun a _ q hq => ?_
  rw [List.map_eq_flatMap (l := rcs)]
  refine forPlan_lengths hq _ fun b _ q hq => ?_
  obtain ⟨tasks, ts, h5, h6, rfl⟩ := hq
  have := mapM_id_length h6
  rw [List.length_map, (h5.sizes hb).1] at this
  simpa using this

/-- **C114**, the size of a task: a task makes at most `b * b * dT * dR` additions to the matrix, where `b` is the batch size and no
element has more than `dT` test or `dR` trial functions, however large the grid is. -/
theorem C114_additions {famT famR : CellType → ElementDofs} (ht : SerialSpace test.fs famT) (hr : SerialSpace trial.fs famR)
    (hb : 0 < asm.options.batchSize) {dT dR : Nat} (hdT : ∀ t ∈ test.fs.grid.entityTypes 2, (famT t).dim ≤ dT)
    (hdR : ∀ t ∈ trial.fs.grid.entityTypes 2, (famR t).dim ≤ dR) {p : Phases T} (h : CallPlan env asm trial test p) :
    ∀ sec ∈ p.dropLast, ∀ ops ∈ sec, ops.length ≤ asm.options.batchSize * asm.options.batchSize * (dT * dR) := by
  have dofs_le : ∀ {fs : FunctionSpace} {fam : CellType → ElementDofs} {d : Nat}, SerialSpace fs fam →
      (∀ t ∈ fs.grid.entityTypes 2, (fam t).dim ≤ d) → ∀ i, (∃ c ∈ fs.grid.entityIter 2, c.localIndex = i) → (fs.dofs i).length ≤ d := by
    rintro fs fam d hs hd i ⟨c, hc, rfl⟩
    obtain ⟨cd, -, e, l, -⟩ := hs.cell hc
    rw [e, l]
    exact hd _ (hs.wf.types c hc)
  have colours : ∀ {fs : FunctionSpace} {fam : CellType → ElementDofs} (_ : SerialSpace fs fam) {col : Colouring} {t : CellType}
      {cols : List (List Nat)} {l : List Nat}, fs.cellColouring = some col → col t = some cols → l ∈ cols → ∀ i ∈ l,
      ∃ c ∈ fs.grid.entityIter 2, c.localIndex = i := by
    intro fs fam hs col t cols l h1 h2 h3 i hi
    obtain ⟨nd, t0, fo, co⟩ := hs.family
    obtain ⟨col', e, -, hp, -⟩ := C06_colouring_partition hs.wf fo co hs.yields
    rw [h1] at e
    cases e
    have := (hp t cols h2).mem_iff.mp (List.mem_flatten.mpr ⟨l, h3, hi⟩)
    obtain ⟨c, hc, e⟩ := List.mem_map.mp this
    exact ⟨c, (List.mem_filter.mp hc).1, e⟩
  obtain ⟨-, -, testCol, trialCol, p1, sm, h1, h2, h3, -, rfl⟩ := h
  rw [List.dropLast_concat]
  intro sec hsec ops hops
  obtain ⟨tt, -, q, hq, hs⟩ := forPlan_mem h3 hsec
  obtain ⟨rt, -, q', ⟨rule, tcs, rcs, -, e1, e2, h4⟩, hs⟩ := forPlan_mem hq hs
  obtain ⟨testC, htestC, q, hq, hs⟩ := forPlan_mem h4 hs
  obtain ⟨trialC, htrialC, q, ⟨tasks, ts, h5, h6, rfl⟩, hs⟩ := forPlan_mem hq hs
  obtain rfl := List.mem_singleton.mp hs
  obtain ⟨task, htask, e⟩ := List.mem_map.mp (mapM_id_mem h6 ops hops)
  have hlen := (batch_addrs e).length_le
  rw [List.length_map] at hlen
  refine hlen.trans ?_
  obtain ⟨⟨-, l1⟩, -, l2⟩ := (h5.sizes hb).2 task htask
  have hmem := h5.mem task htask
  have one : ∀ rc ∈ task.2, ∀ tc ∈ task.1, (addrs test.fs.globalSize (test.fs.dofs tc) (trial.fs.dofs rc)).length ≤ dT * dR := by
    intro rc hrc tc htc
    have a1 := dofs_le ht hdT tc (colours ht h1 e1 htestC tc (hmem.1 tc htc))
    have a2 := dofs_le hr hdR rc (colours hr h2 e2 htrialC rc (hmem.2 rc hrc))
    unfold addrs
    rw [List.length_flatMap]
    simp only [List.length_map, List.map_const', List.sum_replicate, smul_eq_mul]
    rw [Nat.mul_comm]
    exact Nat.mul_le_mul a1 a2
  have sum_le : ∀ {α : Type} (l : List α) (f : α → Nat) (n : Nat), (∀ a ∈ l, f a ≤ n) → (l.map f).sum ≤ l.length * n := by
    intro α l f n hf
    induction l with
    | nil => simp
    | cons a l ih =>
      simp only [List.map_cons, List.sum_cons, List.length_cons, Nat.add_mul, Nat.one_mul]
      have := hf a (by simp)
      have := ih fun a ha => hf a (by simp [ha])
      omega
  rw [List.length_flatMap]
  refine (sum_le _ _ (asm.options.batchSize * (dT * dR)) fun rc hrc => ?_).trans ?_
  · rw [List.length_flatMap]
    exact (sum_le _ _ _ (one rc hrc)).trans (Nat.mul_le_mul_right _ l1)
  · rw [Nat.mul_assoc]
    exact Nat.mul_le_mul_right _ l2

end

/-! ### The singular part -/

theorem SplitAll.per_index {α : Type} {b : Nat} (hb : 0 < b) {l : List (List α × Nat)} {bl : List (Nat × List α)} (h : SplitAll b l bl)
    (hn : (l.map Prod.snd).Nodup) (i : Nat) :
    (bl.filter fun x => x.1 = i).length = groups ((bl.filter fun x => x.1 = i).flatMap Prod.snd).length b := by
  induction h with
  | nil => simp [groups_zero hb]
  | @cons c j l bs rest h1 h2 ih =>
    rw [List.map_cons, List.nodup_cons] at hn
    rw [List.filter_append]
    by_cases hj : j = i
    · subst hj
      have e1 : (bs.map fun x => (j, x)).filter (fun x => decide (x.1 = j)) = bs.map fun x => (j, x) := by
        rw [List.filter_eq_self]
        simp
      have e2 : rest.filter (fun x => decide (x.1 = j)) = [] := by
        rw [List.filter_eq_nil_iff]
        intro x hx
        obtain ⟨y, hy, e, -⟩ := h2.mem x hx
        simp only [decide_eq_true_eq]
        rintro rfl
        exact hn.1 (List.mem_map.mpr ⟨y, hy, e⟩)
      rw [e1, e2, List.append_nil, List.length_map, List.flatMap_map]
      have e3 : (bs.flatMap fun x => x) = c := by
        have := h1.flatten
        rw [List.drop_zero] at this
        rw [← this, List.flatMap_id']
      rw [e3, (h1.sizes hb).1, Nat.sub_zero]
    · have e1 : (bs.map fun x => (j, x)).filter (fun x => decide (x.1 = i)) = [] := by
        rw [List.filter_eq_nil_iff]
        simp [hj]
      rw [e1, List.nil_append]
      exact ih hn.2

section
variable {R T : Type} [Zero R] [Mul R] [Zero T] [Add T] [Mul T] {env : Env R T} {asm : Assembler R T} {trial test : Space R T}
  {famT famR : CellType → ElementDofs} {F : MathIntegrand T} {K : MathKernel R T} {G : Geometry R} {BT BR : Basis R T}
  {Q : Quadrature R}

/-- **C114**, the tasks of the singular part of any operator on any conforming grid, also a part of a distributed one: the batches are
determined; each has at least one pair of cells and not more than the batch size; and there are as many of them as groups of this
size are needed for the pairs of each kind (one kind for each of the ways in which a pair of cells can touch), so that the number of
batches is at most the number of pairs divided by the batch size plus the number of kinds. -/
theorem C114_singular (h : SingularSetting env asm trial test famT famR F K G BT BR Q) (hb : 0 < asm.options.batchSize) :
    ∃ tb bl, singTables env asm trial test = some tb ∧
    (∀ out, MakeCellBlocks (fun tt rt pairs => tb.pairIndices.get? (tt, rt, pairs)) tb.pairIndices.length
      test.fs.grid asm.options.batchSize out ↔ out = some bl) ∧
    (∀ x ∈ bl, 0 < x.2.length ∧ x.2.length ≤ asm.options.batchSize) ∧
    (∀ i, (bl.filter fun x => x.1 = i).length =
      groups ((bl.filter fun x => x.1 = i).flatMap Prod.snd).length asm.options.batchSize) ∧
    (adjacentPairs test.fs.grid).length ≤ bl.length * asm.options.batchSize ∧
    bl.length ≤ (adjacentPairs test.fs.grid).length / asm.options.batchSize + (allKeys test.fs.grid).length := by
  obtain ⟨tb, bl, h1, h2, h3, h4, h5, -⟩ := C12_pairs_once h hb
  have hbl := (h2 _).mpr rfl
  rw [h.tables] at h1
  cases h1
  obtain ⟨ev, ed, co⟩ := h.conforming
  have hcp := cellPairs_eq h.testSpace.wf h.vertices ed co h.keys_nodup
    (f := fun k => Map.get? (allKeys test.fs.grid).zipIdx.reverse k) (lookup_keys h.keys_nodup)
    (fun k h1 h2 h3 => mem_allKeys.mpr ⟨h1, h2, h3⟩)
  unfold MakeCellBlocks at hbl
  simp only [List.length_reverse, List.length_zipIdx] at hbl
  rw [hcp] at hbl
  obtain ⟨bl', hsp, e⟩ := hbl
  cases e
  have hperm : (bl.flatMap Prod.snd).Perm ((adjacentPairs test.fs.grid).map pairIndex) := by
    rw [List.perm_ext_iff_of_nodup h3 (adjacentPairs_nodup h.testSpace.wf)]
    rintro ⟨i, j⟩
    rw [h4, List.mem_map]
    constructor
    · rintro ⟨c, hc, c', hc', rfl, rfl, h6, h7⟩
      exact ⟨(c, c'), mem_adjacentPairs.mpr ⟨hc, hc', h6, h7⟩, rfl⟩
    · rintro ⟨x, hx, e⟩
      obtain ⟨h6, h7, h8, h9⟩ := mem_adjacentPairs.mp hx
      exact ⟨x.1, h6, x.2, h7, congrArg Prod.fst e, congrArg Prod.snd e, h8, h9⟩
  have hlen : (adjacentPairs test.fs.grid).length = (bl.map fun x => x.2.length).sum := by
    rw [← List.length_map (f := pairIndex), ← hperm.length_eq, List.length_flatMap]
  refine ⟨_, bl, h.tables, h2, (hsp.sizes hb).2, fun i => ?_, ?_, ?_⟩
  · apply hsp.per_index hb
    rw [List.zipIdx_map_snd]
    exact List.nodup_range'
  · rw [hlen]
    have : ∀ l : List (Nat × List (Nat × Nat)), (∀ x ∈ l, x.2.length ≤ asm.options.batchSize) →
        (l.map fun x => x.2.length).sum ≤ l.length * asm.options.batchSize := by
      intro l hl
      induction l with
      | nil => simp
      | cons a l ih =>
        simp only [List.map_cons, List.sum_cons, List.length_cons, Nat.add_mul, Nat.one_mul]
        have := hl a (by simp)
        have := ih fun a ha => hl a (by simp [ha])
        omega
    exact this bl h5
  · have e1 := hsp.flatMap fun _ a => [a]
    simp only [List.flatMap_singleton'] at e1
    have e2 := congrArg List.length e1
    rw [List.length_flatMap, List.length_flatMap] at e2
    rw [hlen, e2, (hsp.sizes hb).1]
    refine (groups_sum hb _ fun x : List (Nat × Nat) × Nat => x.1.length).trans (Nat.add_le_add_left (le_of_eq ?_) _)
    simp [buckets]

end

/-! ### The shapes -/

section
variable {R T U : Type} [Zero R] [Mul R] [Zero T] [Add T] [Mul T] [Zero U] [One U] [Neg U] [Add U] [Mul U] [Div U]
  {env : Env R T} {asm : Assembler R T} {trial test : Space R T} {famT famR : CellType → ElementDofs} {s : Shape U}
  {t : CellType} {ptT clT kT ptR clR kR : Nat → Nat} {n : Nat}

theorem Built.cell_count {g : Grid} (h : Built s t g ptT clT) : (g.entityIter 2).length = s.cells.length := by
  simpa using h.cell_perm.length_eq

/-- The numbers of cells of the colours add up to the number of cells. -/
theorem Built.colour_sizes {g : Grid} {fam : CellType → ElementDofs} (h : Built s t g ptT clT) (hf : (fam t).Uniform t kT)
    {fs : FunctionSpace} (hm : FunctionSpace.new 0 1 g fam = .done fs) {col : Colouring} {cols : List (List Nat)}
    (hcol : fs.cellColouring = some col) (hc : col t = some cols) : (cols.map List.length).sum = s.cells.length := by
  have hy : (FunctionSpace.new 0 1 g fam).Yields fs := by rw [hm]; exact .done fs
  obtain ⟨col', e, -, hp, -⟩ := C06_colouring_partition h.wf (h.family hf) (h.colourable hf) hy
  rw [hcol] at e
  cases e
  have := (hp t cols hc).length_eq
  rw [List.length_flatten] at this
  rw [this, List.length_map, ← h.cell_count, List.filter_eq_self.mpr]
  intro c hc
  simpa using h.cell_type hc

/-- **C114**, dense assembly on the shapes, with any elements: however fine the grid is, a call runs at most 170 sections on triangles
and 82 on quadrilaterals one after the other, and in them at most `(N / b + 13)² + 1` or `(N / b + 9)² + 1` tasks, where `N` is the number
of cells and `b` the batch size. -/
theorem C114_shapes (half : U) (sqrt : U → U) (fromNat : Nat → U)
    (hs : regularSphere half sqrt n = some s ∧ t = .triangle ∨ screenTriangles fromNat n = some s ∧ t = .triangle ∨
      screenQuadrilaterals fromNat n = some s ∧ t = .quadrilateral)
    (hgT : Built s t test.fs.grid ptT clT) (hgR : Built s t trial.fs.grid ptR clR)
    (hfT : (famT t).Uniform t kT) (hfR : (famR t).Uniform t kR)
    (hmT : FunctionSpace.new 0 1 test.fs.grid famT = .done test.fs) (hmR : FunctionSpace.new 0 1 trial.fs.grid famR = .done trial.fs)
    (hb : 0 < asm.options.batchSize) {p : Phases T} (h : CallPlan env asm trial test p) :
    p.length ≤ (if t = .triangle then 170 else 82) ∧
    (p.map List.length).sum ≤ (s.cells.length / asm.options.batchSize + if t = .triangle then 13 else 9) ^ 2 + 1 := by
  obtain ⟨colT, colsT, a1, a2, a3⟩ := C113_colours half sqrt fromNat hs hgT hfT hmT
  obtain ⟨colR, colsR, b1, b2, b3⟩ := C113_colours half sqrt fromNat hs hgR hfR hmR
  obtain ⟨c1, c2, e1, e2, e3⟩ := C114_call hb h
  rw [a1] at e1
  rw [b1] at e2
  cases e1
  cases e2
  rw [hgT.types, hgR.types] at e3
  simp only [List.flatMap_singleton, a2, b2, Option.getD_some] at e3
  have hT := (groups_sum hb colsT List.length)
  have hR := (groups_sum hb colsR List.length)
  rw [hgT.colour_sizes hfT hmT a1 a2] at hT
  rw [hgR.colour_sizes hfR hmR b1 b2] at hR
  constructor
  · have := congrArg List.length e3
    rw [List.length_map, List.length_append, List.length_flatMap] at this
    simp only [List.length_map, List.map_const', List.sum_replicate, smul_eq_mul, List.length_singleton] at this
    rw [this]
    have := Nat.mul_le_mul a3 b3
    split_ifs at this ⊢ <;> omega
  · rw [e3, List.sum_append]
    have e : ∀ (l l' : List (List Nat)) (f : List Nat → Nat), (l.flatMap fun a => l'.map fun b => f a * f b).sum =
        (l.map f).sum * (l'.map f).sum := by
      intro l l' f
      induction l with
      | nil => simp
      | cons a l ih =>
        rw [List.flatMap_cons, List.sum_append, ih, List.map_cons, List.sum_cons, Nat.add_mul, List.sum_map_mul_left]
    rw [e colsT colsR fun a => groups a.length asm.options.batchSize, sq]
    exact Nat.add_le_add_right (Nat.mul_le_mul (hT.trans (Nat.add_le_add_left a3 _)) (hR.trans (Nat.add_le_add_left b3 _))) 1

end

section
variable {R T U : Type} [Zero R] [Mul R] [Zero T] [Add T] [Mul T] [Zero U] [One U] [Neg U] [Add U] [Mul U] [Div U]
  {env : Env R T} {asm : Assembler R T} {trial test : Space R T}
  {famT famR : CellType → ElementDofs} {F : MathIntegrand T} {K : MathKernel R T} {G : Geometry R} {BT BR : Basis R T}
  {Q : Quadrature R} {s : Shape U} {pt cl : Nat → Nat} {n : Nat}

/-- **C114**, the singular part on spheres: at least `(104 * 4^n - 48) / b` batches, and at most 28 more. -/
theorem C114_sphere_singular (half : U) (sqrt : U → U) (hs : regularSphere half sqrt n = some s)
    (h : SingularSetting env asm trial test famT famR F K G BT BR Q) (hb : 0 < asm.options.batchSize)
    (hg : Built s .triangle test.fs.grid pt cl) :
    ∃ tb bl, singTables env asm trial test = some tb ∧
    (∀ out, MakeCellBlocks (fun tt rt pairs => tb.pairIndices.get? (tt, rt, pairs)) tb.pairIndices.length
      test.fs.grid asm.options.batchSize out ↔ out = some bl) ∧
    (104 * 4 ^ n - 48) / asm.options.batchSize ≤ bl.length ∧
    bl.length ≤ (104 * 4 ^ n - 48) / asm.options.batchSize + 28 := by
  obtain ⟨tb, bl, h1, h2, -, -, h3, h4⟩ := C114_singular h hb
  obtain ⟨-, e2, -⟩ := C113_sphere_pairs half sqrt hs
  rw [hg.pairs, show s.touchingPairs = 104 * 4 ^ n - 48 by omega] at h3 h4
  have hk : (allKeys test.fs.grid).length = 28 := by
    unfold allKeys
    rw [hg.types]
    decide
  rw [hk] at h4
  exact ⟨tb, bl, h1, h2, Nat.div_le_of_le_mul (h3.trans (le_of_eq (Nat.mul_comm _ _))), h4⟩

end

section
variable {R T U : Type} [Zero R] [Mul R] [Zero T] [Add T] [Mul T] [Zero U] [One U] [Neg U] [Add U] [Mul U] [Div U]
  {env : Env R T} {asm : Assembler R T} {trial test : Space R T}
  {famT famR : CellType → ElementDofs} {F : MathIntegrand T} {K : MathKernel R T} {G : Geometry R} {BT BR : Basis R T}
  {Q : Quadrature R} {s : Shape U} {pt cl : Nat → Nat} {n : Nat}

/-- **C114**, the regular part on spheres: whatever the batch size, the tasks of all sections together integrate
`64 * 16^n - 104 * 4^n + 48` pairs of triangles with the regular rule. -/
theorem C114_sphere_regular (half : U) (sqrt : U → U) (hs : regularSphere half sqrt n = some s)
    (h : SingularSetting env asm trial test famT famR F K G BT BR Q) (ht : SerialSpace test.fs famT) (hr : SerialSpace trial.fs famR)
    (hb : 0 < asm.options.batchSize) (hg : Built s .triangle test.fs.grid pt cl)
    {testCol trialCol : Colouring} (htc : test.fs.cellColouring = some testCol) (hrc : trial.fs.cellColouring = some trialCol)
    {tcs rcs : List (List Nat)} (htcs : testCol .triangle = some tcs) (hrcs : trialCol .triangle = some rcs)
    {tasks : List Nat → List Nat → List (List Nat × List Nat)}
    (htasks : ∀ testC trialC, SplitPairs asm.options.batchSize testC trialC 0 (tasks testC trialC)) :
    (tcs.flatMap fun testC => rcs.flatMap fun trialC => regularVisits test.fs.grid trial.fs.grid (tasks testC trialC)).length +
      104 * 4 ^ n = 64 * 16 ^ n + 48 := by
  obtain ⟨tb, bl, h1, h2, h3, h4, -, -⟩ := C12_pairs_once h hb
  have hty : trial.fs.grid.entityTypes 2 = [.triangle] := by rw [h.sameGrid]; exact hg.types
  have hone := C13_one_method h ht hr h1 ((h2 _).mpr rfl) htc hrc (tcs := fun _ => tcs) (rcs := fun _ => rcs)
    (by rw [hg.types]; simpa using htcs) (by rw [hty]; simpa using hrcs) htasks
  rw [hg.types, hty] at hone
  simp only [List.flatMap_singleton] at hone
  have hlen := hone.length_eq
  have hperm : (bl.flatMap Prod.snd).Perm ((adjacentPairs test.fs.grid).map pairIndex) := by
    rw [List.perm_ext_iff_of_nodup h3 (adjacentPairs_nodup h.testSpace.wf)]
    rintro ⟨i, j⟩
    rw [h4, List.mem_map]
    constructor
    · rintro ⟨c, hc, c', hc', rfl, rfl, h6, h7⟩
      exact ⟨(c, c'), mem_adjacentPairs.mpr ⟨hc, hc', h6, h7⟩, rfl⟩
    · rintro ⟨x, hx, e⟩
      obtain ⟨h6, h7, h8, h9⟩ := mem_adjacentPairs.mp hx
      exact ⟨x.1, h6, x.2, h7, congrArg Prod.fst e, congrArg Prod.snd e, h8, h9⟩
  obtain ⟨-, e2, -⟩ := C113_sphere_pairs half sqrt hs
  have hcells : s.cells.length = 8 * 4 ^ n := by
    obtain ⟨s', e, -, h5, -⟩ := C30_sizes half sqrt n
    rw [hs] at e
    cases e
    exact h5
  rw [List.length_append, hperm.length_eq, List.length_map, hg.pairs, List.length_flatMap (l := test.fs.grid.entityIter 2)] at hlen
  simp only [List.length_map, List.map_const', List.sum_replicate, smul_eq_mul] at hlen
  rw [hg.cell_count, hcells] at hlen
  have : 8 * 4 ^ n * (8 * 4 ^ n) = 64 * 16 ^ n := by
    rw [show (16 : Nat) = 4 * 4 by rfl, Nat.mul_pow]
    ring
  omega

end

/-! ### The hypotheses can be met -/

open Examples

/-- Five test cells and four trial cells with batch size 2: three groups times two groups. -/
example : ∃ tasks, SplitPairs 2 [3, 1, 4, 0, 5] [9, 2, 6, 7] 0 tasks ∧ tasks.length = 6 := by
  obtain ⟨tasks, h, e, -⟩ := C114_section (by decide : 0 < 2) [3, 1, 4, 0, 5] [9, 2, 6, 7]
  exact ⟨tasks, (h _).mpr rfl, e⟩

/-- On a sphere of any level, with continuous piecewise linear functions: a call of dense assembly for the single layer operator has a
plan, it has at most 170 sections, none of its tasks adds more than `9 b²` values, and the batches of the singular part are as many as
stated. -/
example (n : Nat) : ∃ (fs : FunctionSpace) (p : Phases Rat),
    let asm := Laplace.singleLayer (sizedKernel squareKernel) smallOptions
    let sp := sizedSpace fs p1 octGeometry p1Basis
    let b := asm.options.batchSize
    CallPlan sizedEnv asm sp sp p ∧ p.length ≤ 170 ∧ (p.map List.length).sum ≤ (8 * 4 ^ n / b + 13) ^ 2 + 1 ∧
    (∀ sec ∈ p.dropLast, ∀ ops ∈ sec, ops.length ≤ b * b * (3 * 3)) ∧
    ∃ tb bl, singTables sizedEnv asm sp sp = some tb ∧
      MakeCellBlocks (fun tt rt pairs => tb.pairIndices.get? (tt, rt, pairs)) tb.pairIndices.length fs.grid b (some bl) ∧
      bl.length ≤ (104 * 4 ^ n - 48) / b + 28 := by
  obtain ⟨s, g, pt, cl, hs, hb, hex⟩ := exampleSphere n
  obtain ⟨fs, hg, hm, hsing⟩ := hex p1 _ p1Basis (p1_uniform _ (by simp))
  obtain ⟨fs', hm', h, -⟩ := hb.space (fam := p1) (p1_uniform _ (by simp))
  rw [hm] at hm'
  cases hm'
  subst hg
  have hset : DenseSetting sizedEnv (Laplace.singleLayer (sizedKernel squareKernel) smallOptions) (sizedSpace fs p1 octGeometry p1Basis)
      (sizedSpace fs p1 octGeometry p1Basis) p1 p1 slF squareKernel octGeometry octGeometry p1Basis p1Basis smallRules .triangle :=
    { testSpace := h
      trialSpace := h
      testType := hb.types
      trialType := hb.types
      testSurface := hb.surface
      trialSurface := hb.surface
      testGeometry := sizedSpace_geometry _ _ _ _
      trialGeometry := sizedSpace_geometry _ _ _ _
      testBasis := sizedSpace_tabulate _ _ _ _
      trialBasis := sizedSpace_tabulate _ _ _ _
      operator := hsing.operator
      rule := ⟨exEnv_regular.degree, rfl, exEnv_regular.points⟩
      same := fun _ => ⟨hsing, rfl⟩ }
  obtain ⟨tcs, rcs, _, _, _, _, key⟩ := hset.assemble (by decide)
  obtain ⟨p, hp⟩ := C106_plans (c := ⟨sizedEnv, Laplace.singleLayer (sizedKernel squareKernel) smallOptions,
    sizedSpace fs p1 octGeometry p1Basis, sizedSpace fs p1 octGeometry p1Basis⟩)
    ((key (List.replicate (fs.globalSize * fs.globalSize) 0) (by rw [List.length_replicate]; rfl) _).mpr rfl)
  have hsh := C114_shapes (env := sizedEnv) (1 / 2 : Rat) (fun _ => 1) (fun n => (n : Rat)) (Or.inl ⟨hs, rfl⟩) hb hb
    (p1_uniform _ (by simp)) (p1_uniform _ (by simp)) hm hm (by show 0 < smallOptions.batchSize; decide) hp
  have hcells : s.cells.length = 8 * 4 ^ n := by
    obtain ⟨s', e, -, h5, -⟩ := C30_sizes (1 / 2 : Rat) (fun _ => 1) n
    rw [hs] at e
    cases e
    exact h5
  rw [hcells] at hsh
  obtain ⟨tb, bl, h1, h2, -, h3⟩ := C114_sphere_singular _ _ hs hsing (by decide) hb
  refine ⟨fs, p, hp, hsh.1, hsh.2, C114_additions h h (by decide) ?_ ?_ hp, tb, bl, h1, (h2 _).mpr rfl, h3⟩ <;>
  · intro t ht
    have ht' : t ∈ fs.grid.entityTypes 2 := ht
    rw [hb.types, List.mem_singleton] at ht'
    subst ht'
    decide

end Bempp
