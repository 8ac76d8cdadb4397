import Verif.Proofs.ExampleSettings
import Verif.Proofs.Operators
/-
C08, C09, C11: data races, schedules, termination. Except where a setting is assumed, the external
functions (geometry, kernels, quadrature rules, tabulation) are arbitrary.
-/
set_option linter.unusedSectionVars false

namespace Bempp
open Examples

variable {R T : Type} [Zero R] [Mul R] [Zero T] [Add T] [Mul T]
  {env : Env R T} {asm : Assembler R T} {trial test : Space R T} {famT famR : CellType → ElementDofs}

/-! ### C08 -/

/-- C08: take any parallel section that dense assembly can start: one colour `testC` of the test cells of
type `tt` and one colour `trialC` of the trial cells of type `rt`, cut into tasks by any batch size. The
positions that two different tasks write to are different, and all are inside a buffer of
`test.globalSize * trial.globalSize` entries. -/
theorem C08_tasks_disjoint (ht : SerialSpace test.fs famT) (hr : SerialSpace trial.fs famR)
    {testCol trialCol : Colouring} (htc : test.fs.cellColouring = some testCol)
    (hrc : trial.fs.cellColouring = some trialCol) {tt rt : CellType} {tcs rcs : List (List Nat)}
    (htt : testCol tt = some tcs) (hrt : trialCol rt = some rcs) {testC trialC : List Nat}
    (hT : testC ∈ tcs) (hR : trialC ∈ rcs) {b : Nat} {tasks : List (List Nat × List Nat)}
    (hs : SplitPairs b testC trialC 0 tasks) (q : RegRule R T) :
    let ops (task : List Nat × List Nat) := assembleBatchNonadjacent env asm
      (test.fs.globalSize, trial.fs.globalSize) tt rt trial task.2 test task.1 q
    (∀ (k l : Nat) (a b : List Nat × List Nat), k ≠ l → tasks[k]? = some a → tasks[l]? = some b →
      ∀ A B, ops a = some A → ops b = some B → ∀ x ∈ A, ∀ y ∈ B, x.addr ≠ y.addr) ∧
    ∀ a ∈ tasks, ∀ A, ops a = some A →
      (A.map AddOp.addr).Nodup ∧ ∀ x ∈ A, x.addr < test.fs.globalSize * trial.fs.globalSize := by
  intro ops
  have c1 := (ht.colourClass htc htt hT).1
  have c2 := (hr.colourClass hrc hrt hR).1
  let L : List Nat × List Nat → List Nat := fun t => t.2.flatMap fun rc => t.1.flatMap fun tc =>
    addrs test.fs.globalSize (test.fs.dofs tc) (trial.fs.dofs rc)
  have hp : (tasks.flatMap L).Perm (testC.flatMap fun tc => trialC.flatMap fun rc =>
      addrs test.fs.globalSize (test.fs.dofs tc) (trial.fs.dofs rc)) := by
    have := hs.perm fun tc rc => addrs test.fs.globalSize (test.fs.dofs tc) (trial.fs.dofs rc)
    rwa [List.drop_zero] at this
  have hn := hp.nodup_iff.mpr (colour_addrs_nodup c1 c2)
  rw [List.nodup_flatMap] at hn
  have hsub : ∀ a A, ops a = some A → (A.map AddOp.addr).Sublist (L a) := fun a A h => batch_addrs h
  refine ⟨?_, ?_⟩
  · have hpw := List.pairwise_iff_getElem.mp hn.2
    have key : ∀ (k l : Nat) (a b : List Nat × List Nat), k < l → tasks[k]? = some a → tasks[l]? = some b →
        ∀ A B, ops a = some A → ops b = some B → ∀ x ∈ A, ∀ y ∈ B, x.addr ≠ y.addr := by
      intro k l a b hkl ha hb A B hA hB x hx y hy e
      obtain ⟨hk, rfl⟩ := List.getElem?_eq_some_iff.mp ha
      obtain ⟨hl, rfl⟩ := List.getElem?_eq_some_iff.mp hb
      exact hpw k l hk hl hkl ((hsub _ _ hA).subset (List.mem_map_of_mem hx))
        (e ▸ (hsub _ _ hB).subset (List.mem_map_of_mem hy))
    intro k l a b hkl ha hb A B hA hB x hx y hy
    rcases Nat.lt_or_gt_of_ne hkl with h | h
    · exact key k l a b h ha hb A B hA hB x hx y hy
    · exact fun e => key l k b a h hb ha B A hB hA y hy x hx e.symm
  · intro a ha A hA
    refine ⟨(hn.1 a ha).sublist (hsub a A hA), fun x hx => ?_⟩
    have : x.addr ∈ tasks.flatMap L :=
      List.mem_flatMap.mpr ⟨a, ha, (hsub a A hA).subset (List.mem_map_of_mem hx)⟩
    exact colour_addrs_lt c1 c2 _ (hp.mem_iff.mp this)

/-- C08, as seen by an execution: in every state that any interleaving of the tasks reaches, the next
accesses of two different tasks (a load or a store each) are at different positions, and every next
access is inside the buffer. -/
theorem C08_no_race (ht : SerialSpace test.fs famT) (hr : SerialSpace trial.fs famR)
    {testCol trialCol : Colouring} (htc : test.fs.cellColouring = some testCol)
    (hrc : trial.fs.cellColouring = some trialCol) {tt rt : CellType} {tcs rcs : List (List Nat)}
    (htt : testCol tt = some tcs) (hrt : trialCol rt = some rcs) {testC trialC : List Nat}
    (hT : testC ∈ tcs) (hR : trialC ∈ rcs) {b : Nat} {tasks : List (List Nat × List Nat)}
    (hs : SplitPairs b testC trialC 0 tasks) {q : RegRule R T} {ts : List (List (AddOp T))}
    (hts : (tasks.map fun task => assembleBatchNonadjacent env asm
      (test.fs.globalSize, trial.fs.globalSize) tt rt trial task.2 test task.1 q).mapM id = some ts)
    {mem : List T} (hm : mem.length = test.fs.globalSize * trial.fs.globalSize) {s : ParState T}
    (hrun : ParSteps (ParState.start mem ts) s) :
    s.mem.length = mem.length ∧
    (∀ t ∈ s.tasks, ∀ x ∈ t.todo, x.addr < s.mem.length) ∧
    ∀ (k l : Nat) (a b : Task T), k ≠ l → s.tasks[k]? = some a → s.tasks[l]? = some b →
      ∀ x ∈ a.todo, ∀ y ∈ b.todo, x.addr ≠ y.addr := by
  obtain ⟨h1, h2⟩ := section_safe (ht.colourClass htc htt hT).1 (hr.colourClass hrc hrt hR).1 hs hts
  obtain ⟨done, inv⟩ := par_steps_inv h1 hrun
  refine ⟨inv.length, ?_, ?_⟩
  · intro t ht x hx
    obtain ⟨i, hi⟩ := List.getElem?_of_mem ht
    rw [inv.length, hm]
    exact h2 x (List.mem_flatten.mpr ⟨_, List.mem_of_getElem? (inv.split i t hi),
      List.mem_append_right _ hx⟩)
  · intro k l a b hkl ha hb x hx y hy
    exact addr_ne h1 (inv.split k a ha) (inv.split l b hb) hkl (List.mem_append_right _ hx)
      (List.mem_append_right _ hy)

/-! ### C09 -/

theorem Outcome.Same.refl' {σ : Type} (o : Outcome σ) : o.Same o := by
  cases o
  · exact .ok _
  · exact .panicked _ _

theorem typePair_same (ht : SerialSpace test.fs famT) (hr : SerialSpace trial.fs famR)
    {testCol trialCol : Colouring} (htc : test.fs.cellColouring = some testCol)
    (hrc : trial.fs.cellColouring = some trialCol) (tt rt : CellType) {mem : List T}
    (hm : mem.length = test.fs.globalSize * trial.fs.globalSize) {o : Outcome (List T)}
    (h : TypePairRun env asm (test.fs.globalSize, trial.fs.globalSize) trial test trialCol testCol tt rt
      mem o) :
    (∀ o', TypePairRun env asm (test.fs.globalSize, trial.fs.globalSize) trial test trialCol testCol tt rt
      mem o' → o.Same o') ∧ ∀ s, o = .ok s → s.length = test.fs.globalSize * trial.fs.globalSize := by
  unfold TypePairRun at h ⊢
  cases hq : regRule env asm trial test tt rt with
  | none =>
    simp only [hq] at h ⊢
    subst h
    exact ⟨fun o' ho' => by subst ho'; exact .panicked _ _, fun s e => by cases e⟩
  | some q =>
    cases htt : testCol tt with
    | none =>
      simp only [hq, htt] at h ⊢
      subst h
      exact ⟨fun o' ho' => by subst ho'; exact .panicked _ _, fun s e => by cases e⟩
    | some tcs =>
      cases hrt : trialCol rt with
      | none =>
        simp only [hq, htt, hrt] at h ⊢
        subst h
        exact ⟨fun o' ho' => by subst ho'; exact .panicked _ _, fun s e => by cases e⟩
      | some rcs =>
        simp only [hq, htt, hrt] at h ⊢
        have key := fun o' => forRun_same
          (body := fun testC => ForRun (fun trialC => ColourPairRun env asm
            (test.fs.globalSize, trial.fs.globalSize) trial test tt rt q testC trialC) rcs)
          (fun s => s.length = test.fs.globalSize * trial.fs.globalSize) tcs (by
            intro testC hT s hs o ho
            have key := fun o' => forRun_same
              (body := fun trialC => ColourPairRun env asm (test.fs.globalSize, trial.fs.globalSize) trial
                test tt rt q testC trialC)
              (fun s => s.length = test.fs.globalSize * trial.fs.globalSize) rcs (by
                intro trialC hR s hs o ho
                exact colourPair_same (ht.colourClass htc htt hT).1 (hr.colourClass hrc hrt hR).1 hs ho)
              s hs o o' ho
            exact ⟨fun o' ho' => (key o' ho').1, (key o ho).2⟩) mem hm o o' h
        exact ⟨fun o' ho' => (key o' ho').1, (key o h).2⟩

theorem nonsingular_same (ht : SerialSpace test.fs famT) (hr : SerialSpace trial.fs famR)
    {testCol trialCol : Colouring} (htc : test.fs.cellColouring = some testCol)
    (hrc : trial.fs.cellColouring = some trialCol) {mem : List T}
    (hm : mem.length = test.fs.globalSize * trial.fs.globalSize) {o o' : Outcome (List T)}
    (h : AssembleNonsingularPart env asm (test.fs.globalSize, trial.fs.globalSize) trial test trialCol
      testCol mem o)
    (h' : AssembleNonsingularPart env asm (test.fs.globalSize, trial.fs.globalSize) trial test trialCol
      testCol mem o') : o.Same o' := by
  unfold AssembleNonsingularPart at h h'
  simp only [ht.serial.1, hr.serial.1, Bool.true_eq_false, or_self, if_false, ne_eq, not_true_eq_false]
    at h h'
  refine (forRun_same (fun s => s.length = test.fs.globalSize * trial.fs.globalSize) _ ?_ mem hm o o' h
    h').1
  intro tt _ s hs o ho
  have key := fun o' => forRun_same (body := fun rt => TypePairRun env asm
      (test.fs.globalSize, trial.fs.globalSize) trial test trialCol testCol tt rt)
    (fun s => s.length = test.fs.globalSize * trial.fs.globalSize) (trial.fs.grid.entityTypes 2)
    (fun rt _ s hs o ho => typePair_same ht hr htc hrc tt rt hs ho) s hs o o' ho
  exact ⟨fun o' ho' => (key o' ho').1, (key o ho).2⟩

/-- C09: any two runs of `assemble_into_memory` (whatever the interleavings of the tasks and the splits of
the parallel reductions were) either both return, with the same buffer, or both panic. Nothing is assumed
about addition and multiplication, so the buffers are also equal bit for bit in floating point
arithmetic. -/
theorem C09_schedule_independent (ht : SerialSpace test.fs famT) (hr : SerialSpace trial.fs famR)
    {mem : List T} {o o' : Outcome (List T)} (h : AssembleIntoMemory env asm trial test mem o)
    (h' : AssembleIntoMemory env asm trial test mem o') :
    (∃ out, o = .ok out ∧ o' = .ok out) ∨ ∃ a b, o = .panicked a ∧ o' = .panicked b := by
  suffices o.Same o' by
    cases this with
    | ok s => exact Or.inl ⟨s, rfl, rfl⟩
    | panicked a b => exact Or.inr ⟨a, b, rfl, rfl⟩
  unfold AssembleIntoMemory at h h'
  by_cases hm : mem.length = test.fs.globalSize * trial.fs.globalSize
  · rw [if_neg (by simp [hm]), if_neg (by simp [ht.serial.1, hr.serial.1])] at h h'
    obtain ⟨tcol, ht1, _⟩ := ht.colouring
    obtain ⟨rcol, hr1, _⟩ := hr.colouring
    rw [ht1, hr1] at h h'
    simp only at h h'
    obtain ⟨o1, h1, h2⟩ := h
    obtain ⟨o1', h1', h2'⟩ := h'
    have hs := nonsingular_same ht hr ht1 hr1 hm h1 h1'
    cases hs with
    | panicked a b =>
      simp only at h2 h2'
      subst h2 h2'
      exact .panicked _ _
    | ok s =>
      simp only at h2 h2'
      obtain ⟨sp, h3, rfl⟩ := h2
      obtain ⟨sp', h3', rfl⟩ := h2'
      rw [singularPart_unique h3 h3']
      exact Outcome.Same.refl' _
  · rw [if_pos hm] at h h'
    subst h h'
    exact .panicked _ _

/-- C09 for `assemble`: any two runs return the same matrix, or both panic. -/
theorem C09_assemble (ht : SerialSpace test.fs famT) (hr : SerialSpace trial.fs famR)
    {out out' : Option (List T)} (h : Assemble env asm trial test out)
    (h' : Assemble env asm trial test out') : out = out' := by
  unfold Assemble at h h'
  rw [if_neg (by simp [ht.serial.1, hr.serial.1])] at h h'
  obtain ⟨o, h1, rfl⟩ := h
  obtain ⟨o', h1', rfl⟩ := h'
  rcases C09_schedule_independent ht hr h1 h1' with ⟨x, rfl, rfl⟩ | ⟨a, b, rfl, rfl⟩ <;> rfl

/-- C09 for `assemble_singular`: any two runs return the same sparse matrix, or both panic. Here the
spaces are arbitrary (serial or not). -/
theorem C09_assemble_singular {out out' : Option (Csr T)} (h : AssembleSingular env asm trial test out)
    (h' : AssembleSingular env asm trial test out') : out = out' := by
  obtain ⟨sp, h1, rfl⟩ := h
  obtain ⟨sp', h1', rfl⟩ := h'
  rw [singularPart_unique h1 h1']

/-! ### C11 -/

theorem forRun_exists {α σ : Type} {body : α → σ → Outcome σ → Prop} (I : σ → Prop) (l : List α)
    (hb : ∀ a ∈ l, ∀ s, I s → ∃ o, body a s o ∧ ∀ s', o = .ok s' → I s') (s : σ) (hs : I s) :
    ∃ o, ForRun body l s o ∧ ∀ s', o = .ok s' → I s' := by
  induction l generalizing s with
  | nil => exact ⟨_, .nil s, fun s' e => by cases e; exact hs⟩
  | cons a l ih =>
    obtain ⟨o, h1, h2⟩ := hb a (by simp) s hs
    cases o with
    | ok s' =>
      obtain ⟨o, h3, h4⟩ := ih (fun a ha => hb a (by simp [ha])) s' (h2 _ rfl)
      exact ⟨o, .cons h1 h3, h4⟩
    | panicked s' => exact ⟨_, .panic h1, fun _ e => by cases e⟩

theorem section_exists {tasks : List (Option (List (AddOp T)))} {mem : List T}
    (h : ∀ ts, tasks.mapM id = some ts → (ts.flatten.map AddOp.addr).Nodup ∧
      ∀ o ∈ ts.flatten, o.addr < mem.length) :
    ∃ o, SectionRun tasks mem o ∧ ∀ s, o = .ok s → s.length = mem.length := by
  cases hts : tasks.mapM id with
  | none =>
    refine ⟨.panicked mem, ?_, fun _ e => by cases e⟩
    unfold SectionRun
    rw [hts]
    exact ⟨mem, rfl, rfl⟩
  | some ts =>
    obtain ⟨h1, h2⟩ := h ts hts
    refine ⟨_, (sectionRun_iff hts h1 h2 _).mpr rfl, fun s e => ?_⟩
    cases e
    rw [applyOps_length]

/-- C11, the true part: for every batch size of at least one, `assemble_into_memory` terminates (it
returns or panics), for any external functions. What is missing: batch size 0, see
`C11_batch_zero_diverges`. -/
theorem C11_terminates_partial (ht : SerialSpace test.fs famT) (hr : SerialSpace trial.fs famR)
    (hb : 0 < asm.options.batchSize) (mem : List T) : ∃ o, AssembleIntoMemory env asm trial test mem o := by
  unfold AssembleIntoMemory
  by_cases hm : mem.length = test.fs.globalSize * trial.fs.globalSize
  · obtain ⟨tcol, ht1, _⟩ := ht.colouring
    obtain ⟨rcol, hr1, _⟩ := hr.colouring
    simp only [ne_eq, hm, not_true_eq_false, if_false, ht.serial.1, hr.serial.1, Bool.true_eq_false,
      or_self, ht1, hr1]
    have h1 : ∃ o, AssembleNonsingularPart env asm (test.fs.globalSize, trial.fs.globalSize) trial test
        rcol tcol mem o := by
      unfold AssembleNonsingularPart
      simp only [ht.serial.1, hr.serial.1, Bool.true_eq_false, or_self, if_false, ne_eq, not_true_eq_false]
      have hI := fun tt (_ : tt ∈ test.fs.grid.entityTypes 2) s hs =>
        forRun_exists (body := fun rt => TypePairRun env asm (test.fs.globalSize, trial.fs.globalSize)
          trial test rcol tcol tt rt) (fun s => s.length = test.fs.globalSize * trial.fs.globalSize)
          (trial.fs.grid.entityTypes 2) (by
          intro rt _ s hs
          unfold TypePairRun
          cases hq : regRule env asm trial test tt rt with
          | none => exact ⟨.panicked s, rfl, fun _ e => by cases e⟩
          | some q =>
            cases htt : tcol tt with
            | none => exact ⟨.panicked s, rfl, fun _ e => by cases e⟩
            | some tcs =>
              cases hrt : rcol rt with
              | none => exact ⟨.panicked s, rfl, fun _ e => by cases e⟩
              | some rcs =>
                refine forRun_exists (fun s => s.length = test.fs.globalSize * trial.fs.globalSize) _ ?_ s hs
                intro testC hT s hs
                refine forRun_exists (fun s => s.length = test.fs.globalSize * trial.fs.globalSize) _ ?_ s hs
                intro trialC hR s hs
                obtain ⟨tasks, hsp⟩ := SplitPairs.exists hb testC trialC 0
                obtain ⟨o, ho1, ho2⟩ := section_exists (tasks := tasks.map fun t =>
                  assembleBatchNonadjacent env asm (test.fs.globalSize, trial.fs.globalSize) tt rt trial t.2
                    test t.1 q) (mem := s) (fun ts hts => by
                  rw [hs]
                  exact section_safe (ht.colourClass ht1 htt hT).1 (hr.colourClass hr1 hrt hR).1 hsp hts)
                exact ⟨o, ⟨tasks, hsp, ho1⟩, fun s' e => by rw [ho2 s' e, hs]⟩) s hs
      obtain ⟨o, ho, _⟩ := forRun_exists _ _ hI mem hm
      exact ⟨o, ho⟩
    obtain ⟨o1, h1⟩ := h1
    cases o1 with
    | panicked m => exact ⟨_, _, h1, rfl⟩
    | ok m =>
      have h2 : ∃ sp, AssembleSingularPart env asm (test.fs.globalSize, trial.fs.globalSize) trial test
          sp := by
        unfold AssembleSingularPart
        split
        · exact ⟨_, rfl⟩
        · split
          · exact ⟨_, rfl⟩
          · cases singTables env asm trial test with
            | none => exact ⟨_, rfl⟩
            | some tb =>
              simp only
              cases hc : cellPairs (fun tt rt pairs => tb.pairIndices.get? (tt, rt, pairs))
                  tb.pairIndices.length test.fs.grid with
              | none => exact ⟨none, none, by unfold MakeCellBlocks; rw [hc], rfl⟩
              | some cp =>
                obtain ⟨bl, hbl⟩ := SplitAll.exists hb cp.zipIdx
                refine ⟨_, some bl, by unfold MakeCellBlocks; rw [hc]; exact ⟨bl, hbl, rfl⟩,
                  (reduces_sparse ?_ _).mpr rfl⟩
                intro x hx a ha
                obtain ⟨b, _, rfl⟩ := List.mem_map.mp hx
                simp only [Option.bind_eq_bind, Option.bind_eq_some_iff] at ha
                obtain ⟨rule, _, ha⟩ := ha
                exact batchSingular_shape ha
      obtain ⟨sp, h2⟩ := h2
      exact ⟨_, _, h1, sp, h2, rfl⟩
  · simp only [ne_eq, hm, not_false_eq_true, if_true]
    exact ⟨_, rfl⟩

/-- C11: no parallel section can run forever, whatever the schedule. -/
theorem C11_sections_terminate : WellFounded fun s' s : ParState T => ParStep s s' :=
  Subrelation.wf (fun h => par_step_work h) (InvImage.wf ParState.work Nat.lt_wfRel.wf)

theorem forRun_none {α σ : Type} {body : α → σ → Outcome σ → Prop} {l : List α}
    (hp : ∀ a ∈ l, ∀ s s', ¬ body a s (.panicked s')) {x : α} (hx : x ∈ l)
    (hn : ∀ s o, ¬ body x s o) {s : σ} {o : Outcome σ} (h : ForRun body l s o) : False := by
  induction h with
  | nil s => simp at hx
  | cons h1 _ ih =>
    rcases List.mem_cons.mp hx with rfl | hx
    · exact hn _ _ h1
    · exact ih (fun a ha => hp a (by simp [ha])) hx
  | panic h1 => exact hp _ (by simp) _ _ h1

variable {F : MathIntegrand T} {K : MathKernel R T} {GT GR : Geometry R} {BT BR : Basis R T}
  {Q : Quadrature R} {t : CellType}

/-- C11 is false for batch size 0, which `set_batch_size` accepts: then `assemble_into_memory` never
terminates if both grids have a cell. -/
theorem C11_batch_zero_diverges (h : DenseSetting env asm trial test famT famR F K GT GR BT BR Q t)
    (hb : asm.options.batchSize = 0) (ht : test.fs.grid.entityIter 2 ≠ [])
    (hr : trial.fs.grid.entityIter 2 ≠ []) {mem : List T}
    (hm : mem.length = test.fs.globalSize * trial.fs.globalSize) :
    ¬ ∃ o, AssembleIntoMemory env asm trial test mem o := by
  rintro ⟨o, ho⟩
  unfold AssembleIntoMemory at ho
  rw [if_neg (by simp [hm]), if_neg (by simp [h.testSpace.serial.1, h.trialSpace.serial.1])] at ho
  obtain ⟨tcol, ht1, ht2, ht3⟩ := h.testSpace.colouring
  obtain ⟨rcol, hr1, hr2, hr3⟩ := h.trialSpace.colouring
  rw [ht1, hr1] at ho
  obtain ⟨o1, ho, _⟩ := ho
  unfold AssembleNonsingularPart at ho
  simp only [h.testSpace.serial.1, h.trialSpace.serial.1, Bool.true_eq_false, or_self, if_false, ne_eq,
    not_true_eq_false, h.testType, h.trialType] at ho
  obtain ⟨tcs, htcs⟩ := Option.isSome_iff_exists.mp ((ht2 t).mpr (by rw [h.testType]; simp))
  obtain ⟨rcs, hrcs⟩ := Option.isSome_iff_exists.mp ((hr2 t).mpr (by rw [h.trialType]; simp))
  have hne : ∀ {g : Grid} {cs : List (List Nat)} (_ : g.WF) (_ : g.entityTypes 2 = [t])
      (_ : g.entityIter 2 ≠ []), cs.flatten.Perm
      (((g.entityIter 2).filter fun c => decide (c.entityType = t)).map Entity.localIndex) →
      ∃ l ∈ cs, l ≠ [] := by
    intro g cs wf hty hg hp
    obtain ⟨c, hc⟩ := List.exists_mem_of_ne_nil _ hg
    have hct := wf.types c hc
    rw [hty, List.mem_singleton] at hct
    have : c.localIndex ∈ cs.flatten := by
      rw [hp.mem_iff]
      exact List.mem_map_of_mem (List.mem_filter.mpr ⟨hc, by simp [hct]⟩)
    obtain ⟨l, hl, h⟩ := List.mem_flatten.mp this
    exact ⟨l, hl, fun e => by rw [e] at h; simp at h⟩
  obtain ⟨testC, hT, hTne⟩ := hne h.testSpace.wf h.testType ht (ht3 t tcs htcs)
  obtain ⟨trialC, hR, _⟩ := hne h.trialSpace.wf h.trialType hr (hr3 t rcs hrcs)
  have hpanic : ∀ q testC trialC s s', ¬ ColourPairRun env asm (test.fs.globalSize, trial.fs.globalSize)
      trial test t t q testC trialC s (.panicked s') := by
    rintro q testC trialC s s' ⟨tasks, hs, hrun⟩
    rw [hb] at hs
    have h0 := hs.zero
    have : tasks = [] := by
      cases hs with
      | stop _ => rfl
      | step h1 _ _ _ => exact absurd h1 h0
    subst this
    have := (sectionRun_iff (tasks := []) (ts := []) (mem := s) rfl (by simp) (by simp) _).mp hrun
    cases this
  have hpanic2 : ∀ q testC s s' l, ¬ ForRun (fun trialC => ColourPairRun env asm
      (test.fs.globalSize, trial.fs.globalSize) trial test t t q testC trialC) l s (.panicked s') := by
    intro q testC s s' l hrun
    generalize he : Outcome.panicked s' = o at hrun
    induction hrun with
    | nil => cases he
    | cons _ _ ih => exact ih he
    | panic h1 => exact hpanic _ _ _ _ _ h1
  have hno : ∀ s o, ¬ TypePairRun env asm (test.fs.globalSize, trial.fs.globalSize) trial test rcol tcol t t
      s o := by
    intro s o hrun
    unfold TypePairRun at hrun
    simp only [h.regRule_eq, htcs, hrcs] at hrun
    refine forRun_none (fun a _ s s' => hpanic2 _ a s s' _) hT ?_ hrun
    intro s o hrun
    refine forRun_none (fun a _ s s' => hpanic _ _ a s s') hR ?_ hrun
    rintro s o ⟨tasks, hs, _⟩
    rw [hb] at hs
    have := hs.zero
    exact hTne (List.eq_nil_of_length_eq_zero (by omega))
  have hpan : ∀ s s', ¬ TypePairRun env asm (test.fs.globalSize, trial.fs.globalSize) trial test rcol tcol
      t t s (.panicked s') := fun s s' => hno s _
  have hpan' : ∀ s s', ¬ ForRun (fun rt => TypePairRun env asm (test.fs.globalSize, trial.fs.globalSize)
      trial test rcol tcol t rt) [t] s (.panicked s') := by
    intro s s' hrun
    exact forRun_none (fun a ha => by rw [List.mem_singleton.mp ha]; exact hpan) (List.mem_singleton.mpr rfl)
      hno hrun
  refine forRun_none (fun a ha => by rw [List.mem_singleton.mp ha]; exact hpan') (List.mem_singleton.mpr rfl)
    ?_ ho
  intro s o hrun
  exact forRun_none (fun a ha => by rw [List.mem_singleton.mp ha]; exact hpan) (List.mem_singleton.mpr rfl)
    hno hrun

/-! ### The hypotheses can be met -/

/-- Colours of the P1 space on the octahedron: the eight cells need eight colours or fewer; two cells that
do not touch (0 and 6) have the same colour. -/
example : ∃ fs col, SerialSpace fs p1 ∧ fs.cellColouring = some col ∧
    ∃ tcs, col .triangle = some tcs ∧ [0, 6] ∈ tcs := by
  obtain ⟨fs, h, hg⟩ := octSpace
  obtain ⟨col, hc, _⟩ := h.colouring
  refine ⟨fs, col, h, hc, ?_⟩
  obtain ⟨dm, _, _, _, _, _, _, hel⟩ := new_local h.yields
  unfold FunctionSpace.cellColouring FunctionSpace.element at hc
  rw [hel, hg] at hc
  have := Option.some_inj.mp (hc.symm.trans (by rfl))
  rw [this]
  exact ⟨_, rfl, by decide⟩

theorem exSingle_computes (o : Options) :
    (Laplace.singleLayer (kernelOf squareKernel) o).Computes slF squareKernel :=
  ⟨laplace_singleLayer_integrand _ _, kernelOf_computes _ _, rfl⟩

/-- The single layer operator on the octahedron with batch size 3: there is exactly one outcome. -/
example : ∃ fs, SerialSpace fs p1 ∧
    let asm := Laplace.singleLayer (kernelOf squareKernel) (smallOptions.setBatchSize 3)
    let sp := spaceOf fs p1 octGeometry p1Basis
    ∃ o, ∀ o', AssembleIntoMemory exEnv asm sp sp (List.replicate 36 0) o' ↔ o' = o := by
  obtain ⟨fs, h, hg⟩ := octSpace
  refine ⟨fs, h, ?_⟩
  intro asm sp
  have hs : fs.globalSize = 6 := by
    obtain ⟨nd, t0, fo, _⟩ := h.family
    obtain ⟨dm, h1, _, _, h2, _⟩ := new_local h.yields
    rw [h.serial.2.1, h2]
    rw [hg] at h1
    have := Option.some_inj.mp (h1.symm.trans (by rfl))
    rw [this]
  have hset := octDenseSetting (asm := asm) h hg
    (exSingle_computes _) (by decide) (by decide)
  obtain ⟨tcs, rcs, _, _, _, _, key⟩ := hset.assemble (by decide)
  exact ⟨_, key _ (by
    rw [List.length_replicate]
    show 36 = fs.globalSize * fs.globalSize
    rw [hs])⟩

/-- With batch size 0 there is none. -/
example : ∃ fs, SerialSpace fs p1 ∧
    let asm := Laplace.singleLayer (kernelOf squareKernel) (smallOptions.setBatchSize 0)
    let sp := spaceOf fs p1 octGeometry p1Basis
    ¬ ∃ o, AssembleIntoMemory exEnv asm sp sp (List.replicate (fs.globalSize * fs.globalSize) 0) o := by
  obtain ⟨fs, h, hg⟩ := octSpace
  refine ⟨fs, h, ?_⟩
  intro asm sp
  have hset := octDenseSetting (asm := asm) h hg
    (exSingle_computes _) (by decide) (by decide)
  have hne : fs.grid.entityIter 2 ≠ [] := by rw [hg]; decide
  exact C11_batch_zero_diverges hset rfl hne hne (by rw [List.length_replicate]; rfl)

end Bempp
