import Verif.Proofs.Regular
/-
The regular part of dense assembly: parallel sections and loops over colours.
-/
set_option linter.unusedSectionVars false

namespace Bempp

variable {R T : Type}

/-! ### Loops -/

theorem forRun_iff {α σ : Type} {body : α → σ → Outcome σ → Prop} (I : σ → Prop) (f : α → σ → σ)
    (l : List α) (hb : ∀ a ∈ l, ∀ s, I s → (∀ o, body a s o ↔ o = .ok (f a s)) ∧ I (f a s)) (s : σ)
    (hs : I s) (o : Outcome σ) :
    ForRun body l s o ↔ o = .ok (l.foldl (fun s a => f a s) s) := by
  induction l generalizing s with
  | nil =>
    constructor
    · intro h; cases h; rfl
    · rintro rfl; exact .nil s
  | cons a l ih =>
    obtain ⟨h1, h2⟩ := hb a (by simp) s hs
    have ih := ih (fun a' ha' => hb a' (by simp [ha'])) (f a s) h2
    constructor
    · intro h
      cases h with
      | cons hb' hr =>
        have := (h1 _).mp hb'
        cases this
        exact ih.mp hr
      | panic hb' =>
        have := (h1 _).mp hb'
        cases this
    · intro h
      exact .cons ((h1 _).mpr rfl) (ih.mpr h)

theorem foldl_applyOps [Add T] {α : Type} (g : α → List (AddOp T)) (l : List α) (s : List T) :
    l.foldl (fun s a => applyOps (g a) s) s = applyOps (l.flatMap g) s := by
  induction l generalizing s with
  | nil => rfl
  | cons a l ih => rw [List.foldl_cons, List.flatMap_cons, applyOps_append, ih]

/-- Two outcomes are the same result, or two panics. -/
inductive Outcome.Same {σ : Type} : Outcome σ → Outcome σ → Prop
  | ok (s : σ) : Outcome.Same (.ok s) (.ok s)
  | panicked (s s' : σ) : Outcome.Same (.panicked s) (.panicked s')

theorem forRun_same {α σ : Type} {body : α → σ → Outcome σ → Prop} (I : σ → Prop)
    (l : List α) (hb : ∀ a ∈ l, ∀ s, I s → ∀ o, body a s o →
      (∀ o', body a s o' → o.Same o') ∧ ∀ s', o = .ok s' → I s') (s : σ)
    (hs : I s) (o o' : Outcome σ) (h : ForRun body l s o) (h' : ForRun body l s o') :
    o.Same o' ∧ ∀ s', o = .ok s' → I s' := by
  induction h generalizing o' with
  | nil s =>
    cases h'
    exact ⟨.ok s, fun s' e => by cases e; exact hs⟩
  | @cons a l s s1 o h1 h2 ih =>
    obtain ⟨hb1, hb2⟩ := hb a (by simp) s hs _ h1
    cases h' with
    | cons h1' h2' =>
      have := hb1 _ h1'
      cases this
      exact ih (fun a' ha' => hb a' (by simp [ha'])) (hb2 _ rfl) _ h2'
    | panic h1' =>
      have := hb1 _ h1'
      cases this
  | @panic a l s s1 h1 =>
    obtain ⟨hb1, _⟩ := hb a (by simp) s hs _ h1
    cases h' with
    | cons h1' h2' =>
      have := hb1 _ h1'
      cases this
    | panic h1' => exact ⟨.panicked _ _, fun _ e => by cases e⟩

/-! ### One parallel section -/

section
variable [Zero R] [Mul R] [Zero T] [Add T] [Mul T]

/-- All addresses of a section belong to the cells of the two colours. -/
theorem section_addrs {env : Env R T} {asm : Assembler R T} {shape : Nat × Nat} {ty ty' : CellType}
    {trial test : Space R T} {testC trialC : List Nat} {q : RegRule R T} {b : Nat}
    {tasks : List (List Nat × List Nat)} (hs : SplitPairs b testC trialC 0 tasks)
    {ts : List (List (AddOp T))}
    (h : (tasks.map fun t =>
      assembleBatchNonadjacent env asm shape ty ty' trial t.2 test t.1 q).mapM id = some ts) :
    ∃ l, (ts.flatten.map AddOp.addr).Sublist l ∧ l.Perm (testC.flatMap fun tc => trialC.flatMap fun rc =>
      addrs shape.1 (test.fs.dofs tc) (trial.fs.dofs rc)) := by
  refine ⟨tasks.flatMap fun t => t.2.flatMap fun rc => t.1.flatMap fun tc =>
    addrs shape.1 (test.fs.dofs tc) (trial.fs.dofs rc), ?_, ?_⟩
  · clear hs
    induction tasks generalizing ts with
    | nil =>
      simp at h
      subst h
      simp
    | cons t tasks ih =>
      rw [List.map_cons, List.mapM_cons] at h
      simp only [id, Option.bind_eq_bind, Option.bind_eq_some_iff] at h
      obtain ⟨ops, h1, rest, h2, h3⟩ := h
      cases h3
      rw [List.flatten_cons, List.map_append, List.flatMap_cons]
      exact (batch_addrs h1).append (ih h2)
  · have := hs.perm fun tc rc => addrs shape.1 (test.fs.dofs tc) (trial.fs.dofs rc)
    rwa [List.drop_zero] at this

theorem section_safe {env : Env R T} {asm : Assembler R T} {ty ty' : CellType}
    {trial test : Space R T} {testC trialC : List Nat} {q : RegRule R T} {b : Nat}
    (ht : ColourClass test.fs testC) (hr : ColourClass trial.fs trialC)
    {tasks : List (List Nat × List Nat)} (hs : SplitPairs b testC trialC 0 tasks)
    {ts : List (List (AddOp T))}
    (h : (tasks.map fun t => assembleBatchNonadjacent env asm (test.fs.globalSize, trial.fs.globalSize)
      ty ty' trial t.2 test t.1 q).mapM id = some ts) :
    (ts.flatten.map AddOp.addr).Nodup ∧
      ∀ o ∈ ts.flatten, o.addr < test.fs.globalSize * trial.fs.globalSize := by
  obtain ⟨l, h1, h2⟩ := section_addrs hs h
  refine ⟨(h2.nodup_iff.mpr (colour_addrs_nodup ht hr)).sublist h1, fun o ho => ?_⟩
  exact colour_addrs_lt ht hr _ (h2.mem_iff.mp (h1.subset (List.mem_map_of_mem ho)))

/-- Whatever the external functions do, the outcome of a section does not depend on the schedule. -/
theorem colourPair_same {env : Env R T} {asm : Assembler R T} {ty ty' : CellType}
    {trial test : Space R T} {testC trialC : List Nat} {q : RegRule R T}
    (ht : ColourClass test.fs testC) (hr : ColourClass trial.fs trialC) {mem : List T}
    (hm : mem.length = test.fs.globalSize * trial.fs.globalSize) {o : Outcome (List T)}
    (h : ColourPairRun env asm (test.fs.globalSize, trial.fs.globalSize) trial test ty ty' q testC trialC
      mem o) :
    (∀ o', ColourPairRun env asm (test.fs.globalSize, trial.fs.globalSize) trial test ty ty' q testC
      trialC mem o' → o.Same o') ∧
    ∀ s, o = .ok s → s.length = test.fs.globalSize * trial.fs.globalSize := by
  obtain ⟨tasks, hs, hrun⟩ := h
  cases hts : (tasks.map fun t => assembleBatchNonadjacent env asm
      (test.fs.globalSize, trial.fs.globalSize) ty ty' trial t.2 test t.1 q).mapM id with
  | none =>
    have hrun' := hrun
    unfold SectionRun at hrun
    rw [hts] at hrun
    obtain ⟨mem', _, rfl⟩ := hrun
    refine ⟨?_, fun s e => by cases e⟩
    rintro o' ⟨tasks', hs', hrun''⟩
    cases hs.unique hs'
    unfold SectionRun at hrun''
    rw [hts] at hrun''
    obtain ⟨mem'', _, rfl⟩ := hrun''
    exact .panicked _ _
  | some ts =>
    obtain ⟨h1, h2⟩ := section_safe ht hr hs hts
    have key := sectionRun_iff hts h1 (by rw [hm]; exact h2)
    rw [key] at hrun
    subst hrun
    refine ⟨?_, fun s e => by cases e; rw [applyOps_length, hm]⟩
    rintro o' ⟨tasks', hs', hrun''⟩
    cases hs.unique hs'
    rw [key] at hrun''
    subst hrun''
    exact .ok _

section
variable {env : Env R T} {asm : Assembler R T} {trial test : Space R T}
  {famT famR : CellType → ElementDofs} {F : MathIntegrand T} {K : MathKernel R T} {GT GR : Geometry R}
  {BT BR : Basis R T} {Q : Quadrature R} {t : CellType}

theorem DenseSetting.colourPair (h : DenseSetting env asm trial test famT famR F K GT GR BT BR Q t)
    (hb : 0 < asm.options.batchSize) {testC trialC : List Nat}
    (ht : ColourClass test.fs testC) (hr : ColourClass trial.fs trialC)
    (ht' : ∀ c ∈ testC, test.fs.grid.IsCell t c) (hr' : ∀ c ∈ trialC, trial.fs.grid.IsCell t c)
    {mem : List T} (hm : mem.length = test.fs.globalSize * trial.fs.globalSize) (o : Outcome (List T)) :
    ColourPairRun env asm (test.fs.globalSize, trial.fs.globalSize) trial test t t
      (regRuleOf asm famT famR BT BR Q t) testC trialC mem o ↔
    o = .ok (applyOps (testC.flatMap fun tc => trialC.flatMap fun rc =>
      pairOps env.cast F K GT GR BT BR Q t (famT t).dim (famR t).dim trial.fs test.fs tc rc) mem) := by
  obtain ⟨tasks, hs⟩ := SplitPairs.exists hb testC trialC 0
  generalize hO : pairOps env.cast F K GT GR BT BR Q t (famT t).dim (famR t).dim trial.fs test.fs = O
  have hts : (tasks.map fun x => assembleBatchNonadjacent env asm
      (test.fs.globalSize, trial.fs.globalSize) t t trial x.2 test x.1
      (regRuleOf asm famT famR BT BR Q t)).mapM id =
      some (tasks.map fun x => x.2.flatMap fun rc => x.1.flatMap fun tc => O tc rc) := by
    rw [List.mapM_map]
    apply mapM_some
    intro x hx
    have := hs.mem x hx
    simp only [id, Function.comp]
    rw [h.batch (fun c hc => ht' c (this.1 c hc)) (fun c hc => hr' c (this.2 c hc)), hO]
  obtain ⟨h1, h2⟩ := section_safe ht hr hs hts
  have key := sectionRun_iff hts h1 (mem := mem) (by rw [hm]; exact h2)
  have hperm : (tasks.map fun x => x.2.flatMap fun rc => x.1.flatMap fun tc => O tc rc).flatten.Perm
      (testC.flatMap fun tc => trialC.flatMap fun rc => O tc rc) := by
    have := hs.perm O
    rwa [List.drop_zero, List.flatMap_def] at this
  have hap := applyOps_perm mem hperm h1
  rw [← hap]
  constructor
  · rintro ⟨tasks', hs', hrun⟩
    cases hs.unique hs'
    exact (key o).mp hrun
  · intro e
    exact ⟨tasks, hs, (key o).mpr e⟩

/-- All operations of the regular part, in an order that does not depend on the batch size. -/
def regularOps (cast : R → T) (F : MathIntegrand T) (K : MathKernel R T) (GT GR : Geometry R)
    (BT BR : Basis R T) (Q : Quadrature R) (t : CellType) (dt dr : Nat) (trial test : FunctionSpace)
    (tcs rcs : List (List Nat)) : List (AddOp T) :=
  tcs.flatMap fun testC => rcs.flatMap fun trialC => testC.flatMap fun tc => trialC.flatMap fun rc =>
    pairOps cast F K GT GR BT BR Q t dt dr trial test tc rc

theorem DenseSetting.nonsingular (h : DenseSetting env asm trial test famT famR F K GT GR BT BR Q t)
    (hb : 0 < asm.options.batchSize) {testCol trialCol : Colouring}
    (htc : test.fs.cellColouring = some testCol) (hrc : trial.fs.cellColouring = some trialCol)
    {tcs rcs : List (List Nat)} (ht : testCol t = some tcs) (hr : trialCol t = some rcs)
    {mem : List T} (hm : mem.length = test.fs.globalSize * trial.fs.globalSize) (o : Outcome (List T)) :
    AssembleNonsingularPart env asm (test.fs.globalSize, trial.fs.globalSize) trial test trialCol testCol
      mem o ↔
    o = .ok (applyOps (regularOps env.cast F K GT GR BT BR Q t (famT t).dim (famR t).dim trial.fs test.fs
      tcs rcs) mem) := by
  unfold AssembleNonsingularPart
  simp only [h.testSpace.serial.1, h.trialSpace.serial.1, Bool.true_eq_false, or_self, if_false, ne_eq,
    not_true_eq_false, h.testType, h.trialType]
  have hrun : ∀ s : List T, s.length = test.fs.globalSize * trial.fs.globalSize → ∀ o,
      TypePairRun env asm (test.fs.globalSize, trial.fs.globalSize) trial test trialCol testCol t t s o ↔
      o = .ok (applyOps (regularOps env.cast F K GT GR BT BR Q t (famT t).dim (famR t).dim trial.fs
        test.fs tcs rcs) s) := by
    intro s hs o
    unfold TypePairRun
    simp only [h.regRule_eq, ht, hr]
    rw [forRun_iff (fun s => s.length = test.fs.globalSize * trial.fs.globalSize)
      (fun testC s => applyOps (rcs.flatMap fun trialC => testC.flatMap fun tc => trialC.flatMap fun rc =>
        pairOps env.cast F K GT GR BT BR Q t (famT t).dim (famR t).dim trial.fs test.fs tc rc) s) tcs
      ?_ s hs o, foldl_applyOps]
    · rfl
    · intro testC htC s hs
      refine ⟨fun o => ?_, by rw [applyOps_length, hs]⟩
      obtain ⟨c1, c2⟩ := h.testSpace.colourClass htc ht htC
      rw [forRun_iff (fun s => s.length = test.fs.globalSize * trial.fs.globalSize)
        (fun trialC s => applyOps (testC.flatMap fun tc => trialC.flatMap fun rc =>
          pairOps env.cast F K GT GR BT BR Q t (famT t).dim (famR t).dim trial.fs test.fs tc rc) s) rcs
        ?_ s hs o, foldl_applyOps]
      intro trialC hrC s hs
      obtain ⟨d1, d2⟩ := h.trialSpace.colourClass hrc hr hrC
      exact ⟨h.colourPair hb c1 d1 c2 d2 hs, by rw [applyOps_length, hs]⟩
  have h2 := forRun_iff (body := fun rt => TypePairRun env asm (test.fs.globalSize, trial.fs.globalSize)
      trial test trialCol testCol t rt)
    (fun s => s.length = test.fs.globalSize * trial.fs.globalSize)
    (fun _ s => applyOps (regularOps env.cast F K GT GR BT BR Q t (famT t).dim (famR t).dim trial.fs
        test.fs tcs rcs) s) [t] (by
      intro a ha s hs
      rw [List.mem_singleton.mp ha]
      exact ⟨hrun s hs, by rw [applyOps_length, hs]⟩)
  rw [forRun_iff (fun s => s.length = test.fs.globalSize * trial.fs.globalSize)
    (fun _ s => applyOps (regularOps env.cast F K GT GR BT BR Q t (famT t).dim (famR t).dim trial.fs
        test.fs tcs rcs) s) [t] ?_ mem hm o]
  · rfl
  · intro a ha s hs
    rw [List.mem_singleton.mp ha]
    exact ⟨h2 s hs, by rw [applyOps_length, hs]⟩

end
end
end Bempp
