import Verif.Props.Dense
import Verif.Props.Schedule
import Verif.Proofs.Mixed
/-
C36: dense assembly with different cell types.
-/
set_option linter.unusedSectionVars false

namespace Bempp
open Examples

variable {R T : Type}

section
variable [Zero R] [Mul R] [Zero T] [Add T] [Mul T]
  {env : Env R T} {asm : Assembler R T} {trial test : Space R T} {famT famR : CellType → ElementDofs}

omit [Zero R] [Mul R] [Zero T] [Add T] [Mul T] in
/-- `element` of a space on one process: the element of the family for this cell type if the grid has cells of this type, and a panic for all
other types. -/
theorem C36_element {sp : FunctionSpace} {fam : CellType → ElementDofs} (h : SerialSpace sp fam) (t : CellType) :
    (t ∈ sp.grid.entityTypes 2 → sp.element t = some (fam t)) ∧ (t ∉ sp.grid.entityTypes 2 → sp.element t = none) :=
  ⟨h.element t, h.element_none⟩

/-- **C36.** If the test grid has a cell `c` and the trial grid a cell `c'`, and one of their types does not occur
in the other grid, then no run of `assemble` returns a matrix and no run of `assemble_into_memory` completes,
whatever the external functions are. -/
theorem C36_missing_type (ht : SerialSpace test.fs famT) (hr : SerialSpace trial.fs famR) {c c' : Entity}
    (hc : c ∈ test.fs.grid.entityIter 2) (hc' : c' ∈ trial.fs.grid.entityIter 2)
    (hne : c'.entityType ∉ test.fs.grid.entityTypes 2 ∨ c.entityType ∉ trial.fs.grid.entityTypes 2) :
    (∀ M, ¬ Assemble env asm trial test (some M)) ∧
    ∀ mem mem', ¬ AssembleIntoMemory env asm trial test mem (.ok mem') := by
  have key : ∀ mem mem', ¬ AssembleIntoMemory env asm trial test mem (.ok mem') := by
    intro mem mem'
    refine nonsingular_no_ok ht hr hc hc' fun q _ tcs rcs _ _ => batch_missing ?_
    exact hne.imp ht.element_none hr.element_none
  exact ⟨assemble_no_ok key, key⟩

/-- **C36.** Suppose a test cell `c` and a trial cell `c'` are not touching cells of one grid, both types occur in
both grids, and the test family has more basis functions on the type of `c'` than on the type of `c` (a triangle and
a quadrilateral with P1 elements, say). Then no run of `assemble` returns a matrix without a panic or a read outside
of the table of basis functions, whatever the geometry maps and the kernel do. -/
theorem C36_both_types (ht : SerialSpace test.fs famT) (hr : SerialSpace trial.fs famR)
    {BT : Basis R T} (hbt : TabulateOk test famT BT) {Q : Quadrature R} {c c' : Entity}
    (hc : c ∈ test.fs.grid.entityIter 2) (hc' : c' ∈ trial.fs.grid.entityIter 2)
    (hqt : RegularOk env asm.options Q c.entityType) (hqr : RegularOk env asm.options Q c'.entityType)
    (hq : Q.regular c.entityType ≠ []) (hq' : Q.regular c'.entityType ≠ [])
    (hty : c'.entityType ∈ test.fs.grid.entityTypes 2) (hty' : c.entityType ∈ trial.fs.grid.entityTypes 2)
    (hg : test.fs.grid.addr = trial.fs.grid.addr → trial.fs.grid = test.fs.grid)
    (hn : ¬ (test.fs.grid.addr = trial.fs.grid.addr ∧ c.Touches c'))
    (hd : (famT c.entityType).dim < (famT c'.entityType).dim) (hd' : 0 < (famR c.entityType).dim)
    (hf : asm.integrand.Reads) :
    (∀ M, ¬ Assemble env asm trial test (some M)) ∧
    ∀ mem mem', ¬ AssembleIntoMemory env asm trial test mem (.ok mem') := by
  have key : ∀ mem mem', ¬ AssembleIntoMemory env asm trial test mem (.ok mem') := by
    intro mem mem'
    refine nonsingular_no_ok ht hr hc hc' fun q hrule tcs rcs h1 h2 => ?_
    have e1 : asm.options.quadratureDegrees.get? c.entityType = some (Q.regular c.entityType).length := hqt.degree
    have e2 : asm.options.quadratureDegrees.get? c'.entityType = some (Q.regular c'.entityType).length := hqr.degree
    unfold regRule at hrule
    rw [e1, e2] at hrule
    simp only [Option.bind_eq_bind, Option.bind_some, hqt.rule, hqr.rule, Option.bind_eq_some_iff,
      Option.some.injEq] at hrule
    obtain ⟨pt, e3, pr, e4, -, -, ttab, e5, -, -, rtab, e6, rfl⟩ := hrule
    rw [unpackPoints_eq Prod.fst (Q.regular c.entityType) hqt.points] at e3
    cases e3
    have e7 := hbt c.entityType (ht.wf.types c hc) asm.tableDerivs ((Q.regular c.entityType).map Prod.fst)
      (by
        intro x hx
        obtain ⟨p, hp, rfl⟩ := List.mem_map.mp hx
        exact hqt.points p hp)
    rw [List.length_map] at e7
    rw [e5] at e7
    cases e7
    refine batch_small_table (ht.element _ hty) (hr.element _ hty') hf (by simpa using hq) (by simpa using hq')
      (by omega) hd' h1 h2 ?_ (Or.inl ⟨_, hd, ?_⟩)
    · rw [neighbours_cells hr.wf hg hc hc']
      simp [hn]
    · intro x hx
      simp only [Basis.table, List.mem_singleton] at hx
      subst hx
      simp
  exact ⟨assemble_no_ok key, key⟩

/-- A parallel section all of whose tasks panic. -/
theorem section_all_panic {α : Type} (l : List α) (mem : List T) :
    ∃ o, SectionRun (l.map fun _ => (none : Option (List (AddOp T)))) mem o := by
  cases l with
  | nil => exact ⟨.ok mem, mem, 0, ⟨_, .refl _, ⟨by intro t h; simp [ParState.start] at h, rfl⟩⟩, .identity, rfl⟩
  | cons a l => exact ⟨.panicked mem, mem, rfl, rfl⟩

/-- **C36.** If all cells of the test grid have one type and all cells of the trial grid another one, `assemble`
panics in every run, and there is a run. -/
theorem C36_panics (ht : SerialSpace test.fs famT) (hr : SerialSpace trial.fs famR) {t t' : CellType}
    (htt : test.fs.grid.entityTypes 2 = [t]) (hrt : trial.fs.grid.entityTypes 2 = [t']) (hne : t ≠ t')
    (hn : test.fs.grid.entityIter 2 ≠ []) (hn' : trial.fs.grid.entityIter 2 ≠ [])
    (hb : 0 < asm.options.batchSize) : ∀ out, Assemble env asm trial test out ↔ out = none := by
  obtain ⟨c, cs, ec⟩ := List.exists_cons_of_ne_nil hn
  obtain ⟨c', cs', ec'⟩ := List.exists_cons_of_ne_nil hn'
  have hc : c ∈ test.fs.grid.entityIter 2 := by rw [ec]; simp
  have hc' : c' ∈ trial.fs.grid.entityIter 2 := by rw [ec']; simp
  have e1 : c.entityType = t := by have := ht.wf.types c hc; rw [htt] at this; simpa using this
  have e2 : c'.entityType = t' := by have := hr.wf.types c' hc'; rw [hrt] at this; simpa using this
  obtain ⟨h1, h2⟩ := C36_missing_type (env := env) (asm := asm) ht hr hc hc'
    (Or.inl (by rw [htt, e2]; simpa using hne.symm))
  have hel : trial.fs.element t = none := hr.element_none (by rw [hrt]; simpa using hne)
  intro out
  constructor
  · intro h
    cases out with
    | none => rfl
    | some M => exact absurd h (h1 M)
  · rintro rfl
    have s1 : trial.fs.isSerial = true := hr.serial.1
    have s2 : test.fs.isSerial = true := ht.serial.1
    obtain ⟨tcol, e3, -, -⟩ := ht.colouring
    obtain ⟨rcol, e4, -, -⟩ := hr.colouring
    have : ∃ o, AssembleNonsingularPart env asm (test.fs.globalSize, trial.fs.globalSize) trial test rcol tcol
        (List.replicate (test.fs.globalSize * trial.fs.globalSize) 0) o := by
      have hex : ∀ {α : Type} {body : α → List T → Outcome (List T) → Prop} (l : List α),
          (∀ a ∈ l, ∀ s, ∃ o, body a s o) → ∀ s, ∃ o, ForRun body l s o := by
        intro α body l h s
        obtain ⟨o, ho, _⟩ := forRun_exists (fun _ => True) l (fun a ha s _ => by
          obtain ⟨o, ho⟩ := h a ha s
          exact ⟨o, ho, fun _ _ => trivial⟩) s trivial
        exact ⟨o, ho⟩
      simp only [AssembleNonsingularPart, s1, s2, Bool.true_eq_false, or_self, if_false, ne_eq, not_true_eq_false,
        htt, hrt]
      refine hex _ (fun tt h3 s => hex _ (fun rt h4 s => ?_) s) _
      obtain rfl := List.mem_singleton.mp h3
      obtain rfl := List.mem_singleton.mp h4
      unfold TypePairRun
      split
      · refine hex _ (fun a _ s => hex _ (fun b _ s => ?_) s) _
        obtain ⟨tasks, h5⟩ := SplitPairs.exists hb a b 0
        obtain ⟨o, ho⟩ := section_all_panic tasks s
        refine ⟨o, tasks, h5, ?_⟩
        simpa only [batch_missing (Or.inr hel)] using ho
      · exact ⟨_, rfl⟩
    obtain ⟨o, ho⟩ := this
    unfold Assemble
    rw [if_neg (by simp [s1, s2])]
    cases o with
    | ok m => exact absurd ho (part_no_ok ht hr hc hc' (fun q _ tcs rcs _ _ =>
        batch_missing (Or.inr (by rw [e1]; exact hel))) e3 e4)
    | panicked m =>
      refine ⟨.panicked m, ?_, rfl⟩
      unfold AssembleIntoMemory
      rw [if_neg (by simp), if_neg (by simp [s1, s2]), e3, e4]
      exact ⟨_, ho, rfl⟩

/-- The integrands of all operators use the test and trial functions. -/
theorem reads_singleLayer : (singleLayer : Integrand T).Reads := by
  constructor <;> intros <;> simp [singleLayer]

theorem reads_doubleLayer : (doubleLayer : Integrand T).Reads := by
  constructor <;> intros <;> simp [doubleLayer]

theorem reads_adjointDoubleLayer [Neg T] : (adjointDoubleLayer : Integrand T).Reads := by
  constructor <;> intros <;> simp [adjointDoubleLayer]

theorem reads_curlCurl [Sub T] [Div T] : (hypersingularCurlCurl : Integrand T).Reads := by
  constructor
  · intros; rfl
  · intro k u tg rg
    unfold hypersingularCurlCurl
    cases u 1 0 with
    | none => rfl
    | some x => cases u 2 0 <;> rfl

theorem Integrand.Reads.sum {f g : Integrand T} (h : f.Reads) : (f.sum g).Reads := by
  constructor <;> intros <;> simp [Integrand.sum, h.1, h.2]

end

/-! ### Examples -/

/-- Two triangles and a quadrilateral; the first triangle does not touch the quadrilateral. -/
def strip : Grid :=
  mkGrid 5 7 [(.triangle, [0, 1, 2]), (.triangle, [1, 3, 2]), (.quadrilateral, [3, 4, 5, 6])] fun _ _ => .owned

/-- Two quadrilaterals. -/
def quads : Grid :=
  mkGrid 6 6 [(.quadrilateral, [0, 1, 2, 3]), (.quadrilateral, [2, 3, 4, 5])] fun _ _ => .owned

theorem strip_wf : strip.WF where
  tdim := rfl
  index := le2 (by decide) (by decide) (by decide)
  entity := le2 (by intro e he; fin_cases he <;> rfl) (by intro e he; fin_cases he <;> rfl)
    (by intro e he; fin_cases he <;> rfl)
  types := by decide
  sub_lt := by
    intro c hc
    apply le2 <;> revert c <;> decide
  sub_nodup := by
    intro c hc
    apply le2 <;> revert c <;> decide
  sub_length := by
    intro c hc
    apply le2 <;> revert c <;> decide
  sub_self := by decide
  cell_types := by decide
  types_nodup := by decide
  types0 := rfl
  types1 := rfl
  covered := le2 (by decide) (by decide) (by decide)

theorem quads_wf : quads.WF where
  tdim := rfl
  index := le2 (by decide) (by decide) (by decide)
  entity := le2 (by intro e he; fin_cases he <;> rfl) (by intro e he; fin_cases he <;> rfl)
    (by intro e he; fin_cases he <;> rfl)
  types := by decide
  sub_lt := by
    intro c hc
    apply le2 <;> revert c <;> decide
  sub_nodup := by
    intro c hc
    apply le2 <;> revert c <;> decide
  sub_length := by
    intro c hc
    apply le2 <;> revert c <;> decide
  sub_self := by decide
  cell_types := by decide
  types_nodup := by decide
  types0 := rfl
  types1 := rfl
  covered := le2 (by decide) (by decide) (by decide)

theorem strip_owned : strip.AllOwned := le2 (by decide) (by decide) (by decide)
theorem quads_owned : quads.AllOwned := le2 (by decide) (by decide) (by decide)

/-- P1 on any grid of the examples. -/
theorem p1_on {g : Grid} (h : ∀ t ∈ g.entityTypes 2, t = .triangle ∨ t = .quadrilateral) :
    FamilyOn g p1 (fun d _ => if d = 0 then 1 else 0) where
  elem := fun t ht => p1_wf t (by rcases h t ht with rfl | rfl <;> decide)
  count := by
    intro c _ d _ i e _ l hl
    simp only [p1] at hl
    split at hl
    · cases hl; split <;> rfl
    · cases hl

theorem p1_lowest {g : Grid} {t : CellType} (h : (g.entityTypes 2)[0]? = some t)
    (hd' : ∃ l, (p1 t).entityDofs 0 0 = some l ∧ l ≠ []) :
    Colourable g p1 (fun d _ => if d = 0 then 1 else 0) t where
  first := h
  exists_dof := by
    obtain ⟨l, e1, e2⟩ := hd'
    exact ⟨0, l, by decide, e1, e2⟩
  lowest := by
    intro d hd h e
    rcases (by omega : d = 0 ∨ d = 1) with rfl | rfl
    · obtain ⟨l, e1, e2⟩ := hd'
      rw [e1] at h
      exact absurd (Option.some_inj.mp h) e2
    · rfl

theorem p1Space {g : Grid} (wf : g.WF) (hf : FamilyOn g p1 (fun d _ => if d = 0 then 1 else 0)) {t : CellType}
    (hl : Colourable g p1 (fun d _ => if d = 0 then 1 else 0) t) (ho : g.AllOwned) (he : ∃ ev, g.Edges ev) :
    ∃ fs, SerialSpace fs p1 ∧ fs.grid = g := by
  obtain ⟨sp, h, _⟩ := C18_serial_space wf hf ho
  have hy : (FunctionSpace.new 0 1 g p1).Yields sp := by rw [h]; exact .done sp
  obtain ⟨dm, _, _, _, _, hg, _, hel⟩ := new_local hy
  refine ⟨sp, ⟨?_, ?_, ?_, ?_, ?_⟩, hg⟩
  all_goals rw [hg]
  · exact wf
  · exact he
  · exact ⟨_, _, hf, hl⟩
  · exact ho
  · exact h

theorem stripSpace : ∃ fs, SerialSpace fs p1 ∧ fs.grid = strip :=
  p1Space strip_wf (p1_on (by decide)) (p1_lowest (t := .triangle) rfl ⟨[0], rfl, by decide⟩) strip_owned
    ⟨_, mkGrid_edges _ _ _ _ (by decide)⟩

theorem quadsSpace : ∃ fs, SerialSpace fs p1 ∧ fs.grid = quads :=
  p1Space quads_wf (p1_on (by decide)) (p1_lowest (t := .quadrilateral) rfl ⟨[0], rfl, by decide⟩) quads_owned
    ⟨_, mkGrid_edges _ _ _ _ (by decide)⟩

/-- Triangles against quadrilaterals. -/
example : ∃ fs fs', fs.grid = octahedron ∧ fs'.grid = quads ∧
    ∀ out, Assemble exEnv (Laplace.singleLayer (kernelOf squareKernel) smallOptions)
      (spaceOf fs' p1 octGeometry p1Basis) (spaceOf fs p1 octGeometry p1Basis) out ↔ out = none := by
  obtain ⟨fs, h, hg⟩ := octSpace
  obtain ⟨fs', h', hg'⟩ := quadsSpace
  refine ⟨fs, fs', hg, hg', C36_panics (t := .triangle) (t' := .quadrilateral) h h' ?_ ?_ (by decide) ?_ ?_
    (by decide)⟩
  · show fs.grid.entityTypes 2 = _; rw [hg]; rfl
  · show fs'.grid.entityTypes 2 = _; rw [hg']; rfl
  · show fs.grid.entityIter 2 ≠ _; rw [hg]; decide
  · show fs'.grid.entityIter 2 ≠ _; rw [hg']; decide

/-- Triangles against a grid with both types. -/
example : ∃ fs fs', fs.grid = octahedron ∧ fs'.grid = strip ∧
    ∀ M, ¬ Assemble exEnv (Laplace.singleLayer (kernelOf squareKernel) smallOptions)
      (spaceOf fs' p1 octGeometry p1Basis) (spaceOf fs p1 octGeometry p1Basis) (some M) := by
  obtain ⟨fs, h, hg⟩ := octSpace
  obtain ⟨fs', h', hg'⟩ := stripSpace
  obtain ⟨c, hc⟩ : ∃ c, c ∈ fs.grid.entityIter 2 := by
    rw [hg]; exact List.exists_mem_of_ne_nil _ (by decide)
  have : ∃ c ∈ fs'.grid.entityIter 2, c.entityType = .quadrilateral := by rw [hg']; decide
  obtain ⟨c', hc', e⟩ := this
  refine ⟨fs, fs', hg, hg', (C36_missing_type (c := c) (c' := c') h h' hc hc' (Or.inl ?_)).1⟩
  show _ ∉ fs.grid.entityTypes 2
  rw [hg, e]
  decide

/-- Two regular nodes on both cell types. -/
def bothOptions : Options := smallOptions.setRegularQuadratureDegree .quadrilateral 2

/-- Triangles and quadrilaterals in one grid. -/
example : ∃ fs, fs.grid = strip ∧
    ∀ M, ¬ Assemble exEnv (Laplace.singleLayer (kernelOf squareKernel) bothOptions)
      (spaceOf fs p1 octGeometry p1Basis) (spaceOf fs p1 octGeometry p1Basis) (some M) := by
  obtain ⟨fs, h, hg⟩ := stripSpace
  have hex : ∃ c ∈ fs.grid.entityIter 2, ∃ c' ∈ fs.grid.entityIter 2, c.entityType = .triangle ∧
      c'.entityType = .quadrilateral ∧ ∀ v ∈ c.sub 0, v ∉ c'.sub 0 := by
    rw [hg]; decide
  obtain ⟨c, hc, c', hc', e, e', hv⟩ := hex
  have hreg : ∀ t, bothOptions.quadratureDegrees.get? t = some 2 →
      RegularOk exEnv bothOptions smallRules t := fun t ht =>
    { degree := ht
      rule := rfl
      points := by
        intro p hp
        simp only [smallRules, List.mem_cons, List.not_mem_nil, or_false] at hp
        rcases hp with rfl | rfl <;> rfl }
  refine ⟨fs, hg, (C36_both_types (c := c) (c' := c') h h (spaceOf_tabulate _ _ _ _) hc hc' (hreg _ ?_) (hreg _ ?_) ?_ ?_
    ?_ ?_ (fun _ => rfl) ?_ ?_ ?_ reads_singleLayer).1⟩
  · rw [e]; decide
  · rw [e']; decide
  · simp [smallRules]
  · simp [smallRules]
  · show _ ∈ fs.grid.entityTypes 2; rw [hg, e']; decide
  · show _ ∈ fs.grid.entityTypes 2; rw [hg, e]; decide
  · rintro ⟨-, v, h1, h2⟩
    exact hv v h1 h2
  · rw [e, e']; decide
  · rw [e]; decide

end Bempp
