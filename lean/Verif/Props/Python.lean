import Verif.Proofs.Python
import Verif.Props.Options
/-
C37, C38, C43, C44: histories of calls of the Python wrappers.
-/
namespace Bempp

/-- A live space `e`: its Rust space, grid and family have not been freed. -/
def Py.Alive (s : Py) (e : Nat × PySpace) : Prop :=
  ∃ p q, s.heap.live e.2.rsSpace = some (.space p q) ∧ s.heap.live p = some .grid ∧ s.heap.live q = some .family ∧
    (s.grids e.2.grid).rs = some p ∧ (s.families e.2.family).rs = some q

/-- **C37.** After any history of creations, deletions and uses of spaces, in which any conversion may fail,
nothing has been freed twice or used after it was freed (either would make `runPy` give `none`), every live space's
Rust space, grid and family exist, no deletion or use raises or is undefined, and a creation raises only if one of
its conversions fails. -/
theorem C37_never_freed_early (calls : List PyCall) : ∃ s, runPy Py.start calls = some s ∧
    (∀ e ∈ s.spaces, s.Alive e) ∧
    (∀ k, (∃ s', (PyCall.delete k).run s = .done s' ∧ s'.spaces = s.spaces.filter fun e => e.1 ≠ k) ∧
      (PyCall.use k).run s = .done s) ∧
    ∀ g f, ∃ s' r, (PyCall.create g f true true).run s = .done s' ∧
      s'.spaces = (s.nextSpace, ⟨r, g, f⟩) :: s.spaces ∧ s.heap.live r = none := by
  obtain ⟨s, leak, e, h, -⟩ := runPy_good calls PyGood.start
  refine ⟨s, e, ?_, ?_, ?_⟩
  · intro x hx
    obtain ⟨cg, cf, inv, -⟩ := h.inv
    obtain ⟨p, q, e1, e2, e3⟩ := inv.spaces x hx
    refine ⟨p, q, e1, ?_, ?_, e2, e3⟩
    · rcases inv.grids.entry x.2.grid with ⟨h1, -⟩ | ⟨p', h1, h2, -⟩
      · rw [h1] at e2; cases e2
      · rw [h1] at e2; cases e2; exact h2
    · rcases inv.families.entry x.2.family with ⟨h1, -⟩ | ⟨p', h1, h2, -⟩
      · rw [h1] at e3; cases e3
      · rw [h1] at e3; cases e3; exact h2
  · intro k
    obtain ⟨s', e1, -, e2, -⟩ := delete_good h k
    exact ⟨⟨s', e1, e2⟩, use_good h k⟩
  · intro g f
    rcases create_good h g f true true with ⟨s', r, e, -, e2, e3, -⟩ | ⟨-, h, -⟩ | ⟨_, -, h, -⟩
    · exact ⟨s', r, e, e2, e3⟩
    · cases h
    · cases h

/-- Two spaces on one grid, one deleted; a third with the same family after a failed conversion. -/
example : ∃ s, runPy Py.start [.create 0 0 true true, .create 0 1 true true, .create 0 2 true false, .delete 0,
    .use 1, .create 1 0 true true] = some s ∧ s.spaces.length = 2 := ⟨_, rfl, rfl⟩

/-- **C43, partial.** If no conversion of an element family fails, every Rust object that exists is a live space
or the grid or family of one, so that nothing is left when all spaces are deleted. Missing: histories in which
the conversion of a family fails; see `C43_failed_family_leaks_grid`, and
`C66_what_exists` for exactly what exists after those. -/
theorem C43_nothing_leaked_partial (calls : List PyCall)
    (hf : ∀ g f gridOk familyOk, PyCall.create g f gridOk familyOk ∈ calls → familyOk = true) :
    ∃ s, runPy Py.start calls = some s ∧
      (∀ p, s.heap.live p ≠ none → ∃ e ∈ s.spaces, ∃ q r, s.heap.live e.2.rsSpace = some (.space q r) ∧
        (p = e.2.rsSpace ∨ p = q ∨ p = r)) ∧
      (s.spaces = [] → ∀ p, s.heap.live p = none) := by
  obtain ⟨s, leak, e, h, -, hl⟩ := runPy_good calls PyGood.start
  have h' : PyGood s fun _ => 0 := by
    rw [← hl ?_]
    · exact h
    rintro (⟨g, f, a, b⟩ | _ | _) hc
    · exact hf g f a b hc
    · trivial
    · trivial
  refine ⟨s, e, fun p hp => ?_, h'.empty⟩
  obtain ⟨o, ho⟩ := Option.ne_none_iff_exists'.mp hp
  exact h'.owned ho

/-- Three spaces, the grid of the last cannot be converted, all deleted. -/
example : ∃ s, runPy Py.start [.create 0 0 true true, .create 0 1 true true, .create 1 1 false true, .delete 0,
    .delete 1] = some s ∧ s.spaces.isEmpty ∧ s.heap.next = 5 := ⟨_, rfl, rfl, rfl⟩

/-- **C43, the other case.** If in any state the conversion of a grid succeeds (or was made before) and then that
of the family fails, a Rust grid for that grid exists for ever, also after all spaces are deleted. -/
theorem C43_failed_family_leaks_grid (before after : List PyCall) (s : Py) (hs : runPy Py.start before = some s)
    (g f : Nat) (hf : (s.families f).rs = none) :
    ∃ s', runPy s (.create g f true false :: after) = some s' ∧
      ∃ p, (s'.grids g).rs = some p ∧ s'.heap.live p = some .grid := by
  obtain ⟨s0, l0, e0, h0, -⟩ := runPy_good before PyGood.start
  obtain rfl : s0 = s := Option.some.inj (e0.symm.trans hs)
  rcases create_good h0 g f true false with ⟨s', r, e, h1, -⟩ | ⟨-, h, -⟩ | ⟨s', e, -, -, h1, -⟩
  · exfalso
    have hr : ∃ s', functionSpaceCall g f true false s0 = .raised s' := by
      unfold functionSpaceCall
      cases ha : acquire .grid true s0.heap (s0.grids g) with
      | none => exact ⟨_, rfl⟩
      | some x =>
        obtain ⟨h, a⟩ := x
        dsimp only
        cases a.refcount with
        | none => exact ⟨_, rfl⟩
        | some c =>
          have : acquire .family false h (s0.families f) = none := by
            unfold acquire
            rw [hf]
            rfl
          dsimp only [Py.setGrid]
          rw [this]
          exact ⟨_, rfl⟩
    obtain ⟨s'', hr⟩ := hr
    rw [hr] at e
    cases e
  · cases h
  · obtain ⟨s2, l2, e2, h2, m2, -⟩ := runPy_good after h1
    refine ⟨s2, ?_, h2.leaked (g := g) ?_⟩
    · unfold runPy
      rw [show (PyCall.create g f true false).run s0 = .raised s' from e]
      exact e2
    · have := m2 g
      rw [upd_same] at this
      omega

/-- A failed creation, then a good one on the same grid, deleted: the grid is still there. -/
example : ∃ s, runPy Py.start [.create 0 0 true false, .create 0 1 true true, .delete 0] = some s ∧
    s.spaces.isEmpty ∧ s.heap.live 0 = some .grid := ⟨_, rfl, rfl, rfl⟩

/-- A program with options objects runs. -/
def runProg (s : PyOptState) (calls : List ProgCall) : PyOptState := calls.foldl (fun s c => (c.run s).1) s

/-- A program uses only objects it has made; `n` objects exist at the start. -/
def UsesExisting : Nat → List ProgCall → Prop
  | _, [] => True
  | n, .new :: l => UsesExisting (n + 1) l
  | n, .call i _ :: l => i < n ∧ UsesExisting n l

/-- An assembler is created with the object `i`. -/
def CreatesAssembler (i : Nat) (calls : List ProgCall) : Prop := ProgCall.call i .createAssembler ∈ calls

/-- The setter calls on the object `i` before an assembler is created with it. -/
def settersOn (i : Nat) : List ProgCall → List OptionCall
  | [] => []
  | .new :: l => settersOn i l
  | .call j c :: l =>
    if j = i then
      match c with
      | .setRegular t n => .regular t n :: settersOn i l
      | .setSingular t0 t1 n => .singular (t0, t1) n :: settersOn i l
      | .setBatch n => .batch n :: settersOn i l
      | .createAssembler => []
    else settersOn i l

theorem settersOn_call_ne {i j : Nat} (c : OptCall) (calls : List ProgCall) (h : i ≠ j) :
    settersOn i (.call j c :: calls) = settersOn i calls := by
  cases c <;> simp only [settersOn] <;> rw [if_neg (fun e => h e.symm)]

theorem andModify_unknown {K V : Type} [DecidableEq K] (m : Map K V) (k : K) (v : V) (h : m.get? k = none) :
    m.andModify k v = m := by
  unfold Map.andModify
  conv_rhs => rw [← List.map_id m]
  apply List.map_congr_left
  intro e he
  unfold Map.get? at h
  rw [List.lookup_eq_none_iff] at h
  have := h e he
  rw [if_neg]
  · rfl
  · intro hk
    simp [hk] at this

theorem setRegular_unknown (o : Options) (t : CellType) (n : Nat) (h : o.getRegularQuadratureDegree t = none) :
    o.setRegularQuadratureDegree t n = o := by
  unfold Options.setRegularQuadratureDegree
  rw [andModify_unknown _ _ _ h]

theorem setSingular_unknown (o : Options) (t : CellType × CellType) (n : Nat)
    (h : o.getSingularQuadratureDegree t = none) : o.setSingularQuadratureDegree t n = o := by
  unfold Options.setSingularQuadratureDegree
  rw [andModify_unknown _ _ _ h]

/-- A program that goes on after another. -/
theorem usesExisting_append (calls later : List ProgCall) : ∀ (s : PyOptState),
    UsesExisting s.objects.length (calls ++ later) →
    UsesExisting s.objects.length calls ∧ UsesExisting (runProg s calls).objects.length later := by
  induction calls with
  | nil => exact fun s h => ⟨trivial, h⟩
  | cons c calls ih =>
    intro s h
    cases c with
    | new =>
      have := ih ((ProgCall.new).run s).1 (by simpa [ProgCall.run, UsesExisting] using h)
      exact ⟨by simpa [ProgCall.run, UsesExisting] using this.1, this.2⟩
    | call j c =>
      have hl : ((ProgCall.call j c).run s).1.objects.length = s.objects.length := by
        simp only [ProgCall.run]
        split <;> simp
      have := ih ((ProgCall.call j c).run s).1 (by rw [hl]; exact h.2)
      rw [hl] at this
      exact ⟨⟨h.1, this.1⟩, this.2⟩

theorem options_run_same (o : PyOptions) (c : OptCall) (h : o.readOnly = true) : (c.run o).1 = o := by
  cases c <;> simp [OptCall.run, h]
  cases o
  simp_all

/-- The objects of a program: how each is used from some point on. -/
theorem runProg_spec (calls : List ProgCall) : ∀ (s : PyOptState), UsesExisting s.objects.length calls →
    (∀ i o, s.objects[i]? = some o → ∃ o', (runProg s calls).objects[i]? = some o' ∧
      (o'.readOnly = true ↔ o.readOnly = true ∨ CreatesAssembler i calls) ∧
      o'.rs = if o.readOnly then o.rs else (settersOn i calls).foldl OptionCall.run o.rs) ∧
    (∀ i o', s.objects[i]? = none → (runProg s calls).objects[i]? = some o' →
      (o'.readOnly = true ↔ CreatesAssembler i calls) ∧
      o'.rs = (settersOn i calls).foldl OptionCall.run Options.default) := by
  induction calls with
  | nil =>
    intro s _
    refine ⟨fun i o h => ⟨o, h, by simp [CreatesAssembler], by simp [settersOn]⟩, ?_⟩
    intro i o' h h'
    rw [show runProg s [] = s from rfl, h] at h'
    cases h'
  | cons c calls ih =>
    intro s hu
    have hrun : runProg s (c :: calls) = runProg (c.run s).1 calls := rfl
    rw [hrun]
    cases c with
    | new =>
      have hlen : UsesExisting ((ProgCall.new).run s).1.objects.length calls := by
        simpa [ProgCall.run, UsesExisting] using hu
      obtain ⟨h1, h2⟩ := ih _ hlen
      have mem : ∀ i, CreatesAssembler i (.new :: calls) ↔ CreatesAssembler i calls := by
        intro i; simp [CreatesAssembler]
      refine ⟨fun i o ho => ?_, fun i o' hn ho' => ?_⟩
      · have : ((ProgCall.new).run s).1.objects[i]? = some o := by
          simp only [ProgCall.run]
          rw [List.getElem?_append_left (List.getElem?_eq_some_iff.mp ho).1]
          exact ho
        obtain ⟨o', a, b, d⟩ := h1 i o this
        exact ⟨o', a, by rw [mem]; exact b, d⟩
      · rw [mem]
        have hle : s.objects.length ≤ i := List.getElem?_eq_none_iff.mp hn
        by_cases hi : i = s.objects.length
        · have : ((ProgCall.new).run s).1.objects[i]? = some PyOptions.new := by
            simp [ProgCall.run, hi]
          obtain ⟨o'', a, b, d⟩ := h1 i _ this
          rw [a] at ho'
          cases ho'
          refine ⟨by simpa [PyOptions.new] using b, by simpa [PyOptions.new, settersOn] using d⟩
        · have : ((ProgCall.new).run s).1.objects[i]? = none := by
            simp only [ProgCall.run]
            rw [List.getElem?_eq_none_iff]
            simp only [List.length_append, List.length_cons, List.length_nil]
            omega
          exact h2 i o' this ho'
    | call j c =>
      obtain ⟨hj, hu⟩ := hu
      obtain ⟨oj, hoj⟩ : ∃ o, s.objects[j]? = some o := ⟨_, List.getElem?_eq_getElem hj⟩
      have hs : ((ProgCall.call j c).run s).1 = ⟨s.objects.set j (c.run oj).1⟩ := by
        simp only [ProgCall.run, hoj]
      rw [hs]
      obtain ⟨h1, h2⟩ := ih ⟨s.objects.set j (c.run oj).1⟩ (by simpa using hu)
      have mem : ∀ i, i ≠ j → (CreatesAssembler i (.call j c :: calls) ↔ CreatesAssembler i calls) := by
        intro i hi; simp [CreatesAssembler, hi]
      refine ⟨fun i o ho => ?_, fun i o' hn ho' => ?_⟩
      · by_cases hi : i = j
        · subst hi
          obtain rfl : oj = o := Option.some.inj (hoj.symm.trans ho)
          have : (s.objects.set i (c.run oj).1)[i]? = some (c.run oj).1 := by
            simp [hj]
          obtain ⟨o', a, b, d⟩ := h1 i _ this
          refine ⟨o', a, ?_⟩
          by_cases hro : oj.readOnly = true
          · rw [options_run_same oj c hro] at b d
            rw [if_pos hro] at d ⊢
            refine ⟨?_, d⟩
            rw [b]
            simp [hro]
          · rw [if_neg hro]
            cases c with
            | setRegular t n =>
              have e : ((OptCall.setRegular t n).run oj).1 = { oj with rs := oj.rs.setRegularQuadratureDegree t n } := by
                simp only [OptCall.run, if_neg hro]
                split
                · rename_i hk
                  rw [Option.isNone_iff_eq_none] at hk
                  have : oj.rs.setRegularQuadratureDegree t n = oj.rs := setRegular_unknown _ _ _ hk
                  rw [this]
                · rfl
              rw [e] at b d
              dsimp only at b d
              rw [if_neg hro] at d
              exact ⟨by rw [b]; simp [CreatesAssembler], by rw [d]; simp [settersOn, OptionCall.run]⟩
            | setSingular t0 t1 n =>
              have e : ((OptCall.setSingular t0 t1 n).run oj).1 =
                  { oj with rs := oj.rs.setSingularQuadratureDegree (t0, t1) n } := by
                simp only [OptCall.run, if_neg hro]
                split
                · rename_i hk
                  rw [Option.isNone_iff_eq_none] at hk
                  have : oj.rs.setSingularQuadratureDegree (t0, t1) n = oj.rs := setSingular_unknown _ _ _ hk
                  rw [this]
                · rfl
              rw [e] at b d
              dsimp only at b d
              rw [if_neg hro] at d
              exact ⟨by rw [b]; simp [CreatesAssembler], by rw [d]; simp [settersOn, OptionCall.run]⟩
            | setBatch n =>
              have e : ((OptCall.setBatch n).run oj).1 = { oj with rs := oj.rs.setBatchSize n } := by
                simp only [OptCall.run, if_neg hro]
              rw [e] at b d
              dsimp only at b d
              rw [if_neg hro] at d
              exact ⟨by rw [b]; simp [CreatesAssembler], by rw [d]; simp [settersOn, OptionCall.run]⟩
            | createAssembler =>
              simp only [OptCall.run] at b d
              exact ⟨by rw [b]; simp [CreatesAssembler], by rw [d]; simp [settersOn]⟩
        · have : (s.objects.set j (c.run oj).1)[i]? = some o := by
            rw [List.getElem?_set_ne (fun h => hi h.symm)]
            exact ho
          obtain ⟨o', a, b, d⟩ := h1 i o this
          refine ⟨o', a, by rw [mem i hi]; exact b, ?_⟩
          rw [d, settersOn_call_ne c calls hi]
      · have hi : i ≠ j := by
          rintro rfl
          rw [hoj] at hn
          cases hn
        have : (s.objects.set j (c.run oj).1)[i]? = none := by
          rw [List.getElem?_set_ne (fun h => hi h.symm)]
          exact hn
        obtain ⟨b, d⟩ := h2 i o' this ho'
        refine ⟨by rw [mem i hi]; exact b, ?_⟩
        rw [d, settersOn_call_ne c calls hi]

/-- After any program, object `i` has the options set by its setter calls before the first assembler. -/
theorem runProg_options (calls : List ProgCall) (hu : UsesExisting 1 calls) (i : Nat) (o : PyOptions)
    (ho : (runProg PyOptState.start calls).objects[i]? = some o) :
    (o.readOnly = true ↔ CreatesAssembler i calls) ∧ o.rs = Options.after (settersOn i calls) := by
  obtain ⟨h1, h2⟩ := runProg_spec calls PyOptState.start hu
  cases hi : PyOptState.start.objects[i]? with
  | none => exact h2 i o hi ho
  | some o0 =>
    have : o0 = PyOptions.new := by
      cases i with
      | zero => exact (Option.some.inj hi).symm
      | succ i => simp [PyOptState.start] at hi
    subst this
    obtain ⟨o', a, b, d⟩ := h1 i _ hi
    rw [a] at ho
    cases ho
    refine ⟨by simpa [PyOptions.new] using b, by simpa [PyOptions.new, Options.after] using d⟩

/-- **C38.** After any program that uses only existing objects and creates an assembler with object `i`, no
further program changes any value that object `i` (which the assembler reads) reports. -/
theorem C38_frozen (calls later : List ProgCall) (i : Nat) (hu : UsesExisting 1 (calls ++ later))
    (hc : CreatesAssembler i calls) (o : PyOptions)
    (ho : (runProg PyOptState.start calls).objects[i]? = some o) :
    ∃ o', (runProg PyOptState.start (calls ++ later)).objects[i]? = some o' ∧
      (∀ t, o'.rs.getRegularQuadratureDegree t = o.rs.getRegularQuadratureDegree t) ∧
      (∀ t, o'.rs.getSingularQuadratureDegree t = o.rs.getSingularQuadratureDegree t) ∧
      o'.rs.getBatchSize = o.rs.getBatchSize := by
  obtain ⟨hl, hr⟩ := usesExisting_append calls later PyOptState.start hu
  obtain ⟨hro, -⟩ := runProg_options calls hl i o ho
  obtain ⟨h1, -⟩ := runProg_spec later (runProg PyOptState.start calls) hr
  obtain ⟨o', a, b, d⟩ := h1 i o ho
  rw [if_pos (hro.mpr hc)] at d
  refine ⟨o', ?_, ?_, ?_, ?_⟩
  · unfold runProg at a ⊢
    rw [List.foldl_append]
    exact a
  · intro t; rw [d]
  · intro t; rw [d]
  · rw [d]

/-- **C44.** After any program, every options object reports what the setter calls made on it before the first
assembler was created with it ask for (the other setter calls, and those on other objects, have no effect):
the last value set for a supported key, the defaults if there is none. A setter succeeds if and only if no assembler
was created with the object and the key is supported. -/
theorem C44_python_options (calls : List ProgCall) (hu : UsesExisting 1 calls) (i : Nat) (o : PyOptions)
    (ho : (runProg PyOptState.start calls).objects[i]? = some o) :
    (∀ t, o.rs.getRegularQuadratureDegree t =
      if t.Supported then some ((lastRegular t (settersOn i calls)).getD 37) else none) ∧
    (∀ t, o.rs.getSingularQuadratureDegree t =
      if t.1.Supported ∧ t.2.Supported then some ((lastSingular t (settersOn i calls)).getD 4) else none) ∧
    o.rs.getBatchSize = (lastBatch (settersOn i calls)).getD 128 ∧
    (∀ t n, ((ProgCall.call i (.setRegular t n)).run (runProg PyOptState.start calls)).2 = true ↔
      ¬CreatesAssembler i calls ∧ t.Supported) ∧
    (∀ t0 t1 n, ((ProgCall.call i (.setSingular t0 t1 n)).run (runProg PyOptState.start calls)).2 = true ↔
      ¬CreatesAssembler i calls ∧ t0.Supported ∧ t1.Supported) ∧
    (∀ n, ((ProgCall.call i (.setBatch n)).run (runProg PyOptState.start calls)).2 = true ↔
      ¬CreatesAssembler i calls) := by
  obtain ⟨hro, hrs⟩ := runProg_options calls hu i o ho
  obtain ⟨c1, c2, c3⟩ := C23_options_map (settersOn i calls)
  rw [← hrs] at c1 c2 c3
  refine ⟨c1, c2, c3, ?_, ?_, ?_⟩
  · intro t n
    simp only [ProgCall.run, ho, OptCall.run, c1]
    by_cases h : o.readOnly = true
    · simp [h, hro.mp h]
    · have := mt hro.mpr h
      by_cases ht : t.Supported <;> simp [h, this, ht]
  · intro t0 t1 n
    simp only [ProgCall.run, ho, OptCall.run, c2]
    by_cases h : o.readOnly = true
    · simp [h, hro.mp h]
    · have := mt hro.mpr h
      by_cases ht : t0.Supported ∧ t1.Supported <;> simp [h, this, ht]
  · intro n
    simp only [ProgCall.run, ho, OptCall.run]
    by_cases h : o.readOnly = true
    · simp [h, hro.mp h]
    · have := mt hro.mpr h
      simp [h, this]

/-- Two objects; the second is used by an assembler between two changes. -/
def exampleProg : List ProgCall :=
  [.new, .call 1 (.setBatch 7), .call 1 .createAssembler, .call 1 (.setBatch 9), .call 0 (.setRegular .triangle 12)]

example : UsesExisting 1 exampleProg ∧ CreatesAssembler 1 exampleProg ∧
    ∃ o, (runProg PyOptState.start exampleProg).objects[1]? = some o ∧ o.rs.getBatchSize = 7 :=
  ⟨by simp [exampleProg, UsesExisting], by simp [exampleProg, CreatesAssembler], _, rfl, rfl⟩

end Bempp
