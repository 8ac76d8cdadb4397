import Verif.Props.Operators
import Verif.Props.Mixed
import Verif.Proofs.Memory
/-
C67: no access outside of the arrays and no data race, in completed and in panicking tasks.
-/
set_option linter.unusedSectionVars false

namespace Bempp
open Examples

variable {R T : Type}

section
variable [Zero R] [Mul R] [Neg R] [Zero T] [Add T] [Sub T] [Mul T] [Div T] [Neg T]
  {env : Env R T} {asm : Assembler R T} {trial test : Space R T} {famT famR : CellType → ElementDofs}

theorem IsOperator.reads {cast : R → T} (h : IsOperator cast asm) : asm.Reads cast := (C24_reads_in_bounds cast asm h).2

/-- **C67.** The tasks of the regular part of dense assembly. Whatever values the external functions return and whenever
they panic: if the tables are large enough (which is so if all cells have one type, `tablesFit_one_type`), no task reads
outside of an array; what a task has written when it completes or panics is inside the matrix, and no two tasks of a
parallel section write to the same position. -/
theorem C67_regular_part (h : IsOperator env.cast asm) (hker : asm.kernel.kernel.Sized) (henv : env.Sized)
    (hgt : test.Sized) (hgr : trial.Sized) (ht : SerialSpace test.fs famT) (hr : SerialSpace trial.fs famR)
    (hfit : TablesFit test.fs trial.fs) {rs : List (Res (List (AddOp T)) (List (AddOp T)))}
    (hs : DenseSection env asm trial test rs) :
    (∀ r ∈ rs, r ≠ .ub ∧ ∀ x ∈ r.writes, x.addr < test.fs.globalSize * trial.fs.globalSize) ∧
    ∀ (k l : Nat) (a b : Res (List (AddOp T)) (List (AddOp T))), k ≠ l → rs[k]? = some a → rs[l]? = some b →
      ∀ x ∈ a.writes, ∀ y ∈ b.writes, x.addr ≠ y.addr := by
  obtain ⟨testCol, trialCol, htc, hrc, tt, htt, rt, hrt, tcs, rcs, q, e1, e2, hq, testC, hT, trialC, hR, tasks, hsp, rfl⟩ :=
    hs
  obtain ⟨c1, m1⟩ := ht.colourClass htc e1 hT
  obtain ⟨c2, m2⟩ := hr.colourClass hrc e2 hR
  obtain ⟨-, -, -, -, -, -, tel, rel, f1, f2, s1, s2⟩ := regRule_sized hq henv hgt hgr
  let L : List Nat × List Nat → List Nat := fun t => t.2.flatMap fun rc => t.1.flatMap fun tc =>
    addrs test.fs.globalSize (test.fs.dofs tc) (trial.fs.dofs rc)
  have hp : (tasks.flatMap L).Perm (testC.flatMap fun tc => trialC.flatMap fun rc =>
      addrs test.fs.globalSize (test.fs.dofs tc) (trial.fs.dofs rc)) := by
    have := hsp.perm fun tc rc => addrs test.fs.globalSize (test.fs.dofs tc) (trial.fs.dofs rc)
    rwa [List.drop_zero] at this
  have hn := hp.nodup_iff.mpr (colour_addrs_nodup c1 c2)
  rw [List.nodup_flatMap] at hn
  have safe : ∀ t ∈ tasks,
      batchNonadjacentR env asm (test.fs.globalSize, trial.fs.globalSize) tt rt trial t.2 test t.1 q ≠ .ub ∧
      ((batchNonadjacentR env asm (test.fs.globalSize, trial.fs.globalSize) tt rt trial t.2 test t.1 q).writes.map
        AddOp.addr).Sublist (L t) := by
    intro t htk
    refine batchNonadjacent_safe h.reads hker hgt hgr s1 s2 (fun a b ha hb => ?_) (fun c hc => ?_) fun c hc => ?_
    · exact hfit tt htt rt hrt tel a rel b f1 ha f2 hb
    · obtain ⟨e, he, rfl, -⟩ := m1 c ((hsp.mem t htk).1 c hc)
      obtain ⟨cd, hcd, -⟩ := ht.spaceOn.cell he
      exact ⟨cd, hcd⟩
    · obtain ⟨e, he, rfl, -⟩ := m2 c ((hsp.mem t htk).2 c hc)
      obtain ⟨cd, hcd, -⟩ := hr.spaceOn.cell he
      exact ⟨cd, hcd⟩
  refine ⟨?_, ?_⟩
  · intro r hr'
    obtain ⟨t, htk, rfl⟩ := List.mem_map.mp hr'
    refine ⟨(safe t htk).1, fun x hx => ?_⟩
    have : x.addr ∈ tasks.flatMap L :=
      List.mem_flatMap.mpr ⟨t, htk, (safe t htk).2.subset (List.mem_map_of_mem hx)⟩
    exact colour_addrs_lt c1 c2 _ (hp.mem_iff.mp this)
  · have hpw := List.pairwise_iff_getElem.mp hn.2
    have key : ∀ (k l : Nat) (a b : Res (List (AddOp T)) (List (AddOp T))), k < l →
        (tasks.map fun t => batchNonadjacentR env asm (test.fs.globalSize, trial.fs.globalSize) tt rt trial t.2 test
          t.1 q)[k]? = some a →
        (tasks.map fun t => batchNonadjacentR env asm (test.fs.globalSize, trial.fs.globalSize) tt rt trial t.2 test
          t.1 q)[l]? = some b → ∀ x ∈ a.writes, ∀ y ∈ b.writes, x.addr ≠ y.addr := by
      intro k l a b hkl ha hb x hx y hy e
      rw [List.getElem?_map, Option.map_eq_some_iff] at ha hb
      obtain ⟨ta, ha, rfl⟩ := ha
      obtain ⟨tb, hb, rfl⟩ := hb
      obtain ⟨hk, rfl⟩ := List.getElem?_eq_some_iff.mp ha
      obtain ⟨hl, rfl⟩ := List.getElem?_eq_some_iff.mp hb
      exact hpw k l hk hl hkl ((safe _ (List.getElem_mem hk)).2.subset (List.mem_map_of_mem hx))
        (e ▸ (safe _ (List.getElem_mem hl)).2.subset (List.mem_map_of_mem hy))
    intro k l a b hkl ha hb x hx y hy
    rcases Nat.lt_or_gt_of_ne hkl with h | h
    · exact key k l a b h ha hb x hx y hy
    · exact fun e => key l k b a h hb ha y hy x hx e.symm

/-- If all cells of both grids have one type, the tables are large enough. -/
theorem tablesFit_one_type {t : CellType} (h1 : test.fs.grid.entityTypes 2 = [t])
    (h2 : trial.fs.grid.entityTypes 2 = [t]) : TablesFit test.fs trial.fs := by
  intro tt htt rt hrt a b c d ha hb hc hd
  rw [h1, List.mem_singleton] at htt
  rw [h2, List.mem_singleton] at hrt
  subst htt hrt
  rw [ha] at hb
  rw [hc] at hd
  cases hb
  cases hd
  exact ⟨Nat.le_refl _, Nat.le_refl _⟩

/-- **C67.** The tasks of the singular part, on grids with any cell types that may be distributed: no task reads outside
of an array. -/
theorem C67_singular_part (h : IsOperator env.cast asm) (hker : asm.kernel.kernel.Sized) (hgt : test.Sized)
    (hgr : trial.Sized) (ht : SpaceOn test.fs famT) (hr : SpaceOn trial.fs famR)
    (hg : test.fs.grid.addr = trial.fs.grid.addr → trial.fs.grid = test.fs.grid) (hv : test.fs.grid.Vertices)
    {shape : Nat × Nat} {r : Res Unit (Sparse T)} (hs : SingularTask env asm shape trial test r) : r ≠ .ub := by
  obtain ⟨he, tb, blocks, htb, hbl, b, hb, rfl⟩ := hs
  have hgrid : trial.fs.grid = test.fs.grid := hg (by simpa [equalGrids] using he)
  unfold MakeCellBlocks at hbl
  cases hcp : cellPairs (fun tt rt pairs => tb.pairIndices.get? (tt, rt, pairs)) tb.pairIndices.length test.fs.grid with
  | none => rw [hcp] at hbl; cases hbl
  | some cp =>
    rw [hcp] at hbl
    obtain ⟨bl, hsp, hbl⟩ := hbl
    cases hbl
    obtain ⟨⟨y, i⟩, hy, -, hsub⟩ := hsp.mem b hb
    have hy' : y ∈ cp := List.fst_mem_of_mem_zipIdx hy
    cases hrule : tb.rules[b.1]? with
    | none => intro e; cases e
    | some rule =>
      obtain ⟨tel, rel, e1, e2, s1, s2⟩ := singTables_sized hgt hgr htb rule (List.mem_of_getElem? hrule)
      refine batchSingular_safe h.reads hker hgt s1 s2 (fun el hel => ?_) (fun el hel => ?_) fun p hp => ?_
      · rw [e1] at hel; cases hel; exact Nat.le_refl _
      · rw [e2] at hel; cases hel; exact Nat.le_refl _
      · obtain ⟨⟨c, hc, h1⟩, c', hc', h2⟩ := cellPairs_cells hv hcp y hy' p (hsub p hp)
        obtain ⟨cd, hcd, -⟩ := ht.cell hc
        obtain ⟨cd', hcd', -⟩ := hr.cell (c := c') (by rw [hgrid]; exact hc')
        rw [h1] at hcd
        rw [h2] at hcd'
        exact ⟨⟨cd, hcd⟩, cd', hcd'⟩

/-- **C67, the other grids.** Let both grids have the same cell types, and let the test element have more basis functions
on the type of a trial cell `c'` than on the type of a test cell `c`, where `c` and `c'` are not touching cells of one
grid. If no external function panics, then no task of any parallel section panics, and there is a section with a task
that reads outside of an array. -/
theorem C67_out_of_bounds (h : IsOperator env.cast asm) (hf : asm.integrand.Reads) (hker : asm.kernel.kernel.Sized)
    (hk : asm.kernel.kernel.Works asm.kernel.evalType) (henv : env.Sized)
    (hgt : test.Sized) (hgr : trial.Sized) (hmt : test.MapsWork) (hmr : trial.MapsWork)
    (ht : SerialSpace test.fs famT) (hr : SerialSpace trial.fs famR) (st : Surface test.fs.grid)
    (sr : Surface trial.fs.grid) (hty : ∀ t, t ∈ test.fs.grid.entityTypes 2 ↔ t ∈ trial.fs.grid.entityTypes 2)
    (hg : test.fs.grid.addr = trial.fs.grid.addr → trial.fs.grid = test.fs.grid)
    (hq : ∀ tt ∈ test.fs.grid.entityTypes 2, ∀ rt ∈ trial.fs.grid.entityTypes 2,
      ∃ q, regRule env asm trial test tt rt = some q ∧ q.testWeights ≠ [] ∧ q.trialWeights ≠ [])
    (hb : 0 < asm.options.batchSize) {c c' : Entity} (hc : c ∈ test.fs.grid.entityIter 2)
    (hc' : c' ∈ trial.fs.grid.entityIter 2) (hn : ¬ (test.fs.grid.addr = trial.fs.grid.addr ∧ c.Touches c'))
    (hd : (famT c.entityType).dim < (famT c'.entityType).dim) (hd' : 0 < (famR c.entityType).dim) :
    (∀ rs, DenseSection env asm trial test rs → ∀ r ∈ rs, ∀ w, r ≠ .panic w) ∧
    ∃ rs, DenseSection env asm trial test rs ∧ .ub ∈ rs := by
  have quiet : ∀ rs, DenseSection env asm trial test rs → ∀ r ∈ rs, ∀ w, r ≠ .panic w := by
    rintro rs ⟨testCol, trialCol, htc, hrc, tt, htt, rt, hrt, tcs, rcs, q, e1, e2, hq', testC, hT, trialC, hR, tasks,
      hsp, rfl⟩ r hr'
    obtain ⟨t, htk, rfl⟩ := List.mem_map.mp hr'
    obtain ⟨-, m1⟩ := ht.colourClass htc e1 hT
    obtain ⟨-, m2⟩ := hr.colourClass hrc e2 hR
    obtain ⟨-, -, p1, p2, p3, p4, tel, rel, f1, f2, s1, s2⟩ := regRule_sized hq' henv hgt hgr
    have hct : ∀ i ∈ t.1, ∃ c ∈ test.fs.grid.entityIter 2, c.localIndex = i := fun i hi => by
      obtain ⟨c, hc, e, -⟩ := m1 i ((hsp.mem t htk).1 i hi)
      exact ⟨c, hc, e⟩
    have hcr : ∀ i ∈ t.2, ∃ c ∈ trial.fs.grid.entityIter 2, c.localIndex = i := fun i hi => by
      obtain ⟨c, hc, e, -⟩ := m2 i ((hsp.mem t htk).2 i hi)
      exact ⟨c, hc, e⟩
    refine batchNonadjacent_quiet hker hk (C24_reads_in_bounds env.cast asm h).1 hgt hgr hmt hmr st sr
      ((hty rt).mpr hrt) ((hty tt).mp htt) ⟨_, ht.element rt ((hty rt).mpr hrt)⟩ ⟨_, hr.element tt ((hty tt).mp htt)⟩
      p1 p2 p3 p4 s1 s2 hct hcr ?_
    intro i hi j hj
    obtain ⟨d, hd, rfl⟩ := hct i hi
    obtain ⟨d', hd', rfl⟩ := hcr j hj
    exact ⟨_, neighbours_cells hr.wf hg hd hd'⟩
  refine ⟨quiet, ?_⟩
  obtain ⟨tcol, e1, e2, e3⟩ := ht.colouring
  obtain ⟨rcol, e4, e5, e6⟩ := hr.colouring
  have tt : c.entityType ∈ test.fs.grid.entityTypes 2 := ht.wf.types c hc
  have rt : c'.entityType ∈ trial.fs.grid.entityTypes 2 := hr.wf.types c' hc'
  obtain ⟨tcs, htcs⟩ := Option.isSome_iff_exists.mp ((e2 _).mpr tt)
  obtain ⟨rcs, hrcs⟩ := Option.isSome_iff_exists.mp ((e5 _).mpr rt)
  obtain ⟨q, hq1, hw, hw'⟩ := hq _ tt _ rt
  have m1 : c.localIndex ∈ tcs.flatten := by
    rw [(e3 _ _ htcs).mem_iff]
    exact List.mem_map.mpr ⟨c, List.mem_filter.mpr ⟨hc, by simp⟩, rfl⟩
  have m2 : c'.localIndex ∈ rcs.flatten := by
    rw [(e6 _ _ hrcs).mem_iff]
    exact List.mem_map.mpr ⟨c', List.mem_filter.mpr ⟨hc', by simp⟩, rfl⟩
  obtain ⟨tc, t1, t2⟩ := List.mem_flatten.mp m1
  obtain ⟨rc, r1, r2⟩ := List.mem_flatten.mp m2
  obtain ⟨tasks, hsp⟩ := SplitPairs.exists hb tc rc 0
  have hsec : DenseSection env asm trial test (tasks.map fun t => batchNonadjacentR env asm
      (test.fs.globalSize, trial.fs.globalSize) c.entityType c'.entityType trial t.2 test t.1 q) :=
    ⟨tcol, rcol, e1, e4, _, tt, _, rt, tcs, rcs, q, htcs, hrcs, hq1, tc, t1, rc, r1, tasks, hsp, rfl⟩
  refine ⟨_, hsec, ?_⟩
  have := hsp.perm fun a b => [(a, b)]
  rw [List.drop_zero] at this
  have hm : (c.localIndex, c'.localIndex) ∈
      tc.flatMap fun a => rc.flatMap fun b => [(a, b)] := by
    simp only [List.mem_flatMap, List.mem_singleton]
    exact ⟨_, t2, _, r2, rfl⟩
  rw [← this.mem_iff] at hm
  simp only [List.mem_flatMap, List.mem_singleton, Prod.mk.injEq] at hm
  obtain ⟨t, ht', a, ha, b, hb', rfl, rfl⟩ := hm
  refine List.mem_map.mpr ⟨t, ht', ?_⟩
  obtain ⟨-, -, -, -, -, -, tel, rel, f1, f2, s1, s2⟩ := regRule_sized hq1 henv hgt hgr
  have f3 := ht.element _ tt
  rw [f1] at f3
  cases f3
  have hnone := batch_small_table (env := env) (asm := asm) (shape := (test.fs.globalSize, trial.fs.globalSize))
    (trial := trial) (test := test) (q := q) (ht.element _ ((hty _).mpr rt)) (hr.element _ ((hty _).mp tt)) hf hw hw'
    (by omega) hd' hb' ha (by rw [neighbours_cells hr.wf hg hc hc']; simp [hn])
    (Or.inl ⟨_, hd, fun x hx => Nat.le_of_eq (s1.2 x hx).1⟩)
  rw [← batchNonadjacentR_toOption] at hnone
  have hnp := quiet _ hsec _ (List.mem_map.mpr ⟨t, ht', rfl⟩)
  revert hnone hnp
  generalize batchNonadjacentR env asm (test.fs.globalSize, trial.fs.globalSize) c.entityType c'.entityType trial t.2
    test t.1 q = r
  intro hnone hnp
  cases r with
  | ok l => cases hnone
  | panic w => exact absurd rfl (hnp w)
  | ub => rfl

end

/-! ### Examples -/

namespace Examples

/-- Overwrite every entry of an array of any shape. -/
def fill2 {α β : Type} (f : Nat → Nat → β) (b : List (List α)) : List (List β) :=
  b.zipIdx.map fun (row : List α × Nat) => row.1.zipIdx.map fun (x : α × Nat) => f row.2 x.2

theorem fill2_shape {α β : Type} (f : Nat → Nat → β) {m n : Nat} {b : List (List α)} (h : Shape2 m n b) :
    Shape2 m n (fill2 f b) := by
  refine ⟨by simpa [fill2] using h.1, fun c hc => ?_⟩
  obtain ⟨x, hx, rfl⟩ := List.mem_map.mp hc
  simpa using h.2 _ (List.fst_mem_of_mem_zipIdx hx)

/-- A geometry map that fills arrays of any size. -/
def sizedMap (G : Geometry Rat) (pts : List (List Rat)) : GeoMap Rat :=
  { points := fun c b => some (fill2 (fun p i => G.point c (pts.getD p []) i) b)
    jacobiansDetsNormals := fun c bj bd bn =>
      some (fill2 (fun p i => G.jacobian c (pts.getD p []) i) bj,
        bd.zipIdx.map fun (x : Rat × Nat) => G.jdet c (pts.getD x.2 []),
        fill2 (fun p i => G.normal c (pts.getD p []) i) bn) }

/-- A kernel that fills arrays of any size. -/
def sizedKernel (G : MathKernel Rat Rat) : Kernel Rat Rat :=
  { assemblePairwiseSt := fun _ src tgt b => some (fill2 (fun p i => G (src.getD p []) (tgt.getD p []) i) b)
    assembleSt := fun _ src tgt b => some (b.zipIdx.map fun (x : List (List Rat) × Nat) =>
      fill2 (fun p i => G (src.getD p []) (tgt.getD x.2 []) i) x.1) }

/-- A function space with these maps and tables for any number of points. -/
def sizedSpace (fs : FunctionSpace) (fam : CellType → ElementDofs) (G : Geometry Rat) (B : Basis Rat Rat) :
    Space Rat Rat :=
  { fs
    tabulate := fun t d pts n => some [(List.range (fam t).dim).map fun a => (List.range n).map fun p =>
      (List.range (numDerivs d)).map fun i => B t a i (pts.getD p [])]
    geometryMap := fun _ pts => some (sizedMap G pts) }

/-- Rules with two points only. -/
def sizedEnv : Env Rat Rat :=
  { exEnv with simplexRule := fun t n => if n = 2 then exEnv.simplexRule t n else none }

theorem sizedMap_sized (G : Geometry Rat) (pts : List (List Rat)) : (sizedMap G pts).Sized where
  points := by
    intro c n b b' hb e
    cases e
    exact fill2_shape _ hb
  other := by
    intro c n bj bd bn x h1 h2 h3 e
    cases e
    dsimp only
    exact ⟨fill2_shape _ h1, by simpa using h2, fill2_shape _ h3⟩

theorem sizedKernel_sized (G : MathKernel Rat Rat) : (sizedKernel G).Sized where
  pairwise := by
    intro et s t m n b b' hb e
    cases e
    exact fill2_shape _ hb
  all := by
    intro et s t m n p b b' hb e
    cases e
    refine ⟨by simpa using hb.1, fun c hc => ?_⟩
    obtain ⟨x, hx, rfl⟩ := List.mem_map.mp hc
    exact fill2_shape _ (hb.2 _ (List.fst_mem_of_mem_zipIdx hx))

theorem sizedKernel_works (G : MathKernel Rat Rat) (et : EvalType) : (sizedKernel G).Works et :=
  fun _ _ _ _ _ _ _ _ => ⟨_, rfl⟩

theorem sizedSpace_sized {fs : FunctionSpace} {fam : CellType → ElementDofs} (h : SerialSpace fs fam)
    (G : Geometry Rat) (B : Basis Rat Rat) : (sizedSpace fs fam G B).Sized where
  geometry := by
    intro t pts ev e
    cases e
    exact sizedMap_sized G pts
  tabulate := by
    intro t el d pts n tab h1 e
    cases e
    have hel : el = fam t := by
      by_cases ht : t ∈ fs.grid.entityTypes 2
      · exact Option.some.inj (h1.symm.trans (h.element t ht))
      · exact absurd (h1.symm.trans (h.element_none ht)) (by simp)
    subst hel
    refine ⟨rfl, fun x hx => ?_⟩
    rw [List.mem_singleton] at hx
    subst hx
    refine ⟨by simp, fun y hy => ?_⟩
    obtain ⟨a, _, rfl⟩ := List.mem_map.mp hy
    refine ⟨by simp, fun z hz => ?_⟩
    obtain ⟨p, _, rfl⟩ := List.mem_map.mp hz
    simp

theorem sizedSpace_works (fs : FunctionSpace) (fam : CellType → ElementDofs) (G : Geometry Rat) (B : Basis Rat Rat) :
    (sizedSpace fs fam G B).MapsWork :=
  fun _ _ pts _ => ⟨sizedMap G pts, rfl, fun _ _ => ⟨fun _ _ => ⟨_, rfl⟩, fun _ _ _ _ _ _ => ⟨_, rfl⟩⟩⟩

theorem fill2_eq {α β : Type} (f : List Rat → Nat → β) {m : Nat} {pts : List (List Rat)} {b : List (List α)}
    (h : Shape2 m pts.length b) :
    fill2 (fun p i => f (pts.getD p []) i) b = pts.map fun x => (List.range m).map (f x) := by
  apply List.ext_getElem
  · simpa [fill2] using h.1
  · intro p h1 h2
    rw [List.length_map] at h2
    have hb : p < b.length := by rw [h.1]; exact h2
    simp only [fill2, List.getElem_map, List.getElem_zipIdx, Nat.zero_add]
    apply List.ext_getElem
    · simpa using h.2 _ (List.getElem_mem hb)
    · intro i h3 h4
      simp [h2]

theorem sizedSpace_geometry (fs : FunctionSpace) (fam : CellType → ElementDofs) (G : Geometry Rat) (B : Basis Rat Rat) :
    GeometryOk (sizedSpace fs fam G B) G := by
  intro t _ pts _
  refine ⟨sizedMap G pts, rfl, fun c _ _ => ⟨fun b hb => ?_, fun bj bd bn h1 h2 h3 => ?_⟩⟩
  · simp only [sizedMap, fill2_eq _ hb]
  · simp only [sizedMap, fill2_eq _ h1, fill2_eq _ h3]
    congr 3
    apply List.ext_getElem
    · simpa using h2
    · intro i h4 h5
      rw [List.length_map] at h5
      simp [h5]

theorem sizedSpace_tabulate (fs : FunctionSpace) (fam : CellType → ElementDofs) (G : Geometry Rat) (B : Basis Rat Rat) :
    TabulateOk (sizedSpace fs fam G B) fam B := by
  intro t _ d pts _
  simp only [sizedSpace, Basis.table]
  congr 3
  funext a
  apply List.ext_getElem
  · simp
  · intro i h4 h5
    rw [List.length_map] at h5
    simp [h5]

theorem sizedKernel_computes (G : MathKernel Rat Rat) (et : EvalType) : (sizedKernel G).Computes et G where
  pairwise := by
    intro n src tgt res h1 h2 h3
    simp only [sizedKernel, Option.some.injEq]
    apply List.ext_getElem
    · simp [fill2, h1.1, h2.1, h3.1]
    · intro p h4 h5
      have hp : p < n := by simpa [h1.1, h2.1] using h5
      have hb : p < res.length := by rw [h3.1]; exact hp
      simp only [fill2, List.getElem_map, List.getElem_zipIdx, Nat.zero_add, List.getElem_zipWith]
      apply List.ext_getElem
      · simpa using h3.2 _ (List.getElem_mem hb)
      · intro i h6 h7
        simp [h1.1, h2.1, hp]
  all := by
    intro m n src tgt res h1 h2 h3
    simp only [sizedKernel, Option.some.injEq]
    apply List.ext_getElem
    · simp [h2.1, h3.1]
    · intro p h4 h5
      have hp : p < n := by simpa [h2.1] using h5
      have hb : p < res.length := by rw [h3.1]; exact hp
      have hs : Shape2 et.comps src.length res[p] := by rw [h1.1]; exact h3.2 _ (List.getElem_mem hb)
      simp only [List.getElem_map, List.getElem_zipIdx, Nat.zero_add]
      rw [fill2_eq (fun x i => G x (tgt.getD p []) i) hs]
      simp [h2.1, hp]

theorem sizedEnv_sized : sizedEnv.Sized := by
  intro t n q h
  unfold sizedEnv at h
  dsimp only at h
  split at h
  · cases h
    subst n
    rfl
  · cases h

end Examples

/-- A pair of cells that the regular part visits on the octahedron: the section for their colours has a task, and it
neither reads nor writes outside of the arrays. -/
example : ∃ fs, fs.grid = octahedron ∧ ∃ rs, rs ≠ [] ∧
    DenseSection sizedEnv (Laplace.hypersingular (sizedKernel squareKernel) smallOptions)
      (sizedSpace fs p1 octGeometry p1Basis) (sizedSpace fs p1 octGeometry p1Basis) rs ∧
    ∀ r ∈ rs, r ≠ .ub := by
  obtain ⟨fs, h, hg⟩ := octSpace
  obtain ⟨col, e1, e2, e3⟩ := h.colouring
  obtain ⟨cols, hcols⟩ := Option.isSome_iff_exists.mp ((e2 .triangle).mpr (by rw [hg]; decide))
  have hne : cols.flatten ≠ [] := by
    intro h0
    have hp := e3 _ _ hcols
    rw [h0, hg] at hp
    exact absurd hp.nil_eq (by decide)
  obtain ⟨i, hi⟩ := List.exists_mem_of_ne_nil _ hne
  obtain ⟨l, hl, hil⟩ := List.mem_flatten.mp hi
  obtain ⟨tasks, hsp⟩ := SplitPairs.exists (b := smallOptions.batchSize) (by decide) l l 0
  have hq : ∃ q, regRule sizedEnv (Laplace.hypersingular (sizedKernel squareKernel) smallOptions)
      (sizedSpace fs p1 octGeometry p1Basis) (sizedSpace fs p1 octGeometry p1Basis) .triangle .triangle = some q := by
    have hel : fs.element .triangle = some (p1 .triangle) := h.element _ (by rw [hg]; decide)
    have hd : smallOptions.quadratureDegrees.get? .triangle = some 2 := by decide
    unfold regRule
    simp only [Laplace.hypersingular, hd, sizedSpace, hel, Option.bind_eq_bind, Option.bind_some]
    exact ⟨_, rfl⟩
  obtain ⟨q, hq⟩ := hq
  have hsec : DenseSection sizedEnv (Laplace.hypersingular (sizedKernel squareKernel) smallOptions)
      (sizedSpace fs p1 octGeometry p1Basis) (sizedSpace fs p1 octGeometry p1Basis) _ :=
    ⟨col, col, e1, e1, .triangle, by show _ ∈ fs.grid.entityTypes 2; rw [hg]; decide, .triangle,
      by show _ ∈ fs.grid.entityTypes 2; rw [hg]; decide, cols, cols, q, hcols, hcols, hq, l, hl, l, hl, tasks, hsp, rfl⟩
  have hty : fs.grid.entityTypes 2 = [.triangle] := by rw [hg]; rfl
  refine ⟨fs, hg, _, ?_, hsec, fun r hr => ((C67_regular_part (.laplaceHypersingular _ _) (sizedKernel_sized _)
    sizedEnv_sized (sizedSpace_sized h _ _) (sizedSpace_sized h _ _) h h (tablesFit_one_type hty hty) hsec).1 r hr).1⟩
  intro h0
  rw [List.map_eq_nil_iff] at h0
  subst h0
  have := hsp.perm fun a b => [(a, b)]
  rw [List.drop_zero] at this
  have hm : (i, i) ∈ l.flatMap fun a => l.flatMap fun b => [(a, b)] := by
    simp only [List.mem_flatMap, List.mem_singleton]
    exact ⟨_, hil, _, hil, rfl⟩
  rw [← this.mem_iff] at hm
  cases hm

/-- On the octahedron there is a task of the singular part, and it reads inside of the arrays. -/
example : ∃ fs, fs.grid = octahedron ∧ ∃ r,
    SingularTask sizedEnv (Laplace.singleLayer (sizedKernel squareKernel) smallOptions) (6, 6)
      (sizedSpace fs p1 octGeometry p1Basis) (sizedSpace fs p1 octGeometry p1Basis) r ∧ r ≠ .ub := by
  obtain ⟨fs, h, hg⟩ := octSpace
  have hset : SingularSetting sizedEnv (Laplace.singleLayer (sizedKernel squareKernel) smallOptions)
      (sizedSpace fs p1 octGeometry p1Basis) (sizedSpace fs p1 octGeometry p1Basis) p1 p1 slF squareKernel octGeometry
      p1Basis p1Basis smallRules :=
    { testSpace := h.spaceOn
      trialSpace := h.spaceOn
      sameGrid := rfl
      surface := by show Surface fs.grid; rw [hg]; exact ⟨rfl, rfl⟩
      vertices := by show fs.grid.Vertices; rw [hg]; exact octahedron_vertices
      conforming := by
        show ∃ ev, fs.grid.Edges ev ∧ fs.grid.Conforming ev
        rw [hg]; exact ⟨_, octahedron_edges, octahedron_conforming⟩
      geometry := sizedSpace_geometry _ _ _ _
      testBasis := sizedSpace_tabulate _ _ _ _
      trialBasis := sizedSpace_tabulate _ _ _ _
      operator := ⟨singleLayer_computes, sizedKernel_computes _ _, rfl⟩
      rules := by
        show ∀ tt ∈ fs.grid.entityTypes 2, ∀ rt ∈ fs.grid.entityTypes 2, _
        rw [hg]
        intro tt htt rt hrt
        obtain rfl : tt = .triangle := by revert htt; revert tt; decide
        obtain rfl : rt = .triangle := by revert hrt; revert rt; decide
        exact ⟨exEnv_singular.degree, exEnv_singular.points⟩ }
  have hv : fs.grid.Vertices := by rw [hg]; exact octahedron_vertices
  have ed : fs.grid.Edges octEdge := by rw [hg]; exact octahedron_edges
  have co : fs.grid.Conforming octEdge := by rw [hg]; exact octahedron_conforming
  have hn := hset.keys_nodup
  have hcp := cellPairs_eq h.wf hv ed co hn
    (f := fun k => Map.get? (allKeys fs.grid).zipIdx.reverse k) (lookup_keys hn)
    (fun k h1 h2 h3 => mem_allKeys.mpr ⟨h1, h2, h3⟩)
  obtain ⟨bl, hbl⟩ := SplitAll.exists (b := smallOptions.batchSize) (by decide)
    (buckets (allKeys fs.grid) (foundPairs fs.grid)).zipIdx
  have hne : bl ≠ [] := by
    rintro rfl
    have h1 := hbl.flatMap fun _ p => [p]
    have h2 : (buckets (allKeys octahedron) (foundPairs octahedron)).zipIdx.flatMap
        (fun y => y.1.flatMap fun p => [p]) ≠ [] := by decide +kernel
    rw [hg] at h1
    exact h2 h1.symm
  obtain ⟨b, hb⟩ := List.exists_mem_of_ne_nil _ hne
  have hr : ∃ r, SingularTask sizedEnv (Laplace.singleLayer (sizedKernel squareKernel) smallOptions) (6, 6)
      (sizedSpace fs p1 octGeometry p1Basis) (sizedSpace fs p1 octGeometry p1Basis) r := by
    refine ⟨_, by simp [equalGrids], _, bl, hset.tables, ?_, b, hb, rfl⟩
    unfold MakeCellBlocks
    rw [List.length_reverse, List.length_zipIdx]
    erw [hcp]
    exact ⟨bl, hbl, rfl⟩
  obtain ⟨r, hr⟩ := hr
  exact ⟨fs, hg, r, hr, C67_singular_part (.laplaceSingleLayer _ _) (sizedKernel_sized _) (sizedSpace_sized h _ _)
    (sizedSpace_sized h _ _) h.spaceOn h.spaceOn (fun _ => rfl) hv hr⟩

/-- Dense assembly on a grid with triangles and quadrilaterals does read outside of an array. -/
example : ∃ fs, fs.grid = strip ∧ ∃ rs,
    DenseSection sizedEnv (Laplace.singleLayer (sizedKernel squareKernel) bothOptions)
      (sizedSpace fs p1 octGeometry p1Basis) (sizedSpace fs p1 octGeometry p1Basis) rs ∧ .ub ∈ rs := by
  obtain ⟨fs, h, hg⟩ := stripSpace
  have hex : ∃ c ∈ fs.grid.entityIter 2, ∃ c' ∈ fs.grid.entityIter 2, c.entityType = .triangle ∧
      c'.entityType = .quadrilateral ∧ ∀ v ∈ c.sub 0, v ∉ c'.sub 0 := by
    rw [hg]; decide
  obtain ⟨c, hc, c', hc', e, e', hv⟩ := hex
  have hsurf : Surface fs.grid := by rw [hg]; exact ⟨rfl, rfl⟩
  refine ⟨fs, hg, (C67_out_of_bounds (c := c) (c' := c') (.laplaceSingleLayer _ _) reads_singleLayer
    (sizedKernel_sized _) (sizedKernel_works _ _) sizedEnv_sized (sizedSpace_sized h _ _) (sizedSpace_sized h _ _)
    (sizedSpace_works _ _ _ _) (sizedSpace_works _ _ _ _) h h hsurf hsurf (fun _ => Iff.rfl) (fun _ => rfl) ?_
    (by decide) hc hc' ?_ (by rw [e, e']; decide) (by rw [e]; decide)).2⟩
  · intro tt htt rt hrt
    have hdeg : ∀ t ∈ fs.grid.entityTypes 2, bothOptions.quadratureDegrees.get? t = some 2 := by rw [hg]; decide
    unfold regRule
    simp only [Laplace.singleLayer, hdeg tt htt, hdeg rt hrt, sizedSpace, h.element tt htt, h.element rt hrt,
      Option.bind_eq_bind, Option.bind_some]
    exact ⟨_, rfl, by simp [smallRules], by simp [smallRules]⟩
  · rintro ⟨-, v, h1, h2⟩
    exact hv v h1 h2

end Bempp
