import Verif.Props.Pairs
/-
C10, C14, C15, C17, C39: the assembled dense matrix.
-/
set_option linter.unusedSectionVars false

namespace Bempp
open Examples

variable {R T : Type}

/-- The assembler with another batch size (`set_batch_size` on its options). -/
def Assembler.withBatchSize (asm : Assembler R T) (b : Nat) : Assembler R T :=
  { asm with options := asm.options.setBatchSize b }

section
variable [Zero R] [Mul R] [Zero T] [Add T] [Mul T]
  {env : Env R T} {asm : Assembler R T} {trial test : Space R T}
  {famT famR : CellType → ElementDofs} {F : MathIntegrand T} {K : MathKernel R T} {GT GR G : Geometry R}
  {BT BR : Basis R T} {Q : Quadrature R} {t : CellType}

theorem SingularSetting.withBatchSize (h : SingularSetting env asm trial test famT famR F K G BT BR Q)
    (b : Nat) : SingularSetting env (asm.withBatchSize b) trial test famT famR F K G BT BR Q :=
  { h with
    operator := ⟨h.operator.integrand, h.operator.kernel, h.operator.comps⟩
    rules := fun tt htt rt hrt => ⟨(h.rules tt htt rt hrt).degree, (h.rules tt htt rt hrt).points⟩ }

theorem DenseSetting.withBatchSize (h : DenseSetting env asm trial test famT famR F K GT GR BT BR Q t)
    (b : Nat) : DenseSetting env (asm.withBatchSize b) trial test famT famR F K GT GR BT BR Q t :=
  { h with
    operator := ⟨h.operator.integrand, h.operator.kernel, h.operator.comps⟩
    rule := ⟨h.rule.degree, h.rule.rule, h.rule.points⟩
    same := fun e => ⟨(h.same e).1.withBatchSize b, (h.same e).2⟩ }

/-! ### C10 -/

/-- C10: for any two batch sizes of at least one, `assemble_into_memory` has the same outcome. Nothing is
assumed about addition and multiplication, so the results are also equal bit for bit in floating point
arithmetic. -/
theorem C10_batch_size (h : DenseSetting env asm trial test famT famR F K GT GR BT BR Q t) {b b' : Nat}
    (hb : 0 < b) (hb' : 0 < b') (mem : List T) (o : Outcome (List T)) :
    AssembleIntoMemory env (asm.withBatchSize b) trial test mem o ↔
    AssembleIntoMemory env (asm.withBatchSize b') trial test mem o := by
  by_cases hm : mem.length = test.fs.globalSize * trial.fs.globalSize
  · obtain ⟨tcs, rcs, _, _, ⟨c1, e1, f1⟩, ⟨d1, g1, i1⟩, h1⟩ := (h.withBatchSize b).assemble hb
    obtain ⟨tcs', rcs', _, _, ⟨c2, e2, f2⟩, ⟨d2, g2, i2⟩, h2⟩ := (h.withBatchSize b').assemble hb'
    rw [e1, Option.some.injEq] at e2
    rw [g1, Option.some.injEq] at g2
    subst e2 g2
    rw [f1, Option.some.injEq] at f2
    rw [i1, Option.some.injEq] at i2
    subst f2 i2
    rw [h1 mem hm, h2 mem hm]
  · unfold AssembleIntoMemory
    rw [if_pos hm, if_pos hm]

/-- C10 for `assemble`. -/
theorem C10_assemble (h : DenseSetting env asm trial test famT famR F K GT GR BT BR Q t) {b b' : Nat}
    (hb : 0 < b) (hb' : 0 < b') (out : Option (List T)) :
    Assemble env (asm.withBatchSize b) trial test out ↔ Assemble env (asm.withBatchSize b') trial test out := by
  unfold Assemble
  simp only [C10_batch_size h hb hb']

/-- C10 for the singular part, also on several processes: the list of triplets is the same. -/
theorem C10_singular (h : SingularSetting env asm trial test famT famR F K G BT BR Q) {b b' : Nat}
    (hb : 0 < b) (hb' : 0 < b') (out : Option (Sparse T)) :
    AssembleSingularPart env (asm.withBatchSize b) (test.fs.globalSize, trial.fs.globalSize) trial test
      out ↔
    AssembleSingularPart env (asm.withBatchSize b') (test.fs.globalSize, trial.fs.globalSize) trial test
      out := by
  rw [(h.withBatchSize b).part hb, (h.withBatchSize b').part hb']

/-! ### C17, sparse part -/

/-- C17: if the grids are different objects then the singular part is empty, and `assemble_singular`
returns the empty matrix of the right shape, whatever the external functions are. -/
theorem C17_no_singular_part (hg : test.fs.grid.addr ≠ trial.fs.grid.addr) :
    (∀ out, AssembleSingularPart env asm (test.fs.globalSize, trial.fs.globalSize) trial test out ↔
      out = some ⟨[], [], [], (test.fs.globalSize, trial.fs.globalSize)⟩) ∧
    ∀ out, AssembleSingular env asm trial test out ↔
      out = some ⟨(test.fs.globalSize, trial.fs.globalSize), [],
        List.replicate (test.fs.globalSize + 1) 0, []⟩ := by
  have h1 : ∀ out, AssembleSingularPart env asm (test.fs.globalSize, trial.fs.globalSize) trial test out ↔
      out = some ⟨[], [], [], (test.fs.globalSize, trial.fs.globalSize)⟩ := by
    intro out
    unfold AssembleSingularPart
    rw [if_pos (by simp [equalGrids, hg])]
    rfl
  refine ⟨h1, fun out => ?_⟩
  unfold AssembleSingular
  simp only [h1]
  simp

/-! ### C39 -/

/-- C39: a buffer of the wrong length is rejected and left unchanged, whatever the external functions
are. -/
theorem C39_wrong_length {mem : List T} (h : mem.length ≠ test.fs.globalSize * trial.fs.globalSize)
    (o : Outcome (List T)) : AssembleIntoMemory env asm trial test mem o ↔ o = .panicked mem := by
  unfold AssembleIntoMemory
  rw [if_pos h]

/-- C39: `is_serial` tells whether the space was made on one process. -/
theorem C39_is_serial {rank size : Nat} {g : Grid} {fam : CellType → ElementDofs} {sp : FunctionSpace}
    (h : (FunctionSpace.new rank size g fam).Yields sp) : sp.isSerial = true ↔ size = 1 := by
  obtain ⟨_, _, _, _, _, _, hs, _⟩ := new_local h
  simp [FunctionSpace.isSerial, hs]

/-- C39: spaces made on several processes are rejected, and the buffer is left unchanged. -/
theorem C39_not_serial {rank size : Nat} {fam : CellType → ElementDofs} (hsize : size ≠ 1)
    (h : (FunctionSpace.new rank size test.fs.grid fam).Yields test.fs ∨
      (FunctionSpace.new rank size trial.fs.grid fam).Yields trial.fs) :
    (∀ out, Assemble env asm trial test out ↔ out = none) ∧
    ∀ mem o, AssembleIntoMemory env asm trial test mem o ↔ o = .panicked mem := by
  have no : ∀ {sp : FunctionSpace}, (FunctionSpace.new rank size sp.grid fam).Yields sp → sp.isSerial = false := by
    intro sp hy
    by_contra hn
    exact hsize ((C39_is_serial hy).mp (by simpa using hn))
  have h : test.fs.isSerial = false ∨ trial.fs.isSerial = false := h.imp no no
  have h' : trial.fs.isSerial = false ∨ test.fs.isSerial = false := h.symm
  constructor
  · intro out
    unfold Assemble
    rw [if_pos h']
  · intro mem o
    unfold AssembleIntoMemory
    split
    · rfl
    · rfl

end

/-! ### C14, C15, C17 -/

section
variable [Zero R] [Mul R] [AddCommMonoid T] [Mul T]
  {env : Env R T} {asm : Assembler R T} {trial test : Space R T}
  {famT famR : CellType → ElementDofs} {F : MathIntegrand T} {K : MathKernel R T} {GT GR : Geometry R}
  {BT BR : Basis R T} {Q : Quadrature R} {t : CellType}

/-- C14: `assemble` returns a matrix of the right size; entry `(i, j)` (column-major) is the sum over all
pairs of cells and all local basis function pairs with DOF numbers `i` and `j` of the quadrature value,
by the singular rule for their connectivity if the cells are touching cells of one grid, by the regular
rule otherwise. -/
theorem C14_galerkin (h : DenseSetting env asm trial test famT famR F K GT GR BT BR Q t)
    (hb : 0 < asm.options.batchSize) :
    ∃ M : List T, (∀ out, Assemble env asm trial test out ↔ out = some M) ∧
      M.length = test.fs.globalSize * trial.fs.globalSize ∧
      ∀ i j, i < test.fs.globalSize → j < trial.fs.globalSize → M[i + test.fs.globalSize * j]? =
        some (doubleSum test.fs trial.fs (cellPairValue env.cast F K GT GR BT BR Q test.fs trial.fs) i j) := by
  obtain ⟨tcs, rcs, p1, p2, _, _, h1⟩ := h.assemble hb
  refine ⟨applyOps (regularOps env.cast F K GT GR BT BR Q t (famT t).dim (famR t).dim trial.fs test.fs
        tcs rcs ++ singularOps env.cast F K GT BT BR Q famT famR trial.fs test.fs)
      (List.replicate (test.fs.globalSize * trial.fs.globalSize) 0), ?_, ?_, ?_⟩
  · intro out
    unfold Assemble
    rw [if_neg (by simp [h.testSpace.serial.1, h.trialSpace.serial.1])]
    simp only [h1 _ (List.length_replicate ..)]
    simp
  · rw [applyOps_length, List.length_replicate]
  · intro i j hi hj
    rw [applyOps_get, h.contrib_eq p1 p2 hi, List.getElem?_replicate, if_pos (addr_lt hi hj)]
    simp

/-- C15: `assemble_into_memory` adds the matrix that `assemble` returns to the buffer, entry by entry. -/
theorem C15_adds_to_buffer (h : DenseSetting env asm trial test famT famR F K GT GR BT BR Q t)
    (hb : 0 < asm.options.batchSize) {M : List T} (hM : Assemble env asm trial test (some M))
    {mem : List T} (hm : mem.length = test.fs.globalSize * trial.fs.globalSize) (o : Outcome (List T)) :
    AssembleIntoMemory env asm trial test mem o ↔ o = .ok (List.zipWith (· + ·) mem M) := by
  obtain ⟨tcs, rcs, p1, p2, _, _, h1⟩ := h.assemble hb
  unfold Assemble at hM
  rw [if_neg (by simp [h.testSpace.serial.1, h.trialSpace.serial.1])] at hM
  simp only [h1 _ (List.length_replicate ..), exists_eq_left, Option.some.injEq] at hM
  rw [h1 mem hm]
  have : applyOps (regularOps env.cast F K GT GR BT BR Q t (famT t).dim (famR t).dim trial.fs test.fs tcs
      rcs ++ singularOps env.cast F K GT BT BR Q famT famR trial.fs test.fs) mem =
      List.zipWith (· + ·) mem M := by
    apply List.ext_getElem?
    intro a
    rw [List.getElem?_zipWith, hM, applyOps_get, applyOps_get, List.getElem?_replicate]
    by_cases ha : a < test.fs.globalSize * trial.fs.globalSize
    · rw [if_pos ha]
      obtain ⟨x, hx⟩ : ∃ x, mem[a]? = some x := ⟨mem[a]'(by omega), by simp [hm, ha]⟩
      rw [hx]
      simp
    · rw [if_neg ha, List.getElem?_eq_none (by omega)]
      rfl
  rw [this]

/-- C17: if the grids are different objects then every pair of cells is integrated with the regular rule:
each entry of the matrix is the double sum of regular quadrature values. -/
theorem C17_only_regular (h : DenseSetting env asm trial test famT famR F K GT GR BT BR Q t)
    (hb : 0 < asm.options.batchSize) (hg : test.fs.grid.addr ≠ trial.fs.grid.addr) :
    ∃ M : List T, (∀ out, Assemble env asm trial test out ↔ out = some M) ∧
      M.length = test.fs.globalSize * trial.fs.globalSize ∧
      ∀ i j, i < test.fs.globalSize → j < trial.fs.globalSize → M[i + test.fs.globalSize * j]? =
        some (doubleSum test.fs trial.fs (fun c c' a b => regularValue env.cast F K GT GR BT BR Q
          c.entityType c'.entityType c.localIndex c'.localIndex a b) i j) := by
  obtain ⟨M, h1, h2, h3⟩ := C14_galerkin h hb
  refine ⟨M, h1, h2, fun i j hi hj => ?_⟩
  rw [h3 i j hi hj]
  congr 2
  funext c c' a b
  unfold cellPairValue
  rw [if_neg (fun e => hg e.1)]

end

/-! ### The hypotheses can be met -/

/-- A second octahedron: equal, but another object. -/
def octahedron' : Grid := { octahedron with addr := 77 }

/-- P1 space on the second octahedron. -/
theorem octSpace' : ∃ fs, SerialSpace fs p1 ∧ fs.grid = octahedron' := by
  have wf : octahedron'.WF := { octahedron_wf with }
  have fo : FamilyOn octahedron' p1 (fun d _ => if d = 0 then 1 else 0) := { p1_octahedron with }
  obtain ⟨sp, h, _⟩ := C18_serial_space wf fo octahedron_owned
  have hy : (FunctionSpace.new 0 1 octahedron' p1).Yields sp := by rw [h]; exact .done sp
  obtain ⟨dm, _, _, _, _, hg, _, hel⟩ := new_local hy
  refine ⟨sp, ⟨?_, ?_, ?_, ?_, ?_⟩, hg⟩
  all_goals rw [hg]
  · exact wf
  · obtain ⟨ev, ed⟩ : ∃ ev, octahedron.Edges ev := ⟨_, octahedron_edges⟩
    exact ⟨ev, { ed with }⟩
  · exact ⟨_, _, fo, { p1_octahedron_colourable with }⟩
  · exact octahedron_owned
  · exact h

theorem octDouble_computes (o : Options) :
    (Laplace.doubleLayer (kernelOf squareKernel) o).Computes dlF squareKernel :=
  ⟨laplace_doubleLayer_integrand _ _, kernelOf_computes _ _, rfl⟩

/-- The double layer matrix on the octahedron (C10, C14, C15). -/
example : ∃ fs, ∃ M : List Rat, SerialSpace fs p1 ∧
    let asm := Laplace.doubleLayer (kernelOf squareKernel) smallOptions
    let sp := spaceOf fs p1 octGeometry p1Basis
    (∀ out, Assemble exEnv asm sp sp out ↔ out = some M) ∧
    (∀ out, Assemble exEnv (asm.withBatchSize 2) sp sp out ↔ out = some M) ∧
    ∀ mem o, mem.length = fs.globalSize * fs.globalSize →
      (AssembleIntoMemory exEnv asm sp sp mem o ↔ o = .ok (List.zipWith (· + ·) mem M)) := by
  obtain ⟨fs, h, hg⟩ := octSpace
  have hset := octDenseSetting h hg (octDouble_computes smallOptions) (by decide) (by decide)
  obtain ⟨M, h1, _, _⟩ := C14_galerkin hset (by decide)
  refine ⟨fs, M, h, h1, fun out => ?_, fun mem o hm => ?_⟩
  · rw [C10_assemble hset (b := 2) (b' := 128) (by decide) (by decide)]
    exact h1 out
  · exact C15_adds_to_buffer hset (by decide) ((h1 _).mpr rfl) hm o

/-- Two octahedra (C17). -/
theorem octTwoSetting {fs fs' : FunctionSpace} (h : SerialSpace fs p1) (hg : fs.grid = octahedron)
    (h' : SerialSpace fs' p1) (hg' : fs'.grid = octahedron') :
    DenseSetting exEnv (Laplace.doubleLayer (kernelOf squareKernel) smallOptions)
      (spaceOf fs p1 octGeometry p1Basis) (spaceOf fs' p1 octGeometry p1Basis) p1 p1
      dlF squareKernel octGeometry octGeometry p1Basis p1Basis smallRules .triangle where
  testSpace := h'
  trialSpace := h
  testType := by show fs'.grid.entityTypes 2 = _; rw [hg']; decide
  trialType := by show fs.grid.entityTypes 2 = _; rw [hg]; decide
  testSurface := by show Surface fs'.grid; rw [hg']; exact ⟨rfl, rfl⟩
  trialSurface := by show Surface fs.grid; rw [hg]; exact ⟨rfl, rfl⟩
  testGeometry := spaceOf_geometry fs' p1 octGeometry p1Basis
  trialGeometry := spaceOf_geometry fs p1 octGeometry p1Basis
  testBasis := spaceOf_tabulate fs' p1 octGeometry p1Basis
  trialBasis := spaceOf_tabulate fs p1 octGeometry p1Basis
  operator := octDouble_computes _
  rule := exEnv_regular
  same := by
    show fs'.grid.addr = fs.grid.addr → _
    rw [hg, hg']
    intro e
    exact absurd e (by decide)

example : ∃ fs fs' : FunctionSpace, ∃ M : List Rat, fs.grid = octahedron ∧ fs'.grid = octahedron' ∧
    ∀ out, Assemble exEnv (Laplace.doubleLayer (kernelOf squareKernel) smallOptions)
      (spaceOf fs p1 octGeometry p1Basis) (spaceOf fs' p1 octGeometry p1Basis) out ↔ out = some M := by
  obtain ⟨fs, h, hg⟩ := octSpace
  obtain ⟨fs', h', hg'⟩ := octSpace'
  obtain ⟨M, h1, _⟩ := C17_only_regular (octTwoSetting h hg h' hg') (by decide) (by
    show fs'.grid.addr ≠ fs.grid.addr
    rw [hg, hg']; decide)
  exact ⟨fs, fs', M, hg, hg', h1⟩

/-- A buffer that is one entry too short (C39). -/
example : ∃ fs, SerialSpace fs p1 ∧
    let asm := Laplace.doubleLayer (kernelOf squareKernel) smallOptions
    let sp := spaceOf fs p1 octGeometry p1Basis
    fs.globalSize = 6 ∧
    ∀ o, AssembleIntoMemory exEnv asm sp sp (List.replicate 35 0) o ↔ o = .panicked (List.replicate 35 0) := by
  obtain ⟨fs, h, hg⟩ := octSpace
  have hs : fs.globalSize = 6 := by
    obtain ⟨dm, h1, _, _, h2, _⟩ := new_local h.yields
    rw [h.serial.2.1, h2]
    rw [hg] at h1
    have := Option.some_inj.mp (h1.symm.trans (by rfl))
    rw [this]
  refine ⟨fs, h, hs, C39_wrong_length ?_⟩
  show _ ≠ fs.globalSize * fs.globalSize
  rw [hs]
  decide

end Bempp
