import Verif.Proofs.Words
import Verif.Props.Dense
/-
C70: machine integers. The other theorems are about programs with unbounded indices; these say when they are about the
real ones.
-/
namespace Bempp

section
variable {R T : Type} [Zero R] [Mul R] [Zero T] [Add T] [Mul T] {m : Machine} {env : Env R T} {asm : Assembler R T}
  {trial test : Space R T} {famT famR : CellType → ElementDofs}

/-- What is stored fits into the memory of the machine. A vector of cells or of pairs of cells has at most half as many
elements as there are machine words, because its elements take at least two bytes and no vector is larger than half of
the address space; the matrix has fewer entries than there are machine words. The pairs of adjacent cells are bounded by
the pairs of cells around the vertices. -/
structure FitsMemory (m : Machine) (asm : Assembler R T) (trial test : Space R T) : Prop where
  entries : test.fs.globalSize * trial.fs.globalSize < m.bound
  rows : test.fs.globalSize + 1 < m.bound
  batch : asm.options.batchSize < m.bound
  testCells : 2 * test.fs.grid.count 2 ≤ m.bound
  trialCells : 2 * trial.fs.grid.count 2 ≤ m.bound
  pairs : 2 * ((test.fs.grid.entityIter 0).map fun v => (v.connected 2).length * (v.connected 2).length).sum ≤ m.bound

/-- **C70**, batches: for every batch size that a machine word can hold, the batching loops never overflow and slice as
with unbounded numbers; in particular a batch size near the largest word is the same as one batch. -/
theorem C70_batches {b : Nat} (hb : b < m.bound) {α : Type} (c : List α) (hc : 2 * c.length ≤ m.bound)
    (testC trialC : List Nat) (ht : 2 * testC.length ≤ m.bound) (hr : 2 * trialC.length ≤ m.bound) :
    (∀ out, SplitW m b c 0 out ↔ ∃ l, out = some l ∧ Split b c 0 l) ∧
    (∀ out, SplitPairsW m b testC trialC 0 out ↔ ∃ l, out = some l ∧ SplitPairs b testC trialC 0 l) :=
  ⟨splitW_iff hc hb (.inl rfl), splitPairsW_iff ht hr hb (.inl rfl)⟩

/-- **C70**, dense assembly: whatever the external functions do, `assemble_into_memory` behaves as with unbounded
numbers, in builds with and without overflow checks. -/
theorem C70_dense (ht : SerialSpace test.fs famT) (hr : SerialSpace trial.fs famR) (hm : FitsMemory m asm trial test)
    (mem : List T) (o : Outcome (List T)) :
    AssembleIntoMemoryW m env asm trial test mem o ↔ AssembleIntoMemory env asm trial test mem o :=
  assembleIntoMemoryW_iff ht hr hm.entries hm.batch hm.testCells hm.trialCells
    (fun _ _ _ hcp l hl => le_trans (Nat.mul_le_mul_left 2 (cellPairs_length hcp l hl)) hm.pairs) mem o

/-- **C70**, sparse assembly. -/
theorem C70_singular (hm : FitsMemory m asm trial test) (out : Option (Csr T)) :
    AssembleSingularW m env asm trial test out ↔ AssembleSingular env asm trial test out :=
  assembleSingularW_iff hm.rows hm.batch
    (fun _ _ _ hcp l hl => le_trans (Nat.mul_le_mul_left 2 (cellPairs_length hcp l hl)) hm.pairs) out

/-- **C70**, too many entries, build with overflow checks: `assemble_into_memory` panics and leaves the buffer alone. -/
theorem C70_overflow_checked (hw : m.wraps = false)
    (h : m.bound ≤ test.fs.globalSize * trial.fs.globalSize) (mem : List T) (o : Outcome (List T)) :
    AssembleIntoMemoryW m env asm trial test mem o ↔ o = .panicked mem := by
  have : m.mul test.fs.globalSize trial.fs.globalSize = none := by
    simp [Machine.mul, Machine.fit, hw]; omega
  unfold AssembleIntoMemoryW
  rw [this]

end

/-- Every DOF of a function space is a DOF of one of its cells. -/
theorem C03_every_dof {rank size : Nat} {g : Grid} {fam : CellType → ElementDofs} {nd : Nat → Nat → Nat}
    {sp : FunctionSpace} (wf : g.WF) (fo : FamilyOn g fam nd) (h : (FunctionSpace.new rank size g fam).Yields sp)
    (n : Nat) (hn : n < sp.localSize) :
    ∃ c ∈ g.entityIter 2, ∃ cd, sp.cellDofs c.localIndex = some cd ∧ n ∈ cd := by
  obtain ⟨dm, inv, hE, hC, hS, hrows⟩ := space_inv wf fo h
  obtain ⟨loc, hl1, -, hl3, -⟩ := inv.loc
  rw [hS, ← hl1] at hn
  have h1 := (hl3 loc[n].1 loc[n].2.1 loc[n].2.2 n).mpr (by simp)
  rw [Option.bind_eq_some_iff] at h1
  obtain ⟨l, h1, h2⟩ := h1
  have hne : l ≠ [] := by rintro rfl; simp at h2
  obtain ⟨v, hv, e1, e2⟩ := inv.touched _ _ _ h1 hne
  obtain ⟨el, hel⟩ := Option.isSome_iff_exists.mp (inv.defd v hv)
  obtain ⟨l', h3, h4, h5⟩ := inv.done v hv el hel
  rw [e1, e2, h1] at h3
  cases h3
  have hk : loc[n].2.2 < el.length := h4 ▸ (List.getElem?_eq_some_iff.mp h2).1
  have h6 := h5 _ _ n (List.getElem?_eq_getElem hk) h2
  obtain ⟨c, hc, hvc⟩ := List.mem_flatMap.mp hv
  have hcv : v.c = c.localIndex := by
    obtain ⟨h, -⟩ := mem_visitsOf.mp hvc
    exact h
  obtain ⟨row, h7, -⟩ := hrows c hc
  rw [hcv, h7, Option.bind_some] at h6
  exact ⟨c, hc, row, by rw [cellDofs_eq, hC]; exact h7, List.mem_of_getElem? h6⟩

section
variable {R T : Type} [Zero R] [Mul R] [Zero T] [Add T] [Mul T] {env : Env R T} {asm : Assembler R T}
  {trial test : Space R T} {famT famR : CellType → ElementDofs}

/-- **C70**, too many entries, build without overflow checks: a buffer passes the test of its length if its length is the
number of entries modulo the word size. It is then too short: there are a test cell and a trial cell for which the
unchecked additions (made unless the cells are neighbours) contain one outside of the buffer, whatever the local matrix
is. -/
theorem C70_overflow_wrapping (ht : SerialSpace test.fs famT) (hr : SerialSpace trial.fs famR) {bound : Nat}
    (hb : 0 < bound) (h : bound ≤ test.fs.globalSize * trial.fs.globalSize) (mem : List T) :
    (mem.length ≠ test.fs.globalSize * trial.fs.globalSize % bound →
      ∀ o, AssembleIntoMemoryW ⟨bound, true⟩ env asm trial test mem o ↔ o = .panicked mem) ∧
    (mem.length = test.fs.globalSize * trial.fs.globalSize % bound →
      ∃ tc ∈ test.fs.grid.entityIter 2, ∃ rc ∈ trial.fs.grid.entityIter 2, ∃ td rd,
        test.fs.cellDofsUnchecked tc.localIndex = some td ∧ trial.fs.cellDofsUnchecked rc.localIndex = some rd ∧
        ∀ localMat : List (List T), localMat.length = rd.length → (∀ c ∈ localMat, c.length = td.length) →
          ∃ ops, localOpsW ⟨bound, true⟩ (test.fs.globalSize, trial.fs.globalSize) td rd localMat = some ops ∧
            ∃ op ∈ ops, mem.length ≤ op.addr) := by
  constructor
  · intro hl o
    unfold AssembleIntoMemoryW
    have : (Machine.mk bound true).mul test.fs.globalSize trial.fs.globalSize =
        some (test.fs.globalSize * trial.fs.globalSize % bound) := by
      simp [Machine.mul, Machine.fit]; omega
    rw [this]
    dsimp only
    rw [if_pos hl]
  · intro hl
    obtain ⟨i, j, hi, hj, hp⟩ := position_overflow hb h true
    obtain ⟨nd, -, fo, -⟩ := ht.family
    obtain ⟨nd', -, fo', -⟩ := hr.family
    rw [ht.serial.2.1] at hi
    rw [hr.serial.2.1] at hj
    obtain ⟨tc, htc, td, h1, h2⟩ := C03_every_dof ht.wf fo ht.yields i hi
    obtain ⟨rc, hrc, rd, h3, h4⟩ := C03_every_dof hr.wf fo' hr.yields j hj
    rw [cellDofs_eq] at h1 h3
    refine ⟨tc, htc, rc, hrc, td, rd, h1, h3, fun localMat hm hm' => ?_⟩
    have hpos : ∀ n i j, ∃ p, (Machine.mk bound true).position n i j = some p := by
      intro n i j
      have hf : ∀ a, ∃ b, (Machine.mk bound true).fit a = some b := by
        intro a; simp only [Machine.fit]; split <;> exact ⟨_, rfl⟩
      obtain ⟨b, hb⟩ := hf (n * j)
      obtain ⟨b', hb'⟩ := hf (i + b)
      exact ⟨b', by simp [Machine.position, Machine.mul, Machine.add, hb, hb']⟩
    choose pos hpos using hpos
    have e : localOpsW ⟨bound, true⟩ (test.fs.globalSize, trial.fs.globalSize) td rd localMat =
        some ((rd.zip localMat).map fun c => (td.zip c.2).map fun e =>
          (⟨pos test.fs.globalSize e.1 c.1, e.2⟩ : AddOp T)).flatten := by
      unfold localOpsW
      rw [mapM_some_of_forall (g := fun c => (td.zip c.2).map fun e =>
          (⟨pos test.fs.globalSize e.1 c.1, e.2⟩ : AddOp T))]
      · rfl
      · intro c hc
        exact mapM_some_of_forall fun e he => by rw [hpos]; rfl
    refine ⟨_, e, ?_⟩
    obtain ⟨b, hb1, hb2⟩ := List.getElem_of_mem h4
    obtain ⟨a, ha1, ha2⟩ := List.getElem_of_mem h2
    have hbm : b < localMat.length := by omega
    have ham : a < localMat[b].length := by rw [hm' _ (List.getElem_mem hbm)]; exact ha1
    refine ⟨⟨pos test.fs.globalSize i j, localMat[b][a]⟩, ?_, ?_⟩
    · rw [List.mem_flatten]
      refine ⟨_, List.mem_map.mpr ⟨(j, localMat[b]), ?_, rfl⟩, List.mem_map.mpr ⟨(i, localMat[b][a]), ?_, rfl⟩⟩
      · refine List.mem_iff_getElem.mpr ⟨b, by simp; omega, by simp [hb2]⟩
      · refine List.mem_iff_getElem.mpr ⟨a, by simp; omega, by simp [ha2]⟩
    · have := hpos test.fs.globalSize i j
      rw [hp] at this
      have e := Option.some.inj this
      have := Nat.mod_lt (test.fs.globalSize * trial.fs.globalSize) hb
      dsimp only
      omega

end

/-- **C70**, screens: the numbers of points and cells and the capacities are those of the unbounded program if the number
of points and the number of cells fit into a machine word; otherwise the functions panic in builds with overflow
checks. -/
theorem C70_screen {T : Type} [Zero T] [Div T] (fromNat : Nat → T) (m : Machine) {n : Nat} (hn : 0 < n) :
    ((n + 1) * (n + 1) < m.bound → 2 * n * n < m.bound → ∃ s, screenTriangles fromNat n = some s ∧
      screenTrianglesW m n = some ((s.points.length, s.cells.length), s.points.map Prod.fst, s.cells)) ∧
    ((n + 1) * (n + 1) < m.bound → ∃ s, screenQuadrilaterals fromNat n = some s ∧
      screenQuadrilateralsW m n = some ((s.points.length, s.cells.length), s.points.map Prod.fst, s.cells)) ∧
    (m.wraps = false → (m.bound ≤ (n + 1) * (n + 1) ∨ m.bound ≤ 2 * n * n) → screenTrianglesW m n = none) ∧
    (m.wraps = false → m.bound ≤ (n + 1) * (n + 1) → screenQuadrilateralsW m n = none) :=
  ⟨screenTrianglesW_eq fromNat hn, screenQuadrilateralsW_eq fromNat hn, fun hw h => screenTrianglesW_none hw h,
    fun hw h => screenQuadrilateralsW_none hw h⟩

/-- **C70**, spheres: on a 64-bit machine with overflow checks the capacities can be computed exactly up to level 24. -/
theorem C70_sphere (level : Nat) : (sphereCapacities ⟨2 ^ 64, false⟩ level).isSome ↔ level ≤ 24 :=
  sphereCapacities_iff level

/-! ### The hypotheses can be met -/

namespace Examples

/-- The double layer matrix on the octahedron on a 64-bit machine, with and without overflow checks. -/
example (w : Bool) : ∃ fs, ∃ M : List Rat, SerialSpace fs p1 ∧
    let asm := Laplace.doubleLayer (kernelOf squareKernel) smallOptions
    let sp := spaceOf fs p1 octGeometry p1Basis
    ∀ mem o, mem.length = fs.globalSize * fs.globalSize →
      (AssembleIntoMemoryW ⟨2 ^ 64, w⟩ exEnv asm sp sp mem o ↔ o = .ok (List.zipWith (· + ·) mem M)) := by
  obtain ⟨fs, h, hg⟩ := octSpace
  have hset := octDenseSetting h hg (octDouble_computes smallOptions) (by decide) (by decide)
  obtain ⟨M, h1, _, _⟩ := C14_galerkin hset (by decide)
  have hsize : fs.globalSize = 6 := by
    obtain ⟨dm, h1, _, _, h2, _⟩ := new_local h.yields
    rw [h.serial.2.1, h2]
    rw [hg] at h1
    have := Option.some_inj.mp (h1.symm.trans (by rfl))
    rw [this]
  refine ⟨fs, M, h, fun mem o hm => ?_⟩
  rw [C70_dense (famT := p1) (famR := p1) h h]
  · exact C15_adds_to_buffer hset (by decide) ((h1 _).mpr rfl) hm o
  · refine ⟨?_, ?_, ?_, ?_, ?_, ?_⟩
    · simp only [spaceOf, hsize]; decide
    · simp only [spaceOf, hsize]; decide
    · show 128 < 2 ^ 64; decide
    · simp only [spaceOf, hg]; decide
    · simp only [spaceOf, hg]; decide
    · simp only [spaceOf, hg]; decide

/-- On a machine with 32 different words the matrix of the octahedron (36 entries) does not fit: with overflow checks
assembly panics, without them a buffer of 4 entries is accepted. -/
example : ∃ fs, SerialSpace fs p1 ∧
    let asm := Laplace.doubleLayer (kernelOf squareKernel) smallOptions
    let sp := spaceOf fs p1 octGeometry p1Basis
    (∀ mem o, AssembleIntoMemoryW ⟨32, false⟩ exEnv asm sp sp mem o ↔ o = .panicked mem) ∧
    (∀ mem o, mem.length ≠ 4 → (AssembleIntoMemoryW ⟨32, true⟩ exEnv asm sp sp mem o ↔ o = .panicked mem)) ∧
    ∃ tc ∈ fs.grid.entityIter 2, ∃ rc ∈ fs.grid.entityIter 2, ∃ td rd,
        fs.cellDofsUnchecked tc.localIndex = some td ∧ fs.cellDofsUnchecked rc.localIndex = some rd ∧
        ∀ localMat : List (List Rat), localMat.length = rd.length → (∀ c ∈ localMat, c.length = td.length) →
          ∃ ops, localOpsW ⟨32, true⟩ (6, 6) td rd localMat = some ops ∧ ∃ op ∈ ops, 4 ≤ op.addr := by
  obtain ⟨fs, h, hg⟩ := octSpace
  have hsize : fs.globalSize = 6 := by
    obtain ⟨dm, h1, _, _, h2, _⟩ := new_local h.yields
    rw [h.serial.2.1, h2]
    rw [hg] at h1
    have := Option.some_inj.mp (h1.symm.trans (by rfl))
    rw [this]
  refine ⟨fs, h, fun mem o => ?_, fun mem o hl => ?_, ?_⟩
  · exact C70_overflow_checked rfl (by simp only [spaceOf, hsize]; decide) mem o
  · exact (C70_overflow_wrapping (famT := p1) (famR := p1) h h (by decide)
      (by simp only [spaceOf, hsize]; decide) mem).1 (by simpa only [spaceOf, hsize] using hl) o
  · have := (C70_overflow_wrapping (R := Rat) (T := Rat) (env := exEnv)
      (asm := Laplace.doubleLayer (kernelOf squareKernel) smallOptions) (famT := p1) (famR := p1)
      (test := spaceOf fs p1 octGeometry p1Basis) (trial := spaceOf fs p1 octGeometry p1Basis) h h (bound := 32)
      (by decide) (by simp only [spaceOf, hsize]; decide) [0, 0, 0, 0]).2 (by simp [spaceOf, hsize])
    simpa [spaceOf, hsize] using this

/-- A batch size of 255 on an 8-bit machine: five cells make one batch. -/
example : SplitW ⟨256, false⟩ 255 [1, 2, 3, 4, 5] 0 (some [[1, 2, 3, 4, 5]]) :=
  ((C70_batches (by decide) [1, 2, 3, 4, 5] (by decide) [] [] (by decide) (by decide)).1 _).mpr
    ⟨_, rfl, .step (by decide) rfl (.stop (by decide))⟩

/-- Screens on an 8-bit machine: the largest numbers of cells per side. -/
example : (screenTrianglesW ⟨256, false⟩ 11).isSome ∧ screenTrianglesW ⟨256, false⟩ 12 = none ∧
    (screenQuadrilateralsW ⟨256, false⟩ 14).isSome ∧ screenQuadrilateralsW ⟨256, false⟩ 15 = none := by
  decide +kernel

end Examples
end Bempp
