import Verif.Model.PythonData
import Verif.Model.LocalSpace
import Verif.Props.Sparse
import Verif.Props.Linear
/-
C55: what Python's function space returns. C56: what Python's assemblers return. C57: the serial function space of the
bindings.
-/
namespace Bempp

/-! ### Copying through a buffer -/

theorem copyToBuffer_eq {α : Type} (src : List α) : ∀ (pre : List α),
    copyToBuffer src pre.length (pre.map some ++ NpBuffer.empty α src.length) =
      .ok ((pre ++ src).map some) := by
  induction src with
  | nil => intro pre; simp [copyToBuffer, NpBuffer.empty]
  | cons x src ih =>
    intro pre
    have h : NpBuffer.write (pre.map some ++ NpBuffer.empty α (x :: src).length) pre.length x =
        .ok ((pre ++ [x]).map some ++ NpBuffer.empty α src.length) := by
      unfold NpBuffer.write
      rw [if_pos (by simp [NpBuffer.empty])]
      simp only [Ffi.mem, Ffi.ok.injEq]
      rw [List.set_append_right _ _ (by simp)]
      simp [NpBuffer.empty, List.replicate_succ]
    have := ih (pre ++ [x])
    simp only [List.length_append, List.length_cons, List.length_nil, Nat.zero_add, List.append_assoc,
      List.cons_append, List.nil_append] at this
    unfold copyToBuffer
    show Ffi.bind (NpBuffer.write _ _ _) _ = _
    rw [h]
    exact this

/-- Copying a list to an empty array of its length and reading the array gives the list. -/
theorem copy_read {α : Type} (src : List α) : copyToBuffer src 0 (NpBuffer.empty α src.length) = .ok (src.map some) ∧
    NpBuffer.read (src.map some) = .ok src := by
  constructor
  · exact copyToBuffer_eq src []
  · unfold NpBuffer.read
    have : (src.map some).mapM id = some src := by
      induction src with
      | nil => rfl
      | cons x l ih => simp [List.mapM_cons, ih]
    rw [this]
    rfl

/-- **C55.** The methods of a Python function space return exactly what Rust returns; the arrays have the right size for
every space and every argument, so that nothing is written outside them and no element is left unwritten. Asking for a
number that is not a cell gives `None`. -/
theorem C55_python_accessors (fs : FunctionSpace) :
    (∀ d e, pyGetLocalDofNumbers fs d e = match fs.getLocalDofNumbers d e with
      | some l => .ok l
      | none => .panic) ∧
    (∀ c, pyCellDofs fs c = .ok (fs.cellDofs c)) := by
  constructor
  · intro d e
    unfold pyGetLocalDofNumbers
    cases h : fs.getLocalDofNumbers d e with
    | none => rfl
    | some l =>
      show Ffi.bind (copyToBuffer l 0 (NpBuffer.empty Nat l.length)) _ = _
      rw [(copy_read l).1]
      exact (copy_read l).2
  · intro c
    unfold pyCellDofs
    cases h : fs.cellDofs c with
    | none => rfl
    | some l =>
      show Ffi.bind (copyToBuffer l 0 (NpBuffer.empty Nat l.length)) _ = _
      rw [(copy_read l).1]
      show Ffi.bind (NpBuffer.read (l.map some)) _ = _
      rw [(copy_read l).2]
      rfl

/-- **C55.** On a space on one process no method ends the interpreter or raises for an argument in range: every entity has
a DOF list, every DOF is its own global number and is owned. -/
theorem C55_python_space {fs : FunctionSpace} {fam : CellType → ElementDofs} (h : SerialSpace fs fam) :
    (∀ d e, d ≤ 2 → e < fs.grid.count d → ∃ l, fs.getLocalDofNumbers d e = some l ∧
      pyGetLocalDofNumbers fs d e = .ok l) ∧
    (∀ c, pyCellDofs fs c = .ok (fs.cellDofs c)) ∧
    ∀ i, i < fs.localSize → pyGlobalDofIndex fs i = .ok i ∧ pyIsOwned fs i = .ok true := by
  obtain ⟨nd, t, fo, -⟩ := h.family
  obtain ⟨s, e1, -, -, e4, -⟩ := C18_serial_space h.wf fo h.owned
  rw [h.made] at e1
  cases e1
  have hy : (FunctionSpace.new 0 1 fs.grid fam).Yields fs := by rw [h.made]; exact .done fs
  refine ⟨?_, (C55_python_accessors fs).2, ?_⟩
  · intro d e hd he
    obtain ⟨l, hl⟩ := Option.isSome_iff_exists.mp (((C01_numbering_bijection h.wf fo hy).1 d e).mpr ⟨hd, he⟩)
    refine ⟨l, hl, ?_⟩
    rw [(C55_python_accessors fs).1, hl]
  · intro i hi
    unfold pyGlobalDofIndex pyIsOwned
    rw [(e4 i hi).1, (e4 i hi).2]
    exact ⟨rfl, rfl⟩

/-! ### C56 -/

section
variable {R T : Type}

theorem checkDtypes_real {a : DType} (h : a = .f32 ∨ a = .f64) : checkDtypes a a a = .ok () := by
  rcases h with rfl | rfl <;> rfl

theorem checkDtypes_raised {a d e : DType} (h : ¬ (d = a ∧ e = a ∧ (a = .f32 ∨ a = .f64))) :
    checkDtypes a d e = .raised := by
  cases a <;> cases d <;> cases e <;> first
    | rfl
    | (exfalso; revert h; decide)

section
variable [Zero T] [Add T] [Mul T] [Zero R] [Mul R] {env : Env R T} {a : PyAssembler R T} {trial test : PyFs R T}

/-- **C56.** Whenever Rust's `assemble` returns the matrix `M`, Python's `assemble` returns an array of shape (test size,
trial size) whose element `[i, j]` is entry `(i, j)` of `M`, and nothing else can happen. -/
theorem C56_python_assemble {M : List T} (hM : ∀ out, Assemble env a.asm trial.space test.space out ↔ out = some M)
    (hl : M.length = test.space.fs.globalSize * trial.space.fs.globalSize)
    (ht : trial.dtype = a.dtype) (hs : test.dtype = a.dtype) (hr : a.dtype = .f32 ∨ a.dtype = .f64) :
    ∃ A : NpArray T, (∀ out, PyAssemble env a trial test out ↔ out = .ok A) ∧
      A.shape0 = test.space.fs.globalSize ∧ A.shape1 = trial.space.fs.globalSize ∧
      (∀ i j, i < A.shape0 → j < A.shape1 → ∃ x, A.item i j = some x ∧
        M[i + test.space.fs.globalSize * j]? = some x) ∧
      ∀ i j, ¬ (i < A.shape0 ∧ j < A.shape1) → A.item i j = none := by
  have key : ∀ o, AssembleIntoMemory env a.asm trial.space test.space
      (List.replicate (test.space.fs.globalSize * trial.space.fs.globalSize) 0) o ↔ o = .ok M := by
    have hser : ¬ (trial.space.fs.isSerial = false ∨ test.space.fs.isSerial = false) := by
      intro hn
      have := (hM none).mp (by unfold Assemble; rw [if_pos hn])
      simp at this
    unfold Assemble at hM
    simp only [if_neg hser] at hM
    have huniq : ∀ o, AssembleIntoMemory env a.asm trial.space test.space
        (List.replicate (test.space.fs.globalSize * trial.space.fs.globalSize) 0) o → o = .ok M := by
      intro o ho
      have := (hM _).mp ⟨o, ho, rfl⟩
      cases o <;> simp_all
    intro o
    refine ⟨huniq o, ?_⟩
    rintro rfl
    obtain ⟨o, ho, -⟩ := (hM (some M)).mpr rfl
    rw [← huniq o ho]
    exact ho
  refine ⟨⟨test.space.fs.globalSize, trial.space.fs.globalSize, 1, test.space.fs.globalSize, M⟩, ?_, rfl, rfl, ?_, ?_⟩
  · intro out
    unfold PyAssemble
    rw [ht, hs, checkDtypes_real hr]
    simp only [NpArray.zerosF, List.length_replicate, List.take_replicate, List.drop_replicate, Nat.min_self, Nat.sub_self,
      List.replicate_zero, List.append_nil, lt_self_iff_false, if_false, ne_eq, not_true_eq_false, or_self, key,
      exists_eq_left]
  · intro i j hi hj
    have hb : i + test.space.fs.globalSize * j < M.length := by
      rw [hl]
      calc i + test.space.fs.globalSize * j < test.space.fs.globalSize + test.space.fs.globalSize * j := by
            exact Nat.add_lt_add_right hi _
        _ = test.space.fs.globalSize * (j + 1) := by ring
        _ ≤ _ := Nat.mul_le_mul_left _ hj
    refine ⟨M[i + test.space.fs.globalSize * j], ?_, List.getElem?_eq_getElem hb⟩
    unfold NpArray.item
    rw [if_pos ⟨hi, hj⟩, Nat.mul_one, Nat.mul_comm j]
    exact List.getElem?_eq_getElem hb
  · intro i j hn
    unfold NpArray.item
    rw [if_neg hn]

omit [Zero T] [Add T] [Mul T] in
theorem convertToScipy_some (m : Csr T) :
    convertToScipy (some m) = .ok (⟨m.shape, m.data, m.indices, m.indptr⟩, none) := by
  unfold convertToScipy
  show Ffi.bind (copyToBuffer m.data 0 (NpBuffer.empty T m.data.length)) _ = _
  rw [(copy_read m.data).1]
  show Ffi.bind (copyToBuffer m.indices 0 (NpBuffer.empty Nat m.indices.length)) _ = _
  rw [(copy_read m.indices).1]
  show Ffi.bind (copyToBuffer m.indptr 0 (NpBuffer.empty Nat m.indptr.length)) _ = _
  rw [(copy_read m.indptr).1]
  show Ffi.bind (NpBuffer.read (m.data.map some)) _ = _
  rw [(copy_read m.data).2]
  show Ffi.bind (NpBuffer.read (m.indices.map some)) _ = _
  rw [(copy_read m.indices).2]
  show Ffi.bind (NpBuffer.read (m.indptr.map some)) _ = _
  rw [(copy_read m.indptr).2]
  rfl

/-- **C56.** Whenever Rust's `assemble_singular` returns the matrix `m`, Python's `assemble_singular` returns a SciPy matrix with
the shape and the three arrays of `m`; the Rust matrix is freed, once, after its arrays were copied. -/
theorem C56_python_singular {m : Csr T}
    (hm : ∀ out, AssembleSingular env a.asm trial.space test.space out ↔ out = some m)
    (ht : trial.dtype = a.dtype) (hs : test.dtype = a.dtype) (hr : a.dtype = .f32 ∨ a.dtype = .f64)
    (out : Ffi (ScipyCsr T × RustMatrix T)) :
    PyAssembleSingular env a trial test out ↔ out = .ok (⟨m.shape, m.data, m.indices, m.indptr⟩, none) := by
  have hc := convertToScipy_some m
  unfold PyAssembleSingular
  rw [ht, hs, checkDtypes_real hr]
  simp only [ne_eq, not_true_eq_false, or_self, if_false, hm, exists_eq_left, hc]

/-- **C56.** If the scalar types of the two spaces and the operator are not all the same real type, both methods raise an exception, whatever
the rest of the arguments; Rust does not see the call. -/
theorem C56_dtype_mismatch (h : ¬ (trial.dtype = a.dtype ∧ test.dtype = a.dtype ∧ (a.dtype = .f32 ∨ a.dtype = .f64))) :
    (∀ out, PyAssemble env a trial test out ↔ out = .raised) ∧
    ∀ out, PyAssembleSingular env a trial test out ↔ out = .raised := by
  have := checkDtypes_raised h
  constructor
  · intro out
    unfold PyAssemble
    rw [this]
  · intro out
    unfold PyAssembleSingular
    rw [this]

end

/-- The integrand of the Laplace operator that a value of Python's `OperatorType` stands for; there are no Maxwell operators for the
Laplace equation. -/
def laplaceIntegrand [Add T] [Sub T] [Mul T] [Div T] [Neg T] : PyOperator → Option (MathIntegrand T)
  | .singleLayer => some slF
  | .doubleLayer => some dlF
  | .adjointDoubleLayer => some adlF
  | .hypersingular => some curlCurlF
  | .electricField => none
  | .magneticField => none

/-- **C56.** From start to end: the assembler that `create_laplace_assembler` makes for one of the four Laplace operators and a real scalar
type assembles, from spaces of this type, an array whose element `[i, j]` is the sum over all pairs of cells of the quadrature values of
the pair for test function `i` and trial function `j`. -/
theorem C56_laplace [Zero R] [Mul R] [Neg R] [AddCommMonoid T] [Mul T] [Sub T] [Div T] [Neg T]
    {env : Env R T} {trial test : Space R T} {o : Options} {famT famR : CellType → ElementDofs} {K : MathKernel R T}
    {GT GR : Geometry R} {BT BR : Basis R T} {Q : Quadrature R} {t : CellType} {kernel : Kernel R T}
    (h : SpacePair env o trial test famT famR GT GR BT BR Q t) (hb : 0 < o.batchSize)
    (h1 : kernel.Computes .value K) (h2 : kernel.Computes .valueDeriv K) {op : PyOperator} {F : MathIntegrand T}
    (hF : laplaceIntegrand op = some F) {dt : DType} (hd : dt = .f32 ∨ dt = .f64) :
    ∃ a : PyAssembler R T, createLaplaceAssembler kernel op o dt = .ok a ∧ ∃ A : NpArray T,
      (∀ out, PyAssemble env a ⟨trial, dt⟩ ⟨test, dt⟩ out ↔ out = .ok A) ∧
      A.shape0 = test.fs.globalSize ∧ A.shape1 = trial.fs.globalSize ∧
      ∀ i j, i < test.fs.globalSize → j < trial.fs.globalSize → A.item i j =
        some (doubleSum test.fs trial.fs (cellPairValue env.cast F K GT GR BT BR Q test.fs trial.fs) i j) := by
  obtain ⟨a, ha, had, hw⟩ : ∃ a : PyAssembler R T, createLaplaceAssembler kernel op o dt = .ok a ∧ a.dtype = dt ∧
      OperatorWith env.cast o K a.asm F := by
    unfold createLaplaceAssembler
    rw [if_neg (by rcases hd with rfl | rfl <;> decide)]
    cases op <;> simp only [laplaceIntegrand, Option.some.injEq, reduceCtorEq] at hF <;> subst hF
    · exact ⟨_, rfl, rfl, .laplaceSingleLayer h1⟩
    · exact ⟨_, rfl, rfl, .laplaceDoubleLayer h2⟩
    · exact ⟨_, rfl, rfl, .laplaceAdjoint h2⟩
    · exact ⟨_, rfl, rfl, .laplaceHypersingular h2⟩
  refine ⟨a, ha, ?_⟩
  obtain ⟨M, hM, hl, hv⟩ := C14_operators h hw hb
  obtain ⟨A, hA, s0, s1, hi, -⟩ := C56_python_assemble (env := env) (a := a) (trial := ⟨trial, dt⟩) (test := ⟨test, dt⟩) hM hl
    had.symm had.symm (by rw [had]; exact hd)
  refine ⟨A, hA, s0, s1, ?_⟩
  intro i j hi' hj'
  obtain ⟨x, hx, hx'⟩ := hi i j (by rw [s0]; exact hi') (by rw [s1]; exact hj')
  rw [hx, ← hx']
  exact hv i j hi' hj'

/-- Any other request is a Rust panic, which ends the Python process. -/
theorem C56_other_operators [Add T] [Sub T] [Mul T] [Div T] [Neg T] (kernel : Kernel R T) (op : PyOperator) (o : Options) (dt : DType)
    (h : ¬ ((∃ F : MathIntegrand T, laplaceIntegrand op = some F) ∧ (dt = .f32 ∨ dt = .f64))) :
    createLaplaceAssembler kernel op o dt = .panic := by
  unfold createLaplaceAssembler
  split
  · rfl
  · rename_i hd
    have hd : dt = .f32 ∨ dt = .f64 := by
      cases dt <;> simp_all
    cases op
    all_goals first
      | rfl
      | exact absurd ⟨⟨_, rfl⟩, hd⟩ h

end

/-! ### C57 -/

/-- **C57.** On a surface grid on one process, the serial space and the distributed space made from the same grid and elements agree: in
the DOFs of every entity and every cell, the sizes, the elements, the colouring, and the global number and owner of every DOF. -/
theorem C57_serial_space {fs : FunctionSpace} {fam : CellType → ElementDofs} (h : SerialSpace fs fam) (hs : fs.grid.topologyDim = 2) :
    ∃ ls, LocalSpace.new fs.grid fam = some ls ∧
      ls.grid = fs.grid ∧ ls.isSerial = fs.isSerial ∧
      ls.localSize = fs.localSize ∧ ls.globalSize = fs.globalSize ∧
      (∀ d e, ls.getLocalDofNumbers d e = fs.getLocalDofNumbers d e) ∧
      (∀ c, ls.cellDofs c = fs.cellDofs c) ∧
      (∀ t, ls.element t = fs.element t) ∧
      ls.cellColouring = fs.cellColouring ∧
      ∀ i, i < fs.localSize → ls.globalDofIndex i = fs.globalDofIndex i ∧ ls.ownership i = fs.ownership i := by
  obtain ⟨nd, t, fo, -⟩ := h.family
  obtain ⟨s, e1, e2, e3, e4, -⟩ := C18_serial_space h.wf fo h.owned
  rw [h.made] at e1
  cases e1
  have hy : (FunctionSpace.new 0 1 fs.grid fam).Yields fs := by rw [h.made]; exact .done fs
  obtain ⟨dm, h1, h2, h3, h4, -, -, h5⟩ := new_local hy
  rw [hs] at h5
  have hel : ∀ t, Map.get? ((fs.grid.entityTypes 2).map fun t => (t, fam t)) t = fs.element t := by
    intro t
    unfold FunctionSpace.element
    rw [h5]
  refine ⟨⟨fs.grid, (fs.grid.entityTypes 2).map fun t => (t, fam t), dm.entityDofs, dm.cellDofs, dm.size⟩,
    by unfold LocalSpace.new; rw [h1]; rfl, rfl, e2.symm, h4.symm, ?_, ?_, ?_, ?_, ?_, ?_⟩
  · rw [e3, h4]; rfl
  · intro d e
    simp [LocalSpace.getLocalDofNumbers, FunctionSpace.getLocalDofNumbers, h2]
  · intro c
    simp [LocalSpace.cellDofs, FunctionSpace.cellDofs, h3]
  · exact hel
  · unfold LocalSpace.cellColouring FunctionSpace.cellColouring LocalSpace.element
    simp only [hel]
  · intro i hi
    rw [(e4 i hi).1, (e4 i hi).2]
    exact ⟨rfl, rfl⟩

/-! ### The hypotheses can be met -/

open Examples

/-- The P1 space on the octahedron, seen from Python: cell 4 has the DOFs of the vertices 5, 2, 1. -/
example : pyCellDofs octFs 4 = .ok (some [5, 2, 1]) ∧ pyCellDofs octFs 8 = .ok none ∧
    pyGetLocalDofNumbers octFs 0 3 = .ok [3] ∧ pyGlobalDofIndex octFs 5 = .ok 5 := by
  obtain ⟨h1, h2, h3⟩ := C55_python_space octFs_space.1
  refine ⟨?_, ?_, ?_, (h3 5 (by decide +kernel)).1⟩
  · rw [h2]; congr 1
  · rw [h2]; congr 1
  · obtain ⟨l, hl, h4⟩ := h1 0 3 (by decide) (by rw [octFs_space.2]; decide)
    rw [h4]
    have : octFs.getLocalDofNumbers 0 3 = some [3] := by decide +kernel
    rw [this] at hl
    cases hl
    rfl

/-- The single layer operator on the octahedron from Python: a 6 by 6 array. -/
example : ∃ a : PyAssembler Rat Rat, createLaplaceAssembler (kernelOf squareKernel) .singleLayer smallOptions .f64 = .ok a ∧
    ∃ A : NpArray Rat, (∀ out, PyAssemble exEnv a ⟨Examples.spaceOf octFs p1 octGeometry p1Basis, .f64⟩
      ⟨Examples.spaceOf octFs p1 octGeometry p1Basis, .f64⟩ out ↔ out = .ok A) ∧ A.shape0 = 6 ∧ A.shape1 = 6 := by
  obtain ⟨a, ha, A, hA, s0, s1, -⟩ := C56_laplace (octSpacePair octFs_space.1 octFs_space.2) (by decide)
    (kernelOf_computes squareKernel _) (kernelOf_computes squareKernel _) (op := .singleLayer) rfl (dt := .f64) (.inr rfl)
  have hs : octFs.globalSize = 6 := by decide +kernel
  exact ⟨a, ha, A, hA, s0.trans hs, s1.trans hs⟩

/-- The serial space on the octahedron. -/
example : ∃ ls, LocalSpace.new octFs.grid p1 = some ls ∧ ls.cellColouring = octFs.cellColouring := by
  obtain ⟨ls, h1, -, -, -, -, -, -, -, h2, -⟩ := C57_serial_space octFs_space.1 (by rw [octFs_space.2]; rfl)
  exact ⟨ls, h1, h2⟩

end Bempp
