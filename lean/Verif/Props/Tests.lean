import Verif.Proofs.TestsSingular
import Verif.Props.Families
import Verif.Proofs.ExampleSettings
import Mathlib.Data.List.Dedup
/-
C98: the project's own tests and its example program, for all grids, levels and degrees.
-/
set_option linter.unusedSectionVars false

namespace Bempp
open Tests

section
variable {T : Type} {s : Shape T} {t : CellType} {g : Grid} {pt cl : Nat → Nat} {fam : CellType → ElementDofs}
  {k : Nat → Nat} {nd : Nat → Nat → Nat}

/-- **C98.** `run_test` and `run_test_rt` pass on every grid that is on one process, for every element family that fits the grid. -/
theorem C98_run_test (wf : g.WF) (fo : FamilyOn g fam nd) (ho : g.AllOwned) : runTest g fam = some () := by
  obtain ⟨fs, hn, -⟩ := C18_serial_space wf fo ho
  have hy : (FunctionSpace.new 0 1 g fam).Yields fs := by rw [hn]; exact .done fs
  obtain ⟨dm, h1, h2, h3, h4, -⟩ := new_local hy
  obtain ⟨dm', h1', inv, -⟩ := assignDofs_inv 0 g fam nd wf fo
  rw [h1] at h1'
  cases h1'
  unfold runTest
  rw [h1, Option.bind_eq_bind, Option.bind_some, forEach_ok fun o ho' => assert_ok (owned_of_allOwned wf ho inv o ho')]
  have hrow : ∀ d ∈ dm.cellDofs, d.Nodup ∧ ∀ n ∈ d, n < dm.size := by
    intro d hd
    obtain ⟨i, hi⟩ := List.getElem?_of_mem hd
    have hc : fs.cellDofs i = some d := by rw [cellDofs_eq, h3, hi]
    obtain ⟨a, b⟩ := C03_cell_dofs wf fo hy
    obtain ⟨c, hcm, rfl⟩ := (a i).mp (by rw [hc]; rfl)
    obtain ⟨cd, e1, -, e2, e3⟩ := b c hcm
    rw [hc] at e1
    cases e1
    exact ⟨e2, by rw [← h4]; exact e3⟩
  have hcell : (forEach dm.cellDofs fun d => forEach d.zipIdx fun ni => do
      assert (ni.1 < dm.size)
      forEach (d.drop (ni.2 + 1)) fun m => assert (ni.1 ≠ m)) = some () := by
    refine forEach_ok fun d hd => forEach_ok fun ni hni => ?_
    obtain ⟨a, b⟩ := hrow d hd
    have hm : ni.1 ∈ d := by
      have := List.mem_zipIdx hni
      rw [this.2.2]
      exact List.getElem_mem _
    rw [assert_ok (b _ hm)]
    exact forEach_ok fun m hm' => assert_ok (zipIdx_nodup a hni m hm')
  simp only [Option.bind_eq_bind, Option.bind_some] at hcell ⊢
  rw [hcell]
  refine forEach_ok fun X hX => forEach_ok fun l hl => forEach_ok fun n hn' => assert_ok ?_
  obtain ⟨d, hd⟩ := List.getElem?_of_mem hX
  obtain ⟨e, he⟩ := List.getElem?_of_mem hl
  rw [← h4]
  refine (C01_numbering_bijection wf fo hy).2.2 d e l ?_ n hn'
  simp [FunctionSpace.getLocalDofNumbers, h2, hd, he]

/-- **C98.** The tests of the sizes of spaces, in Rust and in Python: the size is the number of entities that carry a DOF, for a space with one
DOF on each entity of the given types. -/
theorem C98_sizes (h : Built s t g pt cl) (hf : (fam t).Uniform t k) {types : List CellType}
    (ht : (types.map g.entityCount).sum = k 0 * g.entityCount .point + k 1 * g.entityCount .interval + k 2 * g.entityCount t) :
    dofmap g fam types = some () ∧ createSpace g fam types = some () := by
  obtain ⟨fs, h1, -, -, h3, h4, h5⟩ := space_of h hf
  rw [count0 h.wf, count1 h.wf, count2 h] at ht
  constructor
  · unfold dofmap
    rw [h1, Option.bind_eq_bind, Option.bind_some, assert_ok h4.symm]
    exact assert_ok (by rw [h5, ht])
  · unfold createSpace
    rw [h1, Option.bind_eq_bind, Option.bind_some, assert_ok (by rw [h5, ht])]
    simp only [Option.bind_eq_bind, Option.bind_some]
    rw [assert_ok h4.symm]
    exact assert_ok h3

/-- **C98.** The spaces of the tests of the sizes: piecewise constants, continuous piecewise linear and continuous piecewise quadratic
functions. -/
theorem C98_sizes_of_families (h : Built s .triangle g pt cl) :
    ((fam .triangle).Uniform .triangle ((StandardFamily.discontinuous 0).counts .triangle) →
      dofmap g fam [.triangle] = some () ∧ createSpace g fam [.triangle] = some ()) ∧
    ((fam .triangle).Uniform .triangle ((StandardFamily.lagrange 1).counts .triangle) →
      dofmap g fam [.point] = some () ∧ createSpace g fam [.point] = some ()) ∧
    ((fam .triangle).Uniform .triangle ((StandardFamily.lagrange 2).counts .triangle) →
      dofmap g fam [.point, .interval] = some () ∧ createSpace g fam [.point, .interval] = some ()) := by
  refine ⟨fun hf => C98_sizes h hf ?_, fun hf => C98_sizes h hf ?_, fun hf => C98_sizes h hf ?_⟩ <;>
    simp [StandardFamily.counts, trianglePolynomials]

/-- **C98.** The test of the colouring of a space with DOFs on the vertices. `hi`: the grid goes through its cells in the order of their
numbers. -/
theorem C98_colouring_p1 (h : Built s .triangle g pt cl) (hf : (fam .triangle).Uniform .triangle k) (h0 : 0 < k 0)
    (hi : (g.entityIter 2).map Entity.localIndex = List.range (g.count 2)) : colouringP1 g fam = some () := by
  obtain ⟨fs, col, cols, h1, h2, h3, h4, h5, -⟩ := coloured h hf (e := 0) (by omega) (by omega) h0
  have hcell : ∀ ci ∈ cols, ∀ a ∈ ci, ∃ c ∈ g.entityIter 2, (g.entityIter 2)[a]? = some c ∧ c.localIndex = a := by
    intro ci hci a ha
    have hlt : a < g.count 2 := List.mem_range.mp (h4.subset (List.mem_flatten.mpr ⟨ci, hci, ha⟩))
    have hl : (g.entityIter 2).length = g.count 2 := by
      have := congrArg List.length hi
      simpa using this
    have hl' : a < (g.entityIter 2).length := by omega
    refine ⟨(g.entityIter 2)[a], List.getElem_mem _, List.getElem?_eq_getElem hl', ?_⟩
    have : ((g.entityIter 2).map Entity.localIndex)[a]? = (List.range (g.count 2))[a]? := by rw [hi]
    rw [List.getElem?_map, List.getElem?_eq_getElem hl', List.getElem?_range hlt] at this
    simpa using this
  unfold colouringP1
  simp only [h1, h2, h3, Option.bind_eq_bind, Option.bind_some, parts_ok h h4]
  refine forEach_ok fun ci hci => forEach_ok fun a ha => forEach_ok fun b hb => ?_
  split
  · rename_i hne
    obtain ⟨c, hc, e1, e2⟩ := hcell ci hci a ha
    obtain ⟨c', hc', e1', e2'⟩ := hcell ci hci b hb
    rw [e1, Option.bind_some]
    refine forEach_ok fun v hv => ?_
    rw [e1', Option.bind_some]
    refine forEach_ok fun v' hv' => assert_ok ?_
    rintro rfl
    exact h5 ci hci c hc c' hc' (by rw [e2]; exact ha) (by rw [e2']; exact hb) (by rw [e2, e2']; exact hne) v hv hv'
  · rfl

/-- **C98.** The test of the colouring of a space without DOFs on vertices and edges. -/
theorem C98_colouring_dp0 (h : Built s .triangle g pt cl) (hf : (fam .triangle).Uniform .triangle k) (h0 : k 0 = 0) (h1 : k 1 = 0)
    (hc : 0 < g.count 2) : colouringDp0 g fam = some () := by
  have h2 : 0 < k 2 := by have := hf.some; omega
  obtain ⟨fs, col, cols, e1, e2, e3, e4, -, e6⟩ := coloured h hf (e := 2) (by omega)
    (fun d hd => by rcases (by omega : d = 0 ∨ d = 1) with rfl | rfl <;> assumption) h2
  unfold colouringDp0
  simp only [e1, e2, e3, Option.bind_eq_bind, Option.bind_some, parts_ok h e4]
  exact assert_ok (e6 rfl hc)

/-- **C98.** The test of the colouring of a space with DOFs on the edges but not on the vertices. -/
theorem C98_colouring_rt1 (h : Built s .triangle g pt cl) (hf : (fam .triangle).Uniform .triangle k) (h0 : k 0 = 0) (h1 : 0 < k 1) :
    colouringRt1 g fam = some () := by
  obtain ⟨fs, col, cols, e1, e2, e3, e4, e5, -⟩ := coloured h hf (e := 1) (by omega)
    (fun d hd => by rw [show d = 0 by omega]; exact h0) h1
  have hcell : ∀ ci ∈ cols, ∀ a ∈ ci, ∃ c ∈ g.entityIter 2, g.entity 2 a = some c ∧ c.localIndex = a := by
    intro ci hci a ha
    have hlt : a < g.count 2 := List.mem_range.mp (e4.subset (List.mem_flatten.mpr ⟨ci, hci, ha⟩))
    obtain ⟨c, hc, hca, he⟩ := entity_exists g h.wf (d := 2) (le_refl 2) hlt
    exact ⟨c, hc, he, hca⟩
  unfold colouringRt1
  simp only [e1, e2, e3, Option.bind_eq_bind, Option.bind_some, parts_ok h e4]
  refine forEach_ok fun ci hci => forEach_ok fun a ha => forEach_ok fun b hb => ?_
  split
  · rename_i hne
    obtain ⟨c, hc, f1, f2⟩ := hcell ci hci a ha
    obtain ⟨c', hc', f1', f2'⟩ := hcell ci hci b hb
    rw [f1, Option.bind_some]
    refine forEach_ok fun v hv => ?_
    rw [f1', Option.bind_some]
    refine forEach_ok fun v' hv' => assert_ok ?_
    rintro rfl
    exact e5 ci hci c hc c' hc' (by rw [f2]; exact ha) (by rw [f2']; exact hb) (by rw [f2, f2']; exact hne) v hv hv'
  · rfl

/-- **C98.** The tests of the grid, the element and the DOFs that a space gives back in Python, for every space. -/
theorem C98_python_accessors (h : Built s .triangle g pt cl) (hf : (fam .triangle).Uniform .triangle k) :
    gridTest g fam = some () ∧ elementTest g fam = some () ∧ globalDofs g fam = some () ∧ ownership g fam = some () := by
  obtain ⟨fs, h1, hs, hg, h3, h4, h5⟩ := space_of h hf
  have hy : (FunctionSpace.new 0 1 g fam).Yields fs := by
    have := hs.made
    rw [hg] at this
    rw [this]; exact .done fs
  obtain ⟨-, -, hpy⟩ := C55_python_space hs
  refine ⟨?_, ?_, ?_, ?_⟩
  · unfold gridTest
    simp only [h1, Option.bind_eq_bind, Option.bind_some, hg]
    rw [assert_ok h.wf.tdim, Option.bind_some, assert_ok h.surface.1, Option.bind_some]
    exact forEach_ok fun e _ => assert_ok trivial
  · unfold elementTest
    obtain ⟨-, -, -, -, -, -, -, hel⟩ := new_local hy
    have : fs.element .triangle = some (fam .triangle) := by
      simp [FunctionSpace.element, hel, h.wf.tdim, h.types, Map.get?]
    simp only [h1, Option.bind_eq_bind, Option.bind_some, this]
    rw [assert_ok trivial, Option.bind_some]
  · unfold globalDofs
    simp only [h1, Option.bind_eq_bind, Option.bind_some]
    rw [assert_ok h4.symm, Option.bind_some]
    refine forEach_ok fun i hi => ?_
    rw [(hpy i (List.mem_range.mp hi)).1]
    exact assert_ok rfl
  · unfold ownership
    simp only [h1, Option.bind_eq_bind, Option.bind_some]
    rw [assert_ok h4.symm, Option.bind_some]
    refine forEach_ok fun i hi => ?_
    rw [(hpy i (List.mem_range.mp hi)).2]
    exact assert_ok rfl

/-- **C98.** The tests of the numbers of DOFs on entities and of cells in Python, for Lagrange elements of every degree. -/
theorem C98_python_dofs {p : Nat} (_ : 0 < p) (h : Built s .triangle g pt cl)
    (hf : (fam .triangle).Uniform .triangle ((StandardFamily.lagrange p).counts .triangle))
    (hd : (fam .triangle).dim = (p + 1) * (p + 2) / 2) :
    getLocalDofNumbers g fam p = some () ∧ cellDofs g fam p = some () := by
  obtain ⟨fs, h1, hs, hg, h3, h4, h5⟩ := space_of h hf
  have hy : (FunctionSpace.new 0 1 g fam).Yields fs := by
    have := hs.made
    rw [hg] at this
    rw [this]; exact .done fs
  obtain ⟨hl, hc, -⟩ := C55_python_space hs
  rw [hg] at hl
  constructor
  · unfold getLocalDofNumbers
    simp only [h1, Option.bind_eq_bind, Option.bind_some]
    have key : ∀ d n, d ≤ 2 → (StandardFamily.lagrange p).counts .triangle d = n → ∀ i, i < g.count d →
        ((py (pyGetLocalDofNumbers fs d i)).bind fun l => assert (l.length = n)) = some () := by
      intro d n hd' hn i hi
      obtain ⟨l, e1, e2⟩ := hl d i hd' hi
      rw [e2]
      exact assert_ok (by rw [length_of h hf hy hd' hi e1, hn])
    rw [forEach_ok fun i hi => key 0 1 (by omega) rfl i (by rw [← count0 h.wf]; exact List.mem_range.mp hi), Option.bind_some,
      forEach_ok fun i hi => key 1 (p - 1) (by omega) rfl i (by rw [← count1 h.wf]; exact List.mem_range.mp hi), Option.bind_some]
    exact forEach_ok fun i hi => key 2 _ (by omega) rfl i (by rw [← count2 h]; exact List.mem_range.mp hi)
  · unfold cellDofs
    simp only [h1, Option.bind_eq_bind, Option.bind_some]
    refine forEach_ok fun i hi => ?_
    obtain ⟨c, hcm, hci, -⟩ := entity_exists g h.wf (d := 2) (le_refl 2) (by rw [← count2 h]; exact List.mem_range.mp hi)
    obtain ⟨cd, e1, e2, -⟩ := (C03_cell_dofs h.wf (h.family hf) hy).2 c hcm
    rw [hc, ← hci, e1]
    exact assert_ok (by rw [e2, h.cell_type hcm, hd])

end

/-- **C98.** The test of the options in Python, for all degrees that are not the default ones, and for all batch sizes. -/
theorem C98_create_assembler {R T : Type} [Add T] [Sub T] [Mul T] [Div T] [Neg T] (kernel : Kernel R T) {n b : Nat} (h37 : n ≠ 37)
    (h4 : n ≠ 4) : createAssembler kernel n b = some () := by
  have e1 : Options.default.getRegularQuadratureDegree .triangle ≠ some n := by
    rw [show Options.default.getRegularQuadratureDegree .triangle = some 37 from rfl]
    exact fun h => h37 (Option.some_inj.mp h).symm
  have e2 : (Options.default.setRegularQuadratureDegree .triangle n).getSingularQuadratureDegree (.triangle, .triangle) ≠ some n := by
    rw [show (Options.default.setRegularQuadratureDegree .triangle n).getSingularQuadratureDegree (.triangle, .triangle) = some 4 from rfl]
    exact fun h => h4 (Option.some_inj.mp h).symm
  show ((assert (Options.default.getRegularQuadratureDegree .triangle ≠ some n)).bind fun _ => _) = _
  rw [assert_ok e1, Option.bind_some]
  show ((assert (some n = some n)).bind fun _ => (assert ((none : Option Nat) = none)).bind fun _ =>
    (assert ((Options.default.setRegularQuadratureDegree .triangle n).getSingularQuadratureDegree (.triangle, .triangle) ≠ some n)).bind
      fun _ => _) = _
  rw [assert_ok rfl, Option.bind_some, assert_ok rfl, Option.bind_some, assert_ok e2, Option.bind_some]
  show ((assert (some n = some n)).bind fun _ => (assert (b = b)).bind fun _ => assert (DType.f64 = DType.f64)) = _
  rw [assert_ok rfl, Option.bind_some, assert_ok rfl, Option.bind_some, assert_ok rfl]

section
variable {R T : Type} [Zero R] [Mul R] [Neg R] [AddCommMonoid T] [Mul T] [Sub T] [Div T] [Neg T]
  {env : Env R T} {trial test : Space R T} {o : Options} {famT famR : CellType → ElementDofs} {K : MathKernel R T}
  {GT GR : Geometry R} {BT BR : Basis R T} {Q : Quadrature R} {t : CellType} {kernel : Kernel R T} {S : Type}

/-- **C98.** In a space without DOFs on vertices and edges every DOF belongs to one cell. -/
theorem C98_one_cell {s : Shape S} {g : Grid} {pt cl : Nat → Nat} {fam : CellType → ElementDofs} {k : Nat → Nat}
    (h : Built s t g pt cl) (hf : (fam t).Uniform t k) (h0 : k 0 = 0) (h1 : k 1 = 0) {fs : FunctionSpace}
    (hn : FunctionSpace.new 0 1 g fam = .done fs) : fs.OneCell := by
  have hy : (FunctionSpace.new 0 1 g fam).Yields fs := by rw [hn]; exact .done fs
  obtain ⟨-, -, -, -, -, hg, -⟩ := new_local hy
  intro c hc c' hc' cd cd' n e1 e2 m1 m2
  rw [hg] at hc hc'
  obtain ⟨d, e, hd, he, he', hp⟩ := (C04_shared_dofs h.wf (h.family hf) hy c c' hc hc').mp ⟨cd, cd', n, e1, e2, m1, m2⟩
  rcases (by omega : d = 0 ∨ d = 1 ∨ d = 2) with rfl | rfl | rfl
  · rw [h0] at hp; omega
  · rw [h1] at hp; omega
  · rw [h.wf.sub_self c hc, List.mem_singleton] at he
    rw [h.wf.sub_self c' hc', List.mem_singleton] at he'
    omega

/-- **C98.** The test of the singular part passes in every run, for the four Laplace operators, whenever every DOF belongs to one cell: what
the sparse matrix stores is the entry of the dense matrix at the same place. -/
theorem C98_assemble_singular (h : SpacePair env o trial test famT famR GT GR BT BR Q t) (hb : 0 < o.batchSize)
    (h1 : kernel.Computes .value K) (h2 : kernel.Computes .valueDeriv K) {op : PyOperator} {F : MathIntegrand T}
    (hF : laplaceIntegrand op = some F) {dt : DType} (hd : dt = .f32 ∨ dt = .f64) (hf : FromAijOk env) (hst : FromAijStored env)
    (o1 : test.fs.OneCell) (o2 : trial.fs.OneCell) {isclose : T → T → Prop} (hc : ∀ x, isclose x x) :
    ∃ a : PyAssembler R T, createLaplaceAssembler kernel op o dt = .ok a ∧ AssembleSingularTest env isclose a ⟨trial, dt⟩ ⟨test, dt⟩ := by
  obtain ⟨a, ha, A, hA, s0, s1, hi⟩ := C56_laplace h hb h1 h2 hF hd
  refine ⟨a, ha, ?_⟩
  obtain ⟨had, hw⟩ : a.dtype = dt ∧ OperatorWith env.cast o K a.asm F := by
    unfold createLaplaceAssembler at ha
    rw [if_neg (by rcases hd with rfl | rfl <;> decide)] at ha
    cases op <;> simp only [laplaceIntegrand, Option.some.injEq, reduceCtorEq] at hF <;> subst hF <;> cases ha
    · exact ⟨rfl, .laplaceSingleLayer h1⟩
    · exact ⟨rfl, .laplaceDoubleLayer h2⟩
    · exact ⟨rfl, .laplaceAdjoint h2⟩
    · exact ⟨rfl, .laplaceHypersingular h2⟩
  obtain ⟨hcomp, hopt⟩ := hw.computes
  obtain ⟨m, m1, m2, m3⟩ := stored_touching (h.dense hopt hcomp) (by rw [hopt]; exact hb) hf hst o1 o2
  have hp := C56_python_singular (env := env) (a := a) (trial := ⟨trial, dt⟩) (test := ⟨test, dt⟩) m1 had.symm had.symm
    (by rw [had]; exact hd)
  refine ⟨⟨_, (hp _).mpr rfl⟩, ⟨_, (hA _).mpr rfl⟩, ?_⟩
  intro mat dense hmat hdense
  refine ⟨_, _, A, (hp _).mp hmat, (hA _).mp hdense, ?_⟩
  intro x hx
  unfold tocoo at hx
  simp only [List.mem_flatMap, List.mem_map, List.mem_range, m2] at hx
  obtain ⟨i, hi', y, hy, rfl⟩ := hx
  obtain ⟨q1, q2⟩ := (m3 i hi').2 y hy
  exact ⟨_, hi i y.1 hi' q1, by rw [q2]; exact hc _⟩

/-- **C98.** The example program never panics: on the sphere of level `n` it prints a square matrix with `4^(n+1)+2` lines, whose entries are
the Galerkin sums. -/
theorem C98_example [Zero S] [One S] [Neg S] [Add S] [Mul S] [Div S] {half : S} {sqrt : S → S} {n : Nat} {s : Shape S} {g : Grid}
    {pt cl : Nat → Nat} {fam : CellType → ElementDofs} {space : Space R T} {G : Geometry R} {B : Basis R T}
    (hs : regularSphere half sqrt n = some s) (hg : Built s .triangle g pt cl)
    (hf : (fam .triangle).Uniform .triangle ((StandardFamily.lagrange 1).counts .triangle))
    (hn : FunctionSpace.new 0 1 g fam = .done space.fs)
    (h : SpacePair env exampleOptions space space fam fam G G B B Q .triangle) (h1 : kernel.Computes .value K) :
    ∃ lines : List (List T), (∀ out, ExampleProgram env kernel space out ↔ out = some lines) ∧ lines.length = 4 ^ (n + 1) + 2 ∧
      (∀ l ∈ lines, l.length = 4 ^ (n + 1) + 2) ∧ ∀ i j, i < 4 ^ (n + 1) + 2 → j < 4 ^ (n + 1) + 2 →
        (lines[i]?).bind (·[j]?) = some (doubleSum space.fs space.fs (cellPairValue env.cast slF K G G B B Q space.fs space.fs) i j) := by
  obtain ⟨fs, e1, e2⟩ := C96_sphere half sqrt (.lagrange 1) (by show 0 < 1; omega) hs hg hf
  rw [hn] at e1
  cases e1
  have e2 : space.fs.globalSize = 4 ^ (n + 1) + 2 := by simpa using e2
  obtain ⟨M, hM, hl, hv⟩ := C14_operators (asm := Laplace.singleLayer kernel exampleOptions) h (.laplaceSingleLayer h1) (by decide)
  rw [e2] at hv hl
  refine ⟨(List.range (4 ^ (n + 1) + 2)).map fun i => (List.range (4 ^ (n + 1) + 2)).map fun j =>
    doubleSum space.fs space.fs (cellPairValue env.cast slF K G G B B Q space.fs space.fs) i j, ?_, by simp, by simp, ?_⟩
  · intro out
    unfold ExampleProgram
    simp only [hM, exists_eq_left, Option.bind_some]
    have : printed space.fs.globalSize space.fs.globalSize M = some ((List.range (4 ^ (n + 1) + 2)).map fun i =>
        (List.range (4 ^ (n + 1) + 2)).map fun j =>
        doubleSum space.fs space.fs (cellPairValue env.cast slF K G G B B Q space.fs space.fs) i j) := by
      unfold printed
      rw [e2]
      have key : ∀ (α : Type) (l : List Nat) (f : Nat → Option α) (g : Nat → α), (∀ i ∈ l, f i = some (g i)) → l.mapM f = some (l.map g) := by
        intro α l f g hfg
        induction l with
        | nil => rfl
        | cons a l ih =>
          rw [List.mapM_cons, hfg a (by simp), ih fun i hi => hfg i (by simp [hi])]
          rfl
      exact key _ _ _ _ fun i hi => key _ _ _ _ fun j hj => hv i j (List.mem_range.mp hi) (List.mem_range.mp hj)
    rw [this]
  · intro i j hi hj
    rw [List.getElem?_map, List.getElem?_range hi, Option.map_some, Option.bind_some, List.getElem?_map, List.getElem?_range hj]
    rfl

end

section Example
open Examples

/-- A conversion to compressed row format that adds up the triplets at one position. -/
def csrSum {T : Type} [Zero T] [Add T] (shape : Nat × Nat) (rows cols : List Nat) (data : List T) : Csr T :=
  let row (i : Nat) : List Nat := (((rows.zip cols).filter fun x => x.1 = i).map Prod.snd).dedup
  { shape
    indices := (List.range shape.1).flatMap row
    indptr := (List.range (shape.1 + 1)).map fun i => ((List.range i).map fun k => (row k).length).sum
    data := (List.range shape.1).flatMap fun i => (row i).map fun j => tripletSum rows cols data i j }

theorem csrSum_row {T : Type} [Zero T] [Add T] (shape : Nat × Nat) (rows cols : List Nat) (data : List T) {i : Nat} (hi : i < shape.1) :
    (csrSum shape rows cols data).storedRow i = ((((rows.zip cols).filter fun x => x.1 = i).map Prod.snd).dedup).map fun j =>
      (j, tripletSum rows cols data i j) := by
  have hz : ∀ (l : List Nat) (f : Nat → List Nat) (v : Nat → Nat → T),
      (l.flatMap f).zip (l.flatMap fun i => (f i).map (v i)) = l.flatMap fun i => (f i).map fun j => (j, v i j) := by
    intro l f v
    induction l with
    | nil => rfl
    | cons a l ih =>
      rw [List.flatMap_cons, List.flatMap_cons, List.flatMap_cons, List.zip_append (by simp), ih]
      congr 1
      generalize f a = m
      induction m with
      | nil => rfl
      | cons x m ih => simp [ih]
  have hp : ∀ k, k < shape.1 + 1 → (csrSum shape rows cols data).indptr.getD k 0 =
      ((List.range k).map fun k => (((((rows.zip cols).filter fun x => x.1 = k).map Prod.snd).dedup).map fun j =>
        (j, tripletSum rows cols data k j)).length).sum := by
    intro k hk
    simp [csrSum, List.getD, List.getElem?_range hk]
  unfold Csr.storedRow
  rw [hp _ (by omega), hp _ (by omega)]
  simp only [csrSum]
  rw [hz, take_drop_flatMap _ _ hi]

theorem csrSum_ok {R T : Type} [AddCommMonoid T] (env : Env R T) (h : env.fromAij = fun s r c d => some (csrSum s r c d)) :
    FromAijOk env ∧ FromAijStored env := by
  constructor
  · intro shape rows cols data hr hc hrl hcl
    refine ⟨csrSum shape rows cols data, by rw [h], rfl, by simp [csrSum], ?_, ?_⟩
    · intro c hc
      simp only [csrSum, List.mem_flatMap, List.mem_dedup, List.mem_map, List.mem_filter] at hc
      obtain ⟨i, _, x, ⟨hx, _⟩, rfl⟩ := hc
      exact hcl _ (List.of_mem_zip hx).2
    · intro i j hi
      have e : (csrSum shape rows cols data).entry i j = (((csrSum shape rows cols data).storedRow i).map fun x =>
          if x.1 = j then x.2 else 0).sum := rfl
      rw [e, csrSum_row _ _ _ _ hi, List.map_map]
      by_cases hm : j ∈ (((rows.zip cols).filter fun x => x.1 = i).map Prod.snd).dedup
      · rw [sum_single (List.nodup_dedup _) hm]
        · simp
        · intro b _ hne
          simp [hne]
      · rw [sum_zero]
        · unfold tripletSum
          refine (sum_zero fun x hx => if_neg fun hxe => hm ?_).symm
          rw [List.mem_dedup]
          refine List.mem_map.mpr ⟨x.1, List.mem_filter.mpr ⟨(List.of_mem_zip hx).1, by simp [hxe]⟩, by rw [hxe]⟩
        · intro b hb
          simp only [Function.comp]
          refine if_neg fun hbj => hm ?_
          have hbj : b = j := hbj
          rw [← hbj]
          exact hb
  · intro shape rows cols data hr hc hrl hcl m hm i hi
    rw [h] at hm
    have hm : m = csrSum shape rows cols data := (Option.some_inj.mp hm).symm
    subst hm
    rw [csrSum_row _ _ _ _ hi]
    constructor
    · rw [List.map_map]
      have : (Prod.fst ∘ fun j => (j, tripletSum rows cols data i j)) = id := rfl
      rw [this, List.map_id]
      exact List.nodup_dedup _
    · intro x hx
      obtain ⟨j, hj, rfl⟩ := List.mem_map.mp hx
      rw [List.mem_dedup] at hj
      obtain ⟨y, hy, rfl⟩ := List.mem_map.mp hj
      obtain ⟨hy1, hy2⟩ := List.mem_filter.mp hy
      have : y.1 = i := of_decide_eq_true hy2
      exact ⟨by rw [← this]; exact hy1, rfl⟩

/-- Sixteen regular nodes and two singular pairs of nodes, as the example asks for. -/
def rules16 : Quadrature Rat := { smallRules with regular := fun _ => List.replicate 16 ([1/3, 1/3], 1/32) }

/-- External functions with these rules. -/
def testEnv : Env Rat Rat := envOf id rules16 (fun x => decide (1/10000000000 < |x|)) fun shape rows cols data => some (csrSum shape rows cols data)

/-- The pairs of spaces on a sphere. -/
theorem spherePair {n : Nat} {s : Shape Int} {g : Grid} {pt cl : Nat → Nat} (hs : regularSphere (1 : Int) id n = some s)
    (hb : Built s .triangle g pt cl) {famT famR : CellType → ElementDofs} {kT kR : Nat → Nat} (hT : (famT .triangle).Uniform .triangle kT)
    (hR : (famR .triangle).Uniform .triangle kR) {fT fR : FunctionSpace} (eT : FunctionSpace.new 0 1 g famT = .done fT)
    (eR : FunctionSpace.new 0 1 g famR = .done fR) :
    SpacePair testEnv exampleOptions (Examples.spaceOf fR famR octGeometry p1Basis) (Examples.spaceOf fT famT octGeometry p1Basis) famT famR
      octGeometry octGeometry p1Basis p1Basis rules16 .triangle := by
  obtain ⟨-, -, -, -, hall⟩ := C47_conforming (1 : Int) id (fun k => (k : Int)) (.inl ⟨hs, rfl⟩)
  obtain ⟨-, -, -, hev⟩ := hall g pt cl hb
  obtain ⟨fT', eT', sT, gT, -⟩ := hb.space hT
  obtain ⟨fR', eR', sR, gR, -⟩ := hb.space hR
  rw [eT] at eT'
  rw [eR] at eR'
  cases eT'
  cases eR'
  refine ⟨sT, sR, ?_, ?_, ?_, ?_, spaceOf_geometry _ _ _ _, spaceOf_geometry _ _ _ _, spaceOf_tabulate _ _ _ _, spaceOf_tabulate _ _ _ _,
    ⟨by decide, rfl, ?_⟩, fun _ => ⟨?_, rfl, ?_, ?_, ⟨4, by decide, fun _ _ => rfl⟩, ?_⟩⟩
  · show fT.grid.entityTypes 2 = _; rw [gT]; exact hb.types
  · show fR.grid.entityTypes 2 = _; rw [gR]; exact hb.types
  · show Surface fT.grid; rw [gT]; exact hb.surface
  · show Surface fR.grid; rw [gR]; exact hb.surface
  · intro p hp
    rw [(List.mem_replicate.mp hp).2]
    rfl
  · show fR.grid = fT.grid
    rw [gT, gR]
  · show fT.grid.Vertices; rw [gT]; exact hb.vertices
  · show ∃ ev, fT.grid.Edges ev ∧ fT.grid.Conforming ev; rw [gT]; exact hev
  · intro con _ p hp
    simp only [rules16, smallRules, List.mem_cons, List.not_mem_nil, or_false] at hp
    rcases hp with rfl | rfl <;> exact ⟨rfl, rfl⟩

/-- All tests of spaces at once: on the spheres of all levels, for all standard elements that have the required DOFs. -/
example (n : Nat) : ∃ (s : Shape Int) (g : Grid) (pt cl : Nat → Nat), regularSphere (1 : Int) id n = some s ∧ Built s .triangle g pt cl ∧
    (∀ F : StandardFamily, F.Valid → runTest g (layeredElement (F.counts .triangle)) = some ()) ∧
    dofmap g (layeredElement ((StandardFamily.discontinuous 0).counts .triangle)) [.triangle] = some () ∧
    dofmap g (layeredElement ((StandardFamily.lagrange 1).counts .triangle)) [.point] = some () ∧
    dofmap g (layeredElement ((StandardFamily.lagrange 2).counts .triangle)) [.point, .interval] = some () ∧
    (∀ p, 0 < p → colouringP1 g (layeredElement ((StandardFamily.lagrange p).counts .triangle)) = some () ∧
      getLocalDofNumbers g (layeredElement ((StandardFamily.lagrange p).counts .triangle)) p = some () ∧
      cellDofs g (layeredElement ((StandardFamily.lagrange p).counts .triangle)) p = some () ∧
      colouringRt1 g (layeredElement ((StandardFamily.raviartThomas p).counts .triangle)) = some ()) ∧
    ∀ p, colouringDp0 g (layeredElement ((StandardFamily.discontinuous p).counts .triangle)) = some () := by
  obtain ⟨s, hs, -⟩ := C30_sizes (1 : Int) id n
  obtain ⟨h1, h2, h3, -, -, h4⟩ := sphere_input (1 : Int) id n hs
  have hpos : 0 < 4 ^ n := Nat.pow_pos (by omega)
  have hne : s.cells ≠ [] := by
    intro e
    rw [e] at h4
    simp at h4
  have hb := gridOf_built s .triangle 0 (.inl rfl) hne h1 h2
  have u := fun (F : StandardFamily) (hF : F.Valid) => C96_elements F hF .triangle (.inl rfl)
  have c2 := gridOf_count2 s .triangle 0 hne (.inl rfl)
  refine ⟨s, gridOf s .triangle 0, id, id, hs, hb, fun F hF => C98_run_test hb.wf (hb.family (u F hF).1) hb.owned,
    ((C98_sizes_of_families hb).1 (u (.discontinuous 0) trivial).1).1, ((C98_sizes_of_families hb).2.1 (u (.lagrange 1) (by show 0 < 1; omega)).1).1,
    ((C98_sizes_of_families hb).2.2 (u (.lagrange 2) (by show 0 < 2; omega)).1).1, fun p hp => ⟨?_, ?_, ?_, ?_⟩, fun p => ?_⟩
  · refine C98_colouring_p1 hb (u (.lagrange p) hp).1 (by show 0 < 1; omega) ?_
    rw [c2, gridOf_cells, List.map_map, List.range_eq_range', ← List.zipIdx_map_snd 0 s.cells]
    rfl
  · exact (C98_python_dofs hp hb (u (.lagrange p) hp).1 (u (.lagrange p) hp).2).1
  · exact (C98_python_dofs hp hb (u (.lagrange p) hp).1 (u (.lagrange p) hp).2).2
  · exact C98_colouring_rt1 hb (u (.raviartThomas p) hp).1 rfl hp
  · exact C98_colouring_dp0 hb (u (.discontinuous p) trivial).1 rfl rfl (by rw [c2, h4]; omega)

/-- The test of the singular part of the hypersingular operator, on the spheres of all levels, for discontinuous spaces of all degrees. -/
example (n p q : Nat) : ∃ trial test : Space Rat Rat, trial.fs.globalSize = (p + 1) * (p + 2) * 4 ^ (n + 1) ∧
    test.fs.globalSize = (q + 1) * (q + 2) * 4 ^ (n + 1) ∧
    ∃ a, createLaplaceAssembler (kernelOf squareKernel) .hypersingular exampleOptions .f64 = .ok a ∧
      AssembleSingularTest testEnv Eq a ⟨trial, .f64⟩ ⟨test, .f64⟩ := by
  obtain ⟨s, hs, -⟩ := C30_sizes (1 : Int) id n
  obtain ⟨-, -, -, ⟨g, pt, cl, hb⟩, -⟩ := C47_conforming (1 : Int) id (fun k => (k : Int)) (.inl ⟨hs, rfl⟩)
  have up := (C96_elements (.discontinuous p) trivial .triangle (.inl rfl)).1
  have uq := (C96_elements (.discontinuous q) trivial .triangle (.inl rfl)).1
  obtain ⟨fp, e1, e2⟩ := C96_sphere _ _ (.discontinuous p) trivial hs hb up
  obtain ⟨fq, e1', e2'⟩ := C96_sphere _ _ (.discontinuous q) trivial hs hb uq
  obtain ⟨f1, f2⟩ := csrSum_ok testEnv rfl
  exact ⟨_, _, e2, e2', C98_assemble_singular (spherePair hs hb uq up e1' e1) (by decide) (kernelOf_computes squareKernel _)
    (kernelOf_computes squareKernel _) (op := .hypersingular) rfl (.inr rfl) f1 f2 (C98_one_cell hb uq rfl rfl e1') (C98_one_cell hb up rfl rfl e1)
    (isclose := Eq) fun _ => rfl⟩

/-- The example program on the spheres of all levels. -/
example (n : Nat) : ∃ (space : Space Rat Rat) (lines : List (List Rat)),
    (∀ out, ExampleProgram testEnv (kernelOf squareKernel) space out ↔ out = some lines) ∧ lines.length = 4 ^ (n + 1) + 2 := by
  obtain ⟨s, hs, -⟩ := C30_sizes (1 : Int) id n
  obtain ⟨-, -, -, ⟨g, pt, cl, hb⟩, -⟩ := C47_conforming (1 : Int) id (fun k => (k : Int)) (.inl ⟨hs, rfl⟩)
  have u := (C96_elements (.lagrange 1) (by show 0 < 1; omega) .triangle (.inl rfl)).1
  obtain ⟨fs, e1, -⟩ := C96_sphere _ _ (.lagrange 1) (by show 0 < 1; omega) hs hb u
  obtain ⟨lines, h1, h2, -⟩ := C98_example hs hb u (space := Examples.spaceOf fs _ octGeometry p1Basis) e1 (spherePair hs hb u u e1 e1)
    (kernelOf_computes squareKernel _)
  exact ⟨_, lines, h1, h2⟩

/-- The degrees and the batch size of the test. -/
example : createAssembler (kernelOf squareKernel) 3 4 = some () := C98_create_assembler _ (by decide) (by decide)

end Example
end Bempp
