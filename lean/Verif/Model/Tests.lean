import Verif.Model.Colouring
import Verif.Model.FunctionSpace
import Verif.Model.PythonData
import Verif.Model.Python
/-
Model of the project's own tests and of its example program, with the grids, the levels and the degrees as parameters. A failed
assertion or a panic is `none`. The tests that compare with numbers computed by another program are not modelled
(`tests/compare_to_bempp_cl.rs`, `python/test/test_boundary_assembler.py:71-165`).
-/
namespace Bempp.Tests

/-- `assert!`, `assert_eq!` and Python's `assert`. For example `tests/test_space.rs:25`. -/
def assert (p : Prop) [Decidable p] : Option Unit := if p then some () else none

/-- `for x in xs { .. }` with a body that may fail. For example `tests/test_space.rs:24-26`. -/
def forEach {α : Type} (xs : List α) (body : α → Option Unit) : Option Unit :=
  xs.foldlM (fun _ x => body x) ()

/-- `run_test` and `run_test_rt`, `tests/test_space.rs:16-42,44-70`; `fam` is the element family. -/
def runTest (g : Grid) (fam : CellType → ElementDofs) : Option Unit := do
  let dm ← assignDofs 0 g fam
  forEach dm.ownerData fun o => assert (o.1 = 0)
  forEach dm.cellDofs fun d =>
    forEach d.zipIdx fun ni => do
      assert (ni.1 < dm.size)
      forEach (d.drop (ni.2 + 1)) fun m => assert (ni.1 ≠ m)
  forEach dm.entityDofs fun i => forEach i fun j => forEach j fun k => assert (k < dm.size)

/-- `FunctionSpace::new` on one process, `tests/test_space.rs:144`, `examples/assembly.rs:14`: nobody is there to send messages to. -/
def newSpace (g : Grid) (fam : CellType → ElementDofs) : Option FunctionSpace :=
  match FunctionSpace.new 0 1 g fam with
  | .done fs => some fs
  | _ => none

/-- `test_dofmap_lagrange0`, `test_dofmap_lagrange1` and `test_dofmap_lagrange2`, `tests/test_space.rs:138-150,153-164,167-179`;
`types` are the types whose numbers of entities are added. -/
def dofmap (g : Grid) (fam : CellType → ElementDofs) (types : List CellType) : Option Unit := do
  let space ← newSpace g fam
  assert (space.localSize = space.globalSize)
  assert (space.localSize = (types.map g.entityCount).sum)

/-- The first part of the tests of colourings, `tests/test_space.rs:190-205,229-244,256-271`. -/
def colouringParts (g : Grid) (colouring : List (List Nat)) : Option Unit := do
  let n := colouring.foldl (fun n i => n + i.length) 0
  assert (n = g.entityCount .triangle)
  forEach colouring.zipIdx fun ici => forEach colouring.zipIdx fun jcj =>
    if ici.2 ≠ jcj.2 then
      forEach ici.1 fun cell0 => forEach jcj.1 fun cell1 => assert (cell0 ≠ cell1)
    else some ()

/-- `test_colouring_p1`, `tests/test_space.rs:182-219`: no two cells of a colour have a vertex in common. -/
def colouringP1 (g : Grid) (fam : CellType → ElementDofs) : Option Unit := do
  let space ← newSpace g fam
  let col ← space.cellColouring
  let colouring ← col .triangle
  let cells := g.entityIter 2
  colouringParts g colouring
  forEach colouring fun ci => forEach ci fun cell0 => forEach ci fun cell1 =>
    if cell0 ≠ cell1 then do
      let c0 ← cells[cell0]?
      forEach (c0.sub 0) fun v0 => do
        let c1 ← cells[cell1]?
        forEach (c1.sub 0) fun v1 => assert (v0 ≠ v1)
    else some ()

/-- `test_colouring_dp0`, `tests/test_space.rs:222-246`. -/
def colouringDp0 (g : Grid) (fam : CellType → ElementDofs) : Option Unit := do
  let space ← newSpace g fam
  let col ← space.cellColouring
  let colouring ← col .triangle
  colouringParts g colouring
  assert (colouring.length = 1)

/-- `test_colouring_rt1`, `tests/test_space.rs:249-295`: no two cells of a colour have an edge in common. -/
def colouringRt1 (g : Grid) (fam : CellType → ElementDofs) : Option Unit := do
  let space ← newSpace g fam
  let col ← space.cellColouring
  let colouring ← col .triangle
  colouringParts g colouring
  forEach colouring fun ci => forEach ci fun cell0 => forEach ci fun cell1 =>
    if cell0 ≠ cell1 then do
      let c0 ← g.entity 2 cell0
      forEach (c0.sub 1) fun e0 => do
        let c1 ← g.entity 2 cell1
        forEach (c1.sub 1) fun e1 => assert (e0 ≠ e1)
    else some ()

/-- A call from a Python test: everything but a value lets the test fail. For example `python/test/test_function_space.py:77`. -/
def py {α : Type} : Ffi α → Option α
  | .ok a => some a
  | _ => none

/-- `test_create_space_dp0`, `test_create_space_p1` and `test_create_space_p2`, `python/test/test_function_space.py:8-17,20-28,31-41`. -/
def createSpace (g : Grid) (fam : CellType → ElementDofs) (types : List CellType) : Option Unit := do
  let space ← newSpace g fam
  assert (space.localSize = (types.map g.entityCount).sum)
  assert (space.localSize = space.globalSize)
  assert (space.isSerial = true)

/-- `test_grid`, `python/test/test_function_space.py:44-58`. -/
def gridTest (g : Grid) (fam : CellType → ElementDofs) : Option Unit := do
  let space ← newSpace g fam
  assert (space.grid.topologyDim = 2)
  assert (space.grid.geometryDim = 3)
  forEach [CellType.point, .interval, .triangle, .quadrilateral] fun e => assert (space.grid.entityCount e = g.entityCount e)

/-- `test_element`, `python/test/test_function_space.py:61-69`. -/
def elementTest (g : Grid) (fam : CellType → ElementDofs) : Option Unit := do
  let space ← newSpace g fam
  let el ← space.element .triangle
  assert (el.dim = (fam .triangle).dim)
  assert (el.entityDofs 0 0 = (fam .triangle).entityDofs 0 0)

/-- `test_get_local_dof_numbers`, `python/test/test_function_space.py:72-84`. -/
def getLocalDofNumbers (g : Grid) (fam : CellType → ElementDofs) (degree : Nat) : Option Unit := do
  let space ← newSpace g fam
  forEach (List.range (g.entityCount .point)) fun i => do
    assert ((← py (pyGetLocalDofNumbers space 0 i)).length = 1)
  forEach (List.range (g.entityCount .interval)) fun i => do
    assert ((← py (pyGetLocalDofNumbers space 1 i)).length = degree - 1)
  forEach (List.range (g.entityCount .triangle)) fun i => do
    assert ((← py (pyGetLocalDofNumbers space 2 i)).length = (degree - 1) * (degree - 2) / 2)

/-- `test_cell_dofs`, `python/test/test_function_space.py:87-95`; `len(None)` is a `TypeError`. -/
def cellDofs (g : Grid) (fam : CellType → ElementDofs) (degree : Nat) : Option Unit := do
  let space ← newSpace g fam
  forEach (List.range (g.entityCount .triangle)) fun i => do
    let dofs ← ← py (pyCellDofs space i)
    assert (dofs.length = (degree + 1) * (degree + 2) / 2)

/-- `test_global_dofs`, `python/test/test_function_space.py:98-107`. -/
def globalDofs (g : Grid) (fam : CellType → ElementDofs) : Option Unit := do
  let space ← newSpace g fam
  assert (space.localSize = space.globalSize)
  forEach (List.range space.localSize) fun i => do
    assert ((← py (pyGlobalDofIndex space i)) = i)

/-- `test_ownership`, `python/test/test_function_space.py:110-119`. -/
def ownership (g : Grid) (fam : CellType → ElementDofs) : Option Unit := do
  let space ← newSpace g fam
  assert (space.localSize = space.globalSize)
  forEach (List.range space.localSize) fun i => do
    assert ((← py (pyIsOwned space i)) = true)

/-- `with pytest.raises(ValueError)`, `python/test/test_boundary_assembler.py:25-28`: the call must fail. -/
def mustRaise (o : PyOptions) (c : OptCall) : Option PyOptions :=
  if (c.run o).2 = false then some (c.run o).1 else none

/-- A call that must not fail. `python/test/test_boundary_assembler.py:23`. -/
def mustReturn (o : PyOptions) (c : OptCall) : Option PyOptions :=
  if (c.run o).2 = true then some (c.run o).1 else none

/-- `test_create_assembler`, `python/test/test_boundary_assembler.py:19-42`, with the degree 3 and the batch size 4 as
parameters `n`, `b`. Line 36 compares a method with a number and is always true. The operator is always the single layer operator
(line 40). -/
def createAssembler {R T : Type} [Add T] [Sub T] [Mul T] [Div T] [Neg T] (kernel : Kernel R T) (n b : Nat) : Option Unit := do
  let o := PyOptions.new
  assert (o.rs.getRegularQuadratureDegree .triangle ≠ some n)
  let o ← mustReturn o (.setRegular .triangle n)
  assert (o.rs.getRegularQuadratureDegree .triangle = some n)
  let o ← mustRaise o (.setRegular .interval n)
  assert (o.rs.getRegularQuadratureDegree .interval = none)
  assert (o.rs.getSingularQuadratureDegree (.triangle, .triangle) ≠ some n)
  let o ← mustReturn o (.setSingular .triangle .triangle n)
  assert (o.rs.getSingularQuadratureDegree (.triangle, .triangle) = some n)
  let o ← mustRaise o (.setSingular .interval .interval n)
  let o ← mustReturn o (.setBatch b)
  assert (o.rs.getBatchSize = b)
  let a ← py (createLaplaceAssembler kernel .singleLayer o.rs .f64)
  assert (a.dtype = .f64)

section
variable {R T : Type} [Zero T] [Add T] [Mul T] [Zero R] [Mul R]

/-- `.tocoo()`, `python/test/test_boundary_assembler.py:64`: rows, columns and values of what is stored. -/
def tocoo (m : ScipyCsr T) : List (Nat × Nat × T) :=
  (List.range m.shape.1).flatMap fun i =>
    (((m.indices.zip m.data).take (m.indptr.getD (i + 1) 0)).drop (m.indptr.getD i 0)).map fun x => (i, x.1, x.2)

/-- `test_assemble_singular`, `python/test/test_boundary_assembler.py:56-68`, passes in every run; `isclose` is `np.isclose`. -/
def AssembleSingularTest (env : Env R T) (isclose : T → T → Prop) (a : PyAssembler R T) (trial test : PyFs R T) : Prop :=
  (∃ mat, PyAssembleSingular env a trial test mat) ∧ (∃ dense, PyAssemble env a trial test dense) ∧
    ∀ mat dense, PyAssembleSingular env a trial test mat → PyAssemble env a trial test dense →
      ∃ s r d, mat = .ok (s, r) ∧ dense = .ok d ∧ ∀ x ∈ tocoo s, ∃ y, d.item x.1 x.2.1 = some y ∧ isclose y x.2.2

/-- The matrix as `examples/assembly.rs:33-38` prints it: the lines with their entries; `matrix.get([i, j]).unwrap()` panics outside of
the matrix, which is stored by columns. -/
def printed (rows cols : Nat) (matrix : List T) : Option (List (List T)) :=
  (List.range rows).mapM fun i => (List.range cols).mapM fun j => matrix[i + rows * j]?

/-- The options of the example, `examples/assembly.rs:18-26`. -/
def exampleOptions : Options :=
  (Options.default.setRegularQuadratureDegree .triangle 16).setSingularQuadratureDegree (.triangle, .triangle) 4

/-- `examples/assembly.rs:8-40` from line 29 on. -/
def ExampleProgram [Sub T] [Div T] [Neg T] (env : Env R T) (kernel : Kernel R T) (space : Space R T)
    (out : Option (List (List T))) : Prop :=
  ∃ m, Assemble env (Laplace.singleLayer kernel exampleOptions) space space m ∧
    out = m.bind (printed space.fs.globalSize space.fs.globalSize)

end
end Bempp.Tests
