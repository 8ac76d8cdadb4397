import Verif.Model.Blocks
import Verif.Model.CellPair
import Verif.Model.Colouring
import Verif.Model.Options
/-
Model of `BoundaryAssembler`, `src/boundary_assemblers.rs:102-773`, and of `SparseMatrixData`
(`src/boundary_assemblers/helpers.rs:76-115`).

Non-deterministic or possibly diverging parts are relations between inputs and outcomes; a run that does
not terminate has no outcome.
-/
namespace Bempp

variable {R T : Type}

/-- What the assembler uses of a `FunctionSpaceTrait` object besides `FunctionSpace`: `tabulate` of
`element(t)` (cell type, number of derivatives, points, number of points of the table; `none`: panic)
and `geometry_map` of the grid. Calls at `src/boundary_assemblers.rs:319-323,338-342,453-464,645-646,724-725`. -/
structure Space (R T : Type) where
  fs : FunctionSpace
  tabulate : CellType → Nat → List (List R) → Nat → Option (List (List (List (List T))))
  geometryMap : CellType → List (List R) → Option (GeoMap R)

/-- `bempp_quadrature::types::CellToCellConnectivity`. Made at `src/boundary_assemblers.rs:533-540`. -/
structure Connectivity where
  connectivityDimension : Nat
  localIndices : List (Nat × Nat)

/-- `bempp_quadrature::types::TestTrialNumericalQuadratureDefinition`; points are flat lists.
Used at `src/boundary_assemblers.rs:300-351`. -/
structure TestTrialRule (R : Type) where
  testPoints : List R
  trialPoints : List R
  weights : List R

/-- A rule of `ndelement::quadrature::simplex_rule`; points are a flat list.
Used at `src/boundary_assemblers.rs:419-450`. -/
structure SimpleRule (R : Type) where
  points : List R
  weights : List R

/-- `rlst::CsrMatrix`: the arguments of `CsrMatrix::new` (`src/boundary_assemblers.rs:140-145`). -/
structure Csr (T : Type) where
  shape : Nat × Nat
  indices : List Nat
  indptr : List Nat
  data : List T

/-- External functions. The conversion of the quadrature constants from `f64` to `T::Real` is part of
these parameters. `isBig x` is `x.abs() > T::from(1e-10).unwrap().re()`.
Calls at `src/boundary_assemblers.rs:140-151,419,434,541-561` and, for the conversions, `src/boundary_assemblers.rs:308-336,346-351,420-450`, `src/boundary_assemblers/integrands.rs:159-174`. -/
structure Env (R T : Type) where
  cast : R → T
  simplexRule : CellType → Nat → Option (SimpleRule R)
  triangleDuffy : Connectivity → Nat → Option (TestTrialRule R)
  triangleQuadrilateralDuffy : Connectivity → Nat → Option (TestTrialRule R)
  quadrilateralTriangleDuffy : Connectivity → Nat → Option (TestTrialRule R)
  quadrilateralDuffy : Connectivity → Nat → Option (TestTrialRule R)
  isBig : T → Bool
  fromAij : Nat × Nat → List Nat → List Nat → List T → Option (Csr T)

/-- `BoundaryAssembler`, `src/boundary_assemblers.rs:105-116`. -/
structure Assembler (R T : Type) where
  integrand : Integrand T
  kernel : KernelEvaluator R T
  options : Options
  derivSize : Nat
  tableDerivs : Nat

/-- `SparseMatrixData`, `src/boundary_assemblers/helpers.rs:77-86`. -/
structure Sparse (T : Type) where
  data : List T
  rows : List Nat
  cols : List Nat
  shape : Nat × Nat

/-- `SparseMatrixData::new` (and `new_known_size`, which differs in capacity only),
`src/boundary_assemblers/helpers.rs:90-106`. -/
def Sparse.new (shape : Nat × Nat) : Sparse T := ⟨[], [], [], shape⟩

/-- `SparseMatrixData::add`, `src/boundary_assemblers/helpers.rs:108-114`, with the debug assertions. -/
def Sparse.add (a b : Sparse T) : Option (Sparse T) :=
  if a.shape.1 = b.shape.1 ∧ a.shape.2 = b.shape.2 then
    some { data := a.data ++ b.data, rows := a.rows ++ b.rows, cols := a.cols ++ b.cols
           shape := a.shape }
  else none

/-- The three pushes `src/boundary_assemblers.rs:677-679`. -/
def Sparse.push (a : Sparse T) (i j : Nat) (x : T) : Sparse T :=
  { a with rows := a.rows ++ [i], cols := a.cols ++ [j], data := a.data ++ [x] }

/-- `get_singular_quadrature_rule`, `src/boundary_assemblers.rs:524-562`. -/
def getSingularQuadratureRule (env : Env R T) (test trial : CellType) (pairs : List (Nat × Nat))
    (npoints : Nat) : Option (TestTrialRule R) :=
  if pairs.isEmpty then none else
  let con : Connectivity :=
    { connectivityDimension := match pairs.length with
        | 1 => 0
        | 2 => 1
        | _ => 2
      localIndices := pairs }
  match test, trial with
  | .triangle, .triangle => env.triangleDuffy con npoints
  | .triangle, .quadrilateral => env.triangleQuadrilateralDuffy con npoints
  | .quadrilateral, .triangle => env.quadrilateralTriangleDuffy con npoints
  | .quadrilateral, .quadrilateral => env.quadrilateralDuffy con npoints
  | _, _ => none

/-- Unpack a flat list of points, `src/boundary_assemblers.rs:308-317,327-336,420-428,435-445`. -/
def unpackPoints (flat : List R) (npts : Nat) : Option (List (List R)) :=
  (List.range npts).mapM fun i => (List.range 2).mapM fun j => flat[2 * i + j]?

/-- The tabulated data of one singular rule: the entries at one index of the seven parallel vectors
`qweights, trial_points, test_points, trial_tables, test_tables, test_cell_types, trial_cell_types`
(`src/boundary_assemblers.rs:251-257`). -/
structure SingRule (R T : Type) where
  testType : CellType
  trialType : CellType
  testPoints : List (List R)
  trialPoints : List (List R)
  testTable : List (List (List (List T)))
  trialTable : List (List (List (List T)))
  weights : List R

/-- Body of the loop `src/boundary_assemblers.rs:299-352`. -/
def makeSingRule (env : Env R T) (asm : Assembler R T) (trial test : Space R T) (tt rt : CellType)
    (qdegree : Nat) (pairs : List (Nat × Nat)) : Option (SingRule R T) := do
  let q ← getSingularQuadratureRule env tt rt pairs qdegree
  let npts := q.weights.length
  let rp ← unpackPoints q.trialPoints npts
  let _ ← trial.fs.element rt
  let rtab ← trial.tabulate rt asm.tableDerivs rp rp.length
  let tp ← unpackPoints q.testPoints npts
  let _ ← test.fs.element tt
  let ttab ← test.tabulate tt asm.tableDerivs tp tp.length
  some ⟨tt, rt, tp, rp, ttab, rtab, q.weights⟩

/-- `pair_indices` and the vectors of rule data. `src/boundary_assemblers.rs:251-259`. -/
structure SingTables (R T : Type) where
  pairIndices : Map (CellType × CellType × List (Nat × Nat)) Nat
  rules : List (SingRule R T)

/-- Body of the loops `src/boundary_assemblers.rs:261-354`. -/
def addTypePair (env : Env R T) (asm : Assembler R T) (trial test : Space R T) (tt rt : CellType)
    (s : SingTables R T) : Option (SingTables R T) := do
  let qdegree ← asm.options.singularQuadratureDegrees.get? (tt, rt)
  let offset := s.rules.length
  let pp := possiblePairs tt rt
  let new ← pp.mapM (makeSingRule env asm trial test tt rt qdegree)
  some
    { pairIndices := pp.zipIdx.foldl (fun m p => m.insert (tt, rt, p.1) (offset + p.2)) s.pairIndices
      rules := s.rules ++ new }

/-- `src/boundary_assemblers.rs:251-354`. -/
def singTables (env : Env R T) (asm : Assembler R T) (trial test : Space R T) :
    Option (SingTables R T) :=
  let types := test.fs.grid.entityTypes 2
  types.foldlM (fun s tt => types.foldlM (fun s rt => addTypePair env asm trial test tt rt s) s)
    ⟨[], []⟩

/-- The loops `src/boundary_assemblers.rs:675-681`. -/
def pushLocal (trial test : Space R T) (testDofs trialDofs : List Nat) (localMat : List (List T))
    (out : Sparse T) : Option (Sparse T) :=
  (trialDofs.zip localMat).foldlM (fun out (c : Nat × List T) =>
    (testDofs.zip c.2).foldlM (fun out (e : Nat × T) => do
      let i ← test.fs.globalDofIndex e.1
      let j ← trial.fs.globalDofIndex c.1
      some (out.push i j e.2)) out) out

section
variable [Zero R] [Mul R] [Zero T] [Add T] [Mul T]

/-- Body of the loop `src/boundary_assemblers.rs:667-682`. -/
def singularPairStep (env : Env R T) (trial test : Space R T)
    (st : SingPair R T × List (List T) × Sparse T) (p : Nat × Nat) :
    Option (SingPair R T × List (List T) × Sparse T) := do
  let a ← st.1.setTestCell p.1
  let a ← a.setTrialCell p.2
  let am ← a.assemble env.cast st.2.1
  let testDofs ← test.fs.cellDofsUnchecked p.1
  let trialDofs ← trial.fs.cellDofsUnchecked p.2
  let out ← pushLocal trial test testDofs trialDofs am.2 st.2.2
  some (am.1, am.2, out)

/-- `assemble_batch_singular`, `src/boundary_assemblers.rs:610-685`. The capacity (630-635) is in `Model/Reserve`. Not
modelled: the debug assertions (637-639), which hold because the tables are made from the weights. -/
def assembleBatchSingular (env : Env R T) (asm : Assembler R T) (shape : Nat × Nat)
    (trial test : Space R T) (pairs : List (Nat × Nat)) (rule : SingRule R T) : Option (Sparse T) := do
  let rel ← trial.fs.element rule.trialType
  let tel ← test.fs.element rule.testType
  let npts := rule.weights.length
  if test.fs.grid.geometryDim = 3 ∧ test.fs.grid.topologyDim = 2 then
    let tev ← test.geometryMap rule.testType rule.testPoints
    let rev ← test.geometryMap rule.trialType rule.trialPoints
    let a := SingPair.new npts asm.derivSize asm.integrand asm.kernel tev rev rule.testTable
      rule.trialTable rule.weights
    let st ← pairs.foldlM (singularPairStep env trial test)
      (a, zeros2 tel.dim rel.dim, Sparse.new shape)
    some st.2.2
  else none

/-- `assemble_singular_part`, `src/boundary_assemblers.rs:234-393`. -/
def AssembleSingularPart (env : Env R T) (asm : Assembler R T) (shape : Nat × Nat)
    (trial test : Space R T) (out : Option (Sparse T)) : Prop :=
  if equalGrids test.fs.grid trial.fs.grid = false then out = some (Sparse.new shape)
  else if shape.1 ≠ test.fs.globalSize ∨ shape.2 ≠ trial.fs.globalSize then out = none
  else match singTables env asm trial test with
    | none => out = none
    | some tb => ∃ blocks,
        MakeCellBlocks (fun tt rt pairs => tb.pairIndices.get? (tt, rt, pairs)) tb.pairIndices.length
          test.fs.grid asm.options.batchSize blocks ∧
        match blocks with
        | none => out = none
        | some bl => Reduces Sparse.add (Sparse.new shape)
            (bl.map fun b => do
              let rule ← tb.rules[b.1]?
              assembleBatchSingular env asm shape trial test b.2 rule) out

/-- The loops `src/boundary_assemblers.rs:763-769`: the `+=` operations for one local matrix. -/
def localOps (shape : Nat × Nat) (testDofs trialDofs : List Nat) (localMat : List (List T)) :
    List (AddOp T) :=
  (trialDofs.zip localMat).flatMap fun c =>
    (testDofs.zip c.2).map fun e => ⟨e.1 + shape.1 * c.1, e.2⟩

/-- Body of the loop over test cells, `src/boundary_assemblers.rs:753-770`. -/
def nonadjacentTest (env : Env R T) (shape : Nat × Nat) (trial test : Space R T) (trialDofs : List Nat)
    (rc : Nat) (st : NonsingPair R T × List (List T) × List (AddOp T)) (tc : Nat) :
    Option (NonsingPair R T × List (List T) × List (AddOp T)) := do
  let nb ← neighbours test.fs.grid trial.fs.grid tc rc
  if nb then some st
  else
    let a ← st.1.setTestCell tc
    let am ← a.assemble env.cast st.2.1
    let testDofs ← test.fs.cellDofsUnchecked tc
    some (am.1, am.2, st.2.2 ++ localOps shape testDofs trialDofs am.2)

/-- Body of the loop over trial cells, `src/boundary_assemblers.rs:750-771`. -/
def nonadjacentTrial (env : Env R T) (shape : Nat × Nat) (trial test : Space R T)
    (testCells : List Nat) (st : NonsingPair R T × List (List T) × List (AddOp T)) (rc : Nat) :
    Option (NonsingPair R T × List (List T) × List (AddOp T)) := do
  let a ← st.1.setTrialCell rc
  let trialDofs ← trial.fs.cellDofsUnchecked rc
  testCells.foldlM (nonadjacentTest env shape trial test trialDofs rc) (a, st.2.1, st.2.2)

/-- Quadrature data for the regular rule: points, weights and tables of one pair of cell types.
`src/boundary_assemblers.rs:416-464`. -/
structure RegRule (R T : Type) where
  testPoints : List (List R)
  trialPoints : List (List R)
  testWeights : List R
  trialWeights : List R
  testTable : List (List (List (List T)))
  trialTable : List (List (List (List T)))

/-- `assemble_batch_nonadjacent`, `src/boundary_assemblers.rs:689-773`. The result is the list of its
`+=` operations on the shared buffer, in program order (no other statement reads or writes the
buffer); the return value 1 is in `SectionRun`. Not modelled: the debug assertions (713-714). -/
def assembleBatchNonadjacent (env : Env R T) (asm : Assembler R T) (shape : Nat × Nat)
    (trialType testType : CellType) (trial : Space R T) (trialCells : List Nat) (test : Space R T)
    (testCells : List Nat) (q : RegRule R T) : Option (List (AddOp T)) := do
  let nptsTest := q.testWeights.length
  let nptsTrial := q.trialWeights.length
  if test.fs.grid.geometryDim = 3 ∧ test.fs.grid.topologyDim = 2 ∧
      trial.fs.grid.geometryDim = 3 ∧ trial.fs.grid.topologyDim = 2 then
    let tev ← test.geometryMap testType q.testPoints
    let rev ← trial.geometryMap trialType q.trialPoints
    let a ← NonsingPair.new nptsTest nptsTrial asm.derivSize testCells asm.integrand asm.kernel tev rev
      q.testTable q.trialTable q.testWeights q.trialWeights
    let tel ← test.fs.element testType
    let rel ← trial.fs.element trialType
    let st ← trialCells.foldlM (nonadjacentTrial env shape trial test testCells)
      (a, zeros2 tel.dim rel.dim, [])
    some st.2.2
  else none

/-- Rules and tables for a pair of cell types, `src/boundary_assemblers.rs:416-464`. Line 464 tabulates
the trial element at the *test* points; so does the model. -/
def regRule (env : Env R T) (asm : Assembler R T) (trial test : Space R T) (tt rt : CellType) :
    Option (RegRule R T) := do
  let nptsTest ← asm.options.quadratureDegrees.get? tt
  let nptsTrial ← asm.options.quadratureDegrees.get? rt
  let qt ← env.simplexRule tt nptsTest
  let pt ← unpackPoints qt.points nptsTest
  let qr ← env.simplexRule rt nptsTrial
  let pr ← unpackPoints qr.points nptsTrial
  let _ ← test.fs.element tt
  let ttab ← test.tabulate tt asm.tableDerivs pt nptsTest
  let _ ← trial.fs.element rt
  let rtab ← trial.tabulate rt asm.tableDerivs pt nptsTrial
  some ⟨pt, pr, qt.weights, qr.weights, ttab, rtab⟩

/-- The parallel section for one pair of colours, `src/boundary_assemblers.rs:468-516`. The call passes
`test_cell_type` as `trial_cell_type` and vice versa (lines 501-502 against 698-699); so does the
model. -/
def ColourPairRun (env : Env R T) (asm : Assembler R T) (shape : Nat × Nat) (trial test : Space R T)
    (tt rt : CellType) (q : RegRule R T) (testC trialC : List Nat) (mem : List T)
    (o : Outcome (List T)) : Prop :=
  ∃ tasks, SplitPairs asm.options.batchSize testC trialC 0 tasks ∧
    SectionRun (tasks.map fun t =>
      assembleBatchNonadjacent env asm shape tt rt trial t.2 test t.1 q) mem o

/-- Body of the loops over cell types, `src/boundary_assemblers.rs:415-520`. -/
def TypePairRun (env : Env R T) (asm : Assembler R T) (shape : Nat × Nat) (trial test : Space R T)
    (trialCol testCol : Colouring) (tt rt : CellType) (mem : List T) (o : Outcome (List T)) : Prop :=
  match regRule env asm trial test tt rt, testCol tt, trialCol rt with
  | some q, some tcs, some rcs =>
    ForRun (fun testC => ForRun (fun trialC =>
      ColourPairRun env asm shape trial test tt rt q testC trialC) rcs) tcs mem o
  | _, _, _ => o = .panicked mem

/-- `assemble_nonsingular_part`, `src/boundary_assemblers.rs:396-521`. -/
def AssembleNonsingularPart (env : Env R T) (asm : Assembler R T) (shape : Nat × Nat)
    (trial test : Space R T) (trialCol testCol : Colouring) (mem : List T) (o : Outcome (List T)) :
    Prop :=
  if trial.fs.isSerial = false ∨ test.fs.isSerial = false then o = .panicked mem
  else if shape.1 ≠ test.fs.globalSize ∨ shape.2 ≠ trial.fs.globalSize then o = .panicked mem
  else
    ForRun (fun tt => ForRun (fun rt => TypePairRun env asm shape trial test trialCol testCol tt rt)
      (trial.fs.grid.entityTypes 2)) (test.fs.grid.entityTypes 2) mem o

/-- The loop `src/boundary_assemblers.rs:211-213`: `zip` stops at the shortest list, a position outside
the buffer panics. -/
def addTriplets (n : Nat) : List ((Nat × Nat) × T) → List T → Outcome (List T)
  | [], mem => .ok mem
  | ((i, j), v) :: l, mem =>
    match mem[i + n * j]? with
    | some x => addTriplets n l (mem.set (i + n * j) (x + v))
    | none => .panicked mem

/-- `assemble_into_memory`, `src/boundary_assemblers.rs:176-214`. -/
def AssembleIntoMemory (env : Env R T) (asm : Assembler R T) (trial test : Space R T) (mem : List T)
    (o : Outcome (List T)) : Prop :=
  if mem.length ≠ test.fs.globalSize * trial.fs.globalSize then o = .panicked mem
  else if trial.fs.isSerial = false ∨ test.fs.isSerial = false then o = .panicked mem
  else match test.fs.cellColouring, trial.fs.cellColouring with
    | some testCol, some trialCol => ∃ o1,
      AssembleNonsingularPart env asm (test.fs.globalSize, trial.fs.globalSize) trial test trialCol
        testCol mem o1 ∧
      match o1 with
      | .panicked mem' => o = .panicked mem'
      | .ok mem' => ∃ sp,
        AssembleSingularPart env asm (test.fs.globalSize, trial.fs.globalSize) trial test sp ∧
        o = match sp with
          | none => .panicked mem'
          | some sm => addTriplets test.fs.globalSize ((sm.rows.zip sm.cols).zip sm.data) mem'
    | _, _ => o = .panicked mem

/-- `assemble`, `src/boundary_assemblers.rs:158-173`: the result is the column-major data of the matrix,
`none` for a panic. -/
def Assemble (env : Env R T) (asm : Assembler R T) (trial test : Space R T)
    (out : Option (List T)) : Prop :=
  if trial.fs.isSerial = false ∨ test.fs.isSerial = false then out = none
  else ∃ o, AssembleIntoMemory env asm trial test
      (List.replicate (test.fs.globalSize * trial.fs.globalSize) 0) o ∧
    out = match o with
      | .ok mem => some mem
      | .panicked _ => none

/-- `assemble_singular`, `src/boundary_assemblers.rs:122-155`. -/
def AssembleSingular (env : Env R T) (asm : Assembler R T) (trial test : Space R T)
    (out : Option (Csr T)) : Prop :=
  ∃ sp, AssembleSingularPart env asm (test.fs.globalSize, trial.fs.globalSize) trial test sp ∧
    out = match sp with
      | none => none
      | some sm =>
        if sm.data.isEmpty ∨ (sm.data.filter env.isBig).length = 0 then
          some ⟨sm.shape, [], List.replicate (sm.shape.1 + 1) 0, []⟩
        else env.fromAij sm.shape sm.rows sm.cols sm.data

end
end Bempp
