import Verif.Model.Assembly
import Verif.Model.Shapes
/-
The index arithmetic of `src/boundary_assemblers.rs` and `src/shapes.rs` with machine integers. The other
modules use unbounded natural numbers; here every `+` and `*` on `usize` is bounded. What happens on overflow
depends on the build: with overflow checks (the default of debug builds) it is a panic, without them (the
default of release builds) the result is taken modulo the word size.

Sums of an index and a small constant that count elements of an existing array (`offset + i`, line 293;
`2 * i + j`, lines 312, 332, 425, 441; `+= 1` in `src/function.rs`) are not modelled again.
-/
namespace Bempp

/-- A target and a build: `usize::MAX + 1`, and whether overflow wraps around (release) or panics (debug).
For all uses of `+`, `*` and `usize::pow` cited in this file, e.g. `src/boundary_assemblers.rs:184`. -/
structure Machine where
  bound : Nat
  wraps : Bool

/-- The result of an operation on `usize` with exact result `n`, e.g. `src/boundary_assemblers.rs:184`
(`none`: panic). -/
def Machine.fit (m : Machine) (n : Nat) : Option Nat :=
  if n < m.bound then some n else if m.wraps then some (n % m.bound) else none

/-- `a + b`, e.g. `src/boundary_assemblers.rs:599`. -/
def Machine.add (m : Machine) (a b : Nat) : Option Nat := m.fit (a + b)

/-- `a * b`, e.g. `src/boundary_assemblers.rs:184`. -/
def Machine.mul (m : Machine) (a b : Nat) : Option Nat := m.fit (a * b)

/-- `usize::pow(a, n)`, `src/shapes.rs:27-28,61`. The library function overflows exactly if the exact result does
not fit. -/
def Machine.pow (m : Machine) (a n : Nat) : Option Nat := m.fit (a ^ n)

/-- The loop `src/boundary_assemblers.rs:597-602` from position `start`, terminating runs; `none` is a panic, by
overflow or by slicing `start..end` with `end < start`. -/
inductive SplitW {α : Type} (m : Machine) (b : Nat) (c : List α) : Nat → Option (List (List α)) → Prop
  | stop {start : Nat} : ¬ start < c.length → SplitW m b c start (some [])
  | overflow {start : Nat} : start < c.length → m.add start b = none → SplitW m b c start none
  | slice {start s : Nat} : start < c.length → m.add start b = some s → min s c.length < start →
      SplitW m b c start none
  | step {start s stop : Nat} {rest : Option (List (List α))} : start < c.length → m.add start b = some s →
      stop = min s c.length → start ≤ stop → SplitW m b c stop rest →
      SplitW m b c start (rest.map fun l => (c.drop start).take (stop - start) :: l)

/-- The loop `src/boundary_assemblers.rs:596-603` over the lists of pairs. -/
inductive SplitAllW {α : Type} (m : Machine) (b : Nat) : List (List α × Nat) → Option (List (Nat × List α)) → Prop
  | nil : SplitAllW m b [] (some [])
  | panic {c : List α} {i : Nat} {l : List (List α × Nat)} : SplitW m b c 0 none → SplitAllW m b ((c, i) :: l) none
  | cons {c : List α} {i : Nat} {l : List (List α × Nat)} {bs : List (List α)}
      {rest : Option (List (Nat × List α))} : SplitW m b c 0 (some bs) → SplitAllW m b l rest →
      SplitAllW m b ((c, i) :: l) (rest.map fun r => bs.map (fun x => (i, x)) ++ r)

/-- `make_cell_blocks`, `src/boundary_assemblers.rs:564-606`. -/
def MakeCellBlocksW (m : Machine) (f : CellType → CellType → List (Nat × Nat) → Option Nat) (size : Nat) (g : Grid)
    (b : Nat) (out : Option (List (Nat × List (Nat × Nat)))) : Prop :=
  match cellPairs f size g with
  | none => out = none
  | some cp => SplitAllW m b cp.zipIdx out

/-- The end of a batch, `src/boundary_assemblers.rs:473-477` and 481-485. -/
def batchEnd (m : Machine) (b len start : Nat) : Option Nat := do
  let s ← m.add start b
  some (if s < len then s else len)

/-- The inner loop `src/boundary_assemblers.rs:480-489` over trial batches. -/
inductive SplitTrialW {α : Type} (m : Machine) (b : Nat) (c : List α) : Nat → Option (List (List α)) → Prop
  | stop {start : Nat} : ¬ start < c.length → SplitTrialW m b c start (some [])
  | overflow {start : Nat} : start < c.length → batchEnd m b c.length start = none → SplitTrialW m b c start none
  | slice {start stop : Nat} : start < c.length → batchEnd m b c.length start = some stop → stop < start →
      SplitTrialW m b c start none
  | step {start stop : Nat} {rest : Option (List (List α))} : start < c.length →
      batchEnd m b c.length start = some stop → start ≤ stop → SplitTrialW m b c stop rest →
      SplitTrialW m b c start (rest.map fun l => (c.drop start).take (stop - start) :: l)

/-- The loops `src/boundary_assemblers.rs:471-491`. The test batch is only sliced inside the inner loop (486), so
`end < start` panics only if there are trial cells. -/
inductive SplitPairsW (m : Machine) (b : Nat) (testC trialC : List Nat) :
    Nat → Option (List (List Nat × List Nat)) → Prop
  | stop {start : Nat} : ¬ start < testC.length → SplitPairsW m b testC trialC start (some [])
  | overflow {start : Nat} : start < testC.length → batchEnd m b testC.length start = none →
      SplitPairsW m b testC trialC start none
  | trial {start stop : Nat} : start < testC.length → batchEnd m b testC.length start = some stop →
      SplitTrialW m b trialC 0 none → SplitPairsW m b testC trialC start none
  | slice {start stop : Nat} : start < testC.length → batchEnd m b testC.length start = some stop → stop < start →
      trialC ≠ [] → SplitPairsW m b testC trialC start none
  | step {start stop : Nat} {trs : List (List Nat)} {rest : Option (List (List Nat × List Nat))} :
      start < testC.length → batchEnd m b testC.length start = some stop → (start ≤ stop ∨ trialC = []) →
      SplitTrialW m b trialC 0 (some trs) → SplitPairsW m b testC trialC stop rest →
      SplitPairsW m b testC trialC start
        (rest.map fun r => trs.map (fun tr => ((testC.drop start).take (stop - start), tr)) ++ r)

/-- The position `i + n * j` of an entry, `src/boundary_assemblers.rs:212,766`. -/
def Machine.position (m : Machine) (n i j : Nat) : Option Nat := do
  let p ← m.mul n j
  m.add i p

section
variable {R T : Type} [Zero R] [Mul R] [Zero T] [Add T] [Mul T]

/-- The loops `src/boundary_assemblers.rs:763-769`. -/
def localOpsW (m : Machine) (shape : Nat × Nat) (testDofs trialDofs : List Nat) (localMat : List (List T)) :
    Option (List (AddOp T)) := do
  let cols ← (trialDofs.zip localMat).mapM fun c =>
    (testDofs.zip c.2).mapM fun e => do
      let p ← m.position shape.1 e.1 c.1
      some (AddOp.mk p e.2)
  some cols.flatten

/-- Body of the loop over test cells, `src/boundary_assemblers.rs:753-770`. -/
def nonadjacentTestW (m : Machine) (env : Env R T) (shape : Nat × Nat) (trial test : Space R T)
    (trialDofs : List Nat) (rc : Nat) (st : NonsingPair R T × List (List T) × List (AddOp T)) (tc : Nat) :
    Option (NonsingPair R T × List (List T) × List (AddOp T)) := do
  let nb ← neighbours test.fs.grid trial.fs.grid tc rc
  if nb then some st
  else
    let a ← st.1.setTestCell tc
    let am ← a.assemble env.cast st.2.1
    let testDofs ← test.fs.cellDofsUnchecked tc
    let ops ← localOpsW m shape testDofs trialDofs am.2
    some (am.1, am.2, st.2.2 ++ ops)

/-- Body of the loop over trial cells, `src/boundary_assemblers.rs:750-771`. -/
def nonadjacentTrialW (m : Machine) (env : Env R T) (shape : Nat × Nat) (trial test : Space R T)
    (testCells : List Nat) (st : NonsingPair R T × List (List T) × List (AddOp T)) (rc : Nat) :
    Option (NonsingPair R T × List (List T) × List (AddOp T)) := do
  let a ← st.1.setTrialCell rc
  let trialDofs ← trial.fs.cellDofsUnchecked rc
  testCells.foldlM (nonadjacentTestW m env shape trial test trialDofs rc) (a, st.2.1, st.2.2)

/-- `assemble_batch_nonadjacent`, `src/boundary_assemblers.rs:689-773`, as `assembleBatchNonadjacent`. -/
def assembleBatchNonadjacentW (m : Machine) (env : Env R T) (asm : Assembler R T) (shape : Nat × Nat)
    (trialType testType : CellType) (trial : Space R T) (trialCells : List Nat) (test : Space R T)
    (testCells : List Nat) (q : RegRule R T) : Option (List (AddOp T)) := do
  let nptsTest := q.testWeights.length
  let nptsTrial := q.trialWeights.length
  if test.fs.grid.geometryDim = 3 ∧ test.fs.grid.topologyDim = 2 ∧
      trial.fs.grid.geometryDim = 3 ∧ trial.fs.grid.topologyDim = 2 then
    let tev ← test.geometryMap testType q.testPoints
    let rev ← trial.geometryMap trialType q.trialPoints
    let a ← NonsingPair.new nptsTest nptsTrial asm.derivSize testCells asm.integrand asm.kernel tev rev
      q.testTable q.trialTable q.testWeights q.trialWeights
    let tel ← test.fs.element testType
    let rel ← trial.fs.element trialType
    let st ← trialCells.foldlM (nonadjacentTrialW m env shape trial test testCells)
      (a, zeros2 tel.dim rel.dim, [])
    some st.2.2
  else none

/-- The parallel section for one pair of colours, `src/boundary_assemblers.rs:468-516`. -/
def ColourPairRunW (m : Machine) (env : Env R T) (asm : Assembler R T) (shape : Nat × Nat) (trial test : Space R T)
    (tt rt : CellType) (q : RegRule R T) (testC trialC : List Nat) (mem : List T) (o : Outcome (List T)) : Prop :=
  ∃ tasks, SplitPairsW m asm.options.batchSize testC trialC 0 tasks ∧
    match tasks with
    | none => o = .panicked mem
    | some tasks => SectionRun (tasks.map fun t =>
        assembleBatchNonadjacentW m env asm shape tt rt trial t.2 test t.1 q) mem o

/-- Body of the loops over cell types, `src/boundary_assemblers.rs:415-520`. -/
def TypePairRunW (m : Machine) (env : Env R T) (asm : Assembler R T) (shape : Nat × Nat) (trial test : Space R T)
    (trialCol testCol : Colouring) (tt rt : CellType) (mem : List T) (o : Outcome (List T)) : Prop :=
  match regRule env asm trial test tt rt, testCol tt, trialCol rt with
  | some q, some tcs, some rcs =>
    ForRun (fun testC => ForRun (fun trialC =>
      ColourPairRunW m env asm shape trial test tt rt q testC trialC) rcs) tcs mem o
  | _, _, _ => o = .panicked mem

/-- `assemble_nonsingular_part`, `src/boundary_assemblers.rs:396-521`. -/
def AssembleNonsingularPartW (m : Machine) (env : Env R T) (asm : Assembler R T) (shape : Nat × Nat)
    (trial test : Space R T) (trialCol testCol : Colouring) (mem : List T) (o : Outcome (List T)) : Prop :=
  if trial.fs.isSerial = false ∨ test.fs.isSerial = false then o = .panicked mem
  else if shape.1 ≠ test.fs.globalSize ∨ shape.2 ≠ trial.fs.globalSize then o = .panicked mem
  else
    ForRun (fun tt => ForRun (fun rt => TypePairRunW m env asm shape trial test trialCol testCol tt rt)
      (trial.fs.grid.entityTypes 2)) (test.fs.grid.entityTypes 2) mem o

/-- `assemble_singular_part`, `src/boundary_assemblers.rs:234-393`. -/
def AssembleSingularPartW (m : Machine) (env : Env R T) (asm : Assembler R T) (shape : Nat × Nat)
    (trial test : Space R T) (out : Option (Sparse T)) : Prop :=
  if equalGrids test.fs.grid trial.fs.grid = false then out = some (Sparse.new shape)
  else if shape.1 ≠ test.fs.globalSize ∨ shape.2 ≠ trial.fs.globalSize then out = none
  else match singTables env asm trial test with
    | none => out = none
    | some tb => ∃ blocks,
        MakeCellBlocksW m (fun tt rt pairs => tb.pairIndices.get? (tt, rt, pairs)) tb.pairIndices.length
          test.fs.grid asm.options.batchSize blocks ∧
        match blocks with
        | none => out = none
        | some bl => Reduces Sparse.add (Sparse.new shape)
            (bl.map fun b => do
              let rule ← tb.rules[b.1]?
              assembleBatchSingular env asm shape trial test b.2 rule) out

/-- The loop `src/boundary_assemblers.rs:211-213`. -/
def addTripletsW (m : Machine) (n : Nat) : List ((Nat × Nat) × T) → List T → Outcome (List T)
  | [], mem => .ok mem
  | ((i, j), v) :: l, mem =>
    match m.position n i j with
    | none => .panicked mem
    | some p =>
      match mem[p]? with
      | some x => addTripletsW m n l (mem.set p (x + v))
      | none => .panicked mem

/-- `assemble_into_memory`, `src/boundary_assemblers.rs:176-214`. -/
def AssembleIntoMemoryW (m : Machine) (env : Env R T) (asm : Assembler R T) (trial test : Space R T) (mem : List T)
    (o : Outcome (List T)) : Prop :=
  match m.mul test.fs.globalSize trial.fs.globalSize with
  | none => o = .panicked mem
  | some size =>
    if mem.length ≠ size then o = .panicked mem
    else if trial.fs.isSerial = false ∨ test.fs.isSerial = false then o = .panicked mem
    else match test.fs.cellColouring, trial.fs.cellColouring with
      | some testCol, some trialCol => ∃ o1,
        AssembleNonsingularPartW m env asm (test.fs.globalSize, trial.fs.globalSize) trial test trialCol
          testCol mem o1 ∧
        match o1 with
        | .panicked mem' => o = .panicked mem'
        | .ok mem' => ∃ sp,
          AssembleSingularPartW m env asm (test.fs.globalSize, trial.fs.globalSize) trial test sp ∧
          o = match sp with
            | none => .panicked mem'
            | some sm => addTripletsW m test.fs.globalSize ((sm.rows.zip sm.cols).zip sm.data) mem'
      | _, _ => o = .panicked mem

/-- `assemble_singular`, `src/boundary_assemblers.rs:122-155`. -/
def AssembleSingularW (m : Machine) (env : Env R T) (asm : Assembler R T) (trial test : Space R T)
    (out : Option (Csr T)) : Prop :=
  ∃ sp, AssembleSingularPartW m env asm (test.fs.globalSize, trial.fs.globalSize) trial test sp ∧
    out = match sp with
      | none => none
      | some sm =>
        if sm.data.isEmpty ∨ (sm.data.filter env.isBig).length = 0 then do
          let k ← m.add sm.shape.1 1
          some ⟨sm.shape, [], List.replicate k 0, []⟩
        else env.fromAij sm.shape sm.rows sm.cols sm.data

end

/-- The capacities `regular_sphere` computes before and during refinement: `src/shapes.rs:27,28,32` and, for every
round, 61. `refinement_level + 1` is on `u32`; it overflows for the largest level only, for which the powers overflow
too. -/
def sphereCapacities (m : Machine) (level : Nat) : Option (Nat × Nat × Nat × List Nat) := do
  let a ← m.pow 4 (level + 1)
  let points ← m.add 2 a
  let b ← m.pow 4 level
  let cells ← m.mul 8 b
  let a' ← m.pow 4 (level + 1)
  let points' ← m.add 2 a'
  let rounds ← (List.range level).mapM fun l => do
    let c ← m.pow 6 l
    m.mul 8 c
  some (points, cells, points', rounds)

/-- The number `y * (ncells + 1) + x` of a point, `src/shapes.rs:141,151,199,209`. -/
def screenPointW (m : Machine) (ncells y x : Nat) : Option Nat := do
  let k ← m.add ncells 1
  let p ← m.mul y k
  m.add p x

/-- Numbers and capacities in `screen_triangles`, `src/shapes.rs:129-165`: the two capacities, the numbers of the
points, the numbers of the cells and their corners. -/
def screenTrianglesW (m : Machine) (ncells : Nat) : Option ((Nat × Nat) × List Nat × List (Nat × List Nat)) := do
  let k ← m.add ncells 1
  let np ← m.mul k k
  let c ← m.mul 2 ncells
  let nc ← m.mul c ncells
  let points ← (List.range k).mapM fun y => (List.range k).mapM fun x => screenPointW m ncells y x
  let cells ← (List.range ncells).mapM fun y => (List.range ncells).mapM fun x => do
    let y2 ← m.mul 2 y
    let r ← m.mul y2 ncells
    let x2 ← m.mul 2 x
    let id ← m.add r x2
    let id1 ← m.add id 1
    let p ← screenPointW m ncells y x
    let right ← m.add p 1
    let q ← m.add p ncells
    let above ← m.add q 1
    let opposite ← m.add q 2
    some [(id, [p, right, opposite]), (id1, [p, opposite, above])]
  some ((np, nc), points.flatten, (cells.flatten).flatten)

/-- The same for `screen_quadrilaterals`, `src/shapes.rs:187-216`. -/
def screenQuadrilateralsW (m : Machine) (ncells : Nat) : Option ((Nat × Nat) × List Nat × List (Nat × List Nat)) := do
  let k ← m.add ncells 1
  let np ← m.mul k k
  let nc ← m.mul ncells ncells
  let points ← (List.range k).mapM fun y => (List.range k).mapM fun x => screenPointW m ncells y x
  let cells ← (List.range ncells).mapM fun y => (List.range ncells).mapM fun x => do
    let r ← m.mul y ncells
    let id ← m.add r x
    let p ← screenPointW m ncells y x
    let right ← m.add p 1
    let q ← m.add p ncells
    let above ← m.add q 1
    let opposite ← m.add q 2
    some (id, [p, right, above, opposite])
  some ((np, nc), points.flatten, cells.flatten)

end Bempp
