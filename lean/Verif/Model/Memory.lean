import Verif.Model.Assembly
/-
The tasks of assembly once more, now with a distinction that `Option` does not make: in `Model/Assembly.lean` a result
`none` is a panic or a read outside of an array by `get_unchecked`. Here a panic and undefined behaviour are different
results, and a task that panics remembers what it has written to the shared matrix before. That both models describe
the same program is proved in `Proofs/Memory.lean` (`batchSingularR_toOption`, `batchNonadjacentR_toOption`).
-/
namespace Bempp

/-- What running a piece of code may lead to: it completes; it panics, and `w` is what it has written to shared memory
before; it reads outside of an array without a check. For the functions at `src/boundary_assemblers.rs:610-773`. -/
inductive Res (W α : Type) where
  | ok (a : α)
  | panic (w : W)
  | ub
deriving DecidableEq

namespace Res
variable {W α β : Type}

/-- One piece of code after another. -/
protected def bind : Res W α → (α → Res W β) → Res W β
  | ok a, f => f a
  | panic w, _ => panic w
  | ub, _ => ub

/-- Sequencing of statements, for the functions at `src/boundary_assemblers.rs:610-773`. -/
instance : Monad (Res W) where
  pure := ok
  bind := Res.bind

/-- A checked operation.
Checked indexing and calls of external functions, for example `src/boundary_assemblers.rs:668-670`. -/
def orPanic (w : W) : Option α → Res W α
  | some a => ok a
  | none => panic w

/-- An unchecked read.
For example `src/boundary_assemblers/integrands.rs:91,111,136,159-174` and `src/boundary_assemblers/cell_pair_assemblers.rs:144-145,285-295,314,331`. -/
def orUb : Option α → Res W α
  | some a => ok a
  | none => ub

/-- Forget the difference between panics and undefined behaviour.
Relates this model to the one in `Model/Assembly` of the same functions, `src/boundary_assemblers.rs:610-773`. -/
def toOption : Res W α → Option α
  | ok a => some a
  | _ => none

end Res

variable {R T W : Type}

section
variable [Zero T] [Add T] [Mul T] [Mul R]

/-- `SingularCellPairAssembler::assemble`, `src/boundary_assemblers/cell_pair_assemblers.rs:109-152`. The kernel may panic; the reads of tables,
geometry data, kernel values and determinants (lines 131-147 and the integrands) are unchecked. -/
def SingPair.assembleR (w : W) (cast : R → T) (a : SingPair R T) (localMat : List (List T)) :
    Res W (SingPair R T × List (List T)) := do
  let k ← .orPanic w (a.kernel.kernel.assemblePairwiseSt a.kernel.evalType a.test.points a.trial.points a.k)
  let m ← .orUb (localMat.zipIdx.mapM fun (col : List T × Nat) =>
    col.1.zipIdx.mapM fun (e : T × Nat) => a.entry cast k e.2 col.2)
  .ok ({ a with k := k }, m)

/-- `NonsingularCellPairAssemblerWithTestCaching::assemble`, `src/boundary_assemblers/cell_pair_assemblers.rs:283-339`. The cached data of the
test cell are read without a check (lines 285, 292-295), and so are all the arrays in lines 309-335. -/
def NonsingPair.assembleR (w : W) (cast : R → T) (a : NonsingPair R T) (localMat : List (List T)) :
    Res W (NonsingPair R T × List (List T)) := do
  let tg ← .orUb a.test[a.testCell]?
  let k ← .orPanic w (a.kernel.kernel.assembleSt a.kernel.evalType tg.points a.trial.points a.k)
  let m ← .orUb (localMat.zipIdx.mapM fun (col : List T × Nat) =>
    col.1.zipIdx.mapM fun (e : T × Nat) => a.entry cast k tg e.2 col.2)
  .ok ({ a with k := k }, m)

/-- Body of the loop `src/boundary_assemblers.rs:667-682`; `cell_dofs_unchecked` (672-673) does not check its
argument. -/
def singularPairStepR (env : Env R T) (trial test : Space R T)
    (st : SingPair R T × List (List T) × Sparse T) (p : Nat × Nat) :
    Res Unit (SingPair R T × List (List T) × Sparse T) := do
  let a ← .orPanic () (st.1.setTestCell p.1)
  let a ← .orPanic () (a.setTrialCell p.2)
  let am ← a.assembleR () env.cast st.2.1
  let testDofs ← .orUb (test.fs.cellDofsUnchecked p.1)
  let trialDofs ← .orUb (trial.fs.cellDofsUnchecked p.2)
  let out ← .orPanic () (pushLocal trial test testDofs trialDofs am.2 st.2.2)
  .ok (am.1, am.2, out)

/-- Body of the loop over test cells, `src/boundary_assemblers.rs:753-770`. The operations in `st.2.2` are done already. -/
def nonadjacentTestR (env : Env R T) (shape : Nat × Nat) (trial test : Space R T) (trialDofs : List Nat)
    (rc : Nat) (st : NonsingPair R T × List (List T) × List (AddOp T)) (tc : Nat) :
    Res (List (AddOp T)) (NonsingPair R T × List (List T) × List (AddOp T)) := do
  let nb ← .orPanic st.2.2 (neighbours test.fs.grid trial.fs.grid tc rc)
  if nb then .ok st
  else
    let a ← .orPanic st.2.2 (st.1.setTestCell tc)
    let am ← a.assembleR st.2.2 env.cast st.2.1
    let testDofs ← .orUb (test.fs.cellDofsUnchecked tc)
    .ok (am.1, am.2, st.2.2 ++ localOps shape testDofs trialDofs am.2)

/-- Body of the loop over trial cells, `src/boundary_assemblers.rs:750-771`. -/
def nonadjacentTrialR (env : Env R T) (shape : Nat × Nat) (trial test : Space R T)
    (testCells : List Nat) (st : NonsingPair R T × List (List T) × List (AddOp T)) (rc : Nat) :
    Res (List (AddOp T)) (NonsingPair R T × List (List T) × List (AddOp T)) := do
  let a ← .orPanic st.2.2 (st.1.setTrialCell rc)
  let trialDofs ← .orUb (trial.fs.cellDofsUnchecked rc)
  testCells.foldlM (nonadjacentTestR env shape trial test trialDofs rc) (a, st.2.1, st.2.2)

variable [Zero R]

/-- `assemble_batch_singular`, `src/boundary_assemblers.rs:610-685`. -/
def batchSingularR (env : Env R T) (asm : Assembler R T) (shape : Nat × Nat)
    (trial test : Space R T) (pairs : List (Nat × Nat)) (rule : SingRule R T) : Res Unit (Sparse T) := do
  let rel ← .orPanic () (trial.fs.element rule.trialType)
  let tel ← .orPanic () (test.fs.element rule.testType)
  let npts := rule.weights.length
  if test.fs.grid.geometryDim = 3 ∧ test.fs.grid.topologyDim = 2 then
    let tev ← .orPanic () (test.geometryMap rule.testType rule.testPoints)
    let rev ← .orPanic () (test.geometryMap rule.trialType rule.trialPoints)
    let a := SingPair.new npts asm.derivSize asm.integrand asm.kernel tev rev rule.testTable
      rule.trialTable rule.weights
    let st ← pairs.foldlM (singularPairStepR env trial test)
      (a, zeros2 tel.dim rel.dim, Sparse.new shape)
    .ok st.2.2
  else .panic ()

/-- `assemble_batch_nonadjacent`, `src/boundary_assemblers.rs:689-773`. -/
def batchNonadjacentR (env : Env R T) (asm : Assembler R T) (shape : Nat × Nat)
    (trialType testType : CellType) (trial : Space R T) (trialCells : List Nat) (test : Space R T)
    (testCells : List Nat) (q : RegRule R T) : Res (List (AddOp T)) (List (AddOp T)) := do
  let nptsTest := q.testWeights.length
  let nptsTrial := q.trialWeights.length
  if test.fs.grid.geometryDim = 3 ∧ test.fs.grid.topologyDim = 2 ∧
      trial.fs.grid.geometryDim = 3 ∧ trial.fs.grid.topologyDim = 2 then
    let tev ← .orPanic [] (test.geometryMap testType q.testPoints)
    let rev ← .orPanic [] (trial.geometryMap trialType q.trialPoints)
    let a ← .orPanic [] (NonsingPair.new nptsTest nptsTrial asm.derivSize testCells asm.integrand asm.kernel tev rev
      q.testTable q.trialTable q.testWeights q.trialWeights)
    let tel ← .orPanic [] (test.fs.element testType)
    let rel ← .orPanic [] (trial.fs.element trialType)
    let st ← trialCells.foldlM (nonadjacentTrialR env shape trial test testCells)
      (a, zeros2 tel.dim rel.dim, [])
    .ok st.2.2
  else .panic []

/-- `r` is the result of a task of the parallel iteration in `assemble_singular_part`,
`src/boundary_assemblers.rs:356-392`. -/
def SingularTask (env : Env R T) (asm : Assembler R T) (shape : Nat × Nat) (trial test : Space R T)
    (r : Res Unit (Sparse T)) : Prop :=
  equalGrids test.fs.grid trial.fs.grid = true ∧
  ∃ tb blocks, singTables env asm trial test = some tb ∧
    MakeCellBlocks (fun tt rt pairs => tb.pairIndices.get? (tt, rt, pairs)) tb.pairIndices.length
      test.fs.grid asm.options.batchSize (some blocks) ∧
    ∃ b ∈ blocks, r = do
      let rule ← .orPanic () tb.rules[b.1]?
      batchSingularR env asm shape trial test b.2 rule

/-- `rs` are the results of the tasks of one of the parallel sections in `assemble_nonsingular_part` when it is called
by `assemble_into_memory`: for one pair of cell types and one colour of each, `src/boundary_assemblers.rs:413-516`. -/
def DenseSection (env : Env R T) (asm : Assembler R T) (trial test : Space R T)
    (rs : List (Res (List (AddOp T)) (List (AddOp T)))) : Prop :=
  ∃ testCol trialCol, test.fs.cellColouring = some testCol ∧ trial.fs.cellColouring = some trialCol ∧
  ∃ tt ∈ test.fs.grid.entityTypes 2, ∃ rt ∈ trial.fs.grid.entityTypes 2,
  ∃ tcs rcs q, testCol tt = some tcs ∧ trialCol rt = some rcs ∧ regRule env asm trial test tt rt = some q ∧
  ∃ testC ∈ tcs, ∃ trialC ∈ rcs, ∃ tasks, SplitPairs asm.options.batchSize testC trialC 0 tasks ∧
    rs = tasks.map fun t => batchNonadjacentR env asm (test.fs.globalSize, trial.fs.globalSize) tt rt trial t.2 test
      t.1 q

/-- What a task writes to the shared matrix, whether it completes or panics.
The stores at `src/boundary_assemblers.rs:763-769`. -/
def Res.writes : Res (List (AddOp T)) (List (AddOp T)) → List (AddOp T)
  | .ok l => l
  | .panic l => l
  | .ub => []

end
end Bempp
