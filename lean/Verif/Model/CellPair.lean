import Verif.Model.Integrands
import Verif.Model.Grid
/-
Model of `src/boundary_assemblers/cell_pair_assemblers.rs` and of `KernelEvaluator`
(`src/boundary_assemblers/helpers.rs:7-40`). `R` is `T::Real`, `cast : R → T` is `num::cast`.
-/
namespace Bempp

/-- `green_kernels::types::GreenKernelEvalType`.
Imported at `src/boundary_assemblers/helpers.rs:3`; values used at `src/laplace.rs:37,45,54,69`, `src/helmholtz.rs:50,63,76,95`. -/
inductive EvalType where
  | value | valueDeriv
deriving DecidableEq, Repr

/-- `green_kernels::traits::Kernel` as used by `KernelEvaluator`, `src/boundary_assemblers/helpers.rs:20-39`. Both functions
take the old contents of the result buffer and return the new contents, or panic. The flat slices of
the Rust interface are grouped by point. -/
structure Kernel (R T : Type) where
  assemblePairwiseSt : EvalType → (sources targets : List (List R)) → List (List T) →
    Option (List (List T))
  assembleSt : EvalType → (sources targets : List (List R)) → List (List (List T)) →
    Option (List (List (List T)))

/-- `KernelEvaluator`, `src/boundary_assemblers/helpers.rs:8-17`. -/
structure KernelEvaluator (R T : Type) where
  kernel : Kernel R T
  evalType : EvalType

/-- `ndgrid::traits::GeometryMap` as used in `src/boundary_assemblers/cell_pair_assemblers.rs`: `points` and
`jacobians_dets_normals` overwrite the buffers that they are given (`none`: panic). -/
structure GeoMap (R : Type) where
  points : Nat → List (List R) → Option (List (List R))
  jacobiansDetsNormals : Nat → List (List R) → List R → List (List R) →
    Option (List (List R) × List R × List (List R))

variable {R T : Type}

/-- `SingularCellPairAssembler`, `src/boundary_assemblers/cell_pair_assemblers.rs:17-42`. -/
structure SingPair (R T : Type) where
  integrand : Integrand T
  kernel : KernelEvaluator R T
  testEvaluator : GeoMap R
  trialEvaluator : GeoMap R
  testTable : List (List (List (List T)))
  trialTable : List (List (List (List T)))
  k : List (List T)
  test : CellGeom R
  trial : CellGeom R
  weights : List R
  testCell : Nat
  trialCell : Nat

/-- Zero-initialised geometry buffers for `npts` points, `src/boundary_assemblers/cell_pair_assemblers.rs:73-80`. -/
def CellGeom.zeros [Zero R] (npts : Nat) : CellGeom R :=
  { points := zeros2 3 npts
    normals := zeros2 3 npts
    jacobians := zeros2 6 npts
    jdets := List.replicate npts 0 }

/-- `SingularCellPairAssembler::new`, `src/boundary_assemblers/cell_pair_assemblers.rs:54-85`. -/
def SingPair.new [Zero R] [Zero T] (npts derivSize : Nat) (integrand : Integrand T)
    (kernel : KernelEvaluator R T) (testEvaluator trialEvaluator : GeoMap R)
    (testTable trialTable : List (List (List (List T)))) (weights : List R) : SingPair R T :=
  { integrand, kernel, testEvaluator, trialEvaluator, testTable, trialTable
    k := zeros2 derivSize npts
    test := CellGeom.zeros npts
    trial := CellGeom.zeros npts
    weights
    testCell := 0
    trialCell := 0 }

/-- The two evaluator calls of `set_test_cell`/`set_trial_cell` (`src/boundary_assemblers/cell_pair_assemblers.rs:89-96,100-107`
and 274-281), also of the caching loop (234-235): points first, then jacobians, determinants and
normals. -/
def GeoMap.fill (ev : GeoMap R) (cell : Nat) (g : CellGeom R) : Option (CellGeom R) := do
  let p ← ev.points cell g.points
  let x ← ev.jacobiansDetsNormals cell g.jacobians g.jdets g.normals
  some { points := p, normals := x.2.2, jacobians := x.1, jdets := x.2.1 }

/-- `set_test_cell`, `src/boundary_assemblers/cell_pair_assemblers.rs:87-97`. -/
def SingPair.setTestCell (a : SingPair R T) (cell : Nat) : Option (SingPair R T) := do
  let g ← a.testEvaluator.fill cell a.test
  some { a with testCell := cell, test := g }

/-- `set_trial_cell`, `src/boundary_assemblers/cell_pair_assemblers.rs:98-108`. -/
def SingPair.setTrialCell (a : SingPair R T) (cell : Nat) : Option (SingPair R T) := do
  let g ← a.trialEvaluator.fill cell a.trial
  some { a with trialCell := cell, trial := g }

/-- One entry of the local matrix, `src/boundary_assemblers/cell_pair_assemblers.rs:130-149`; `k` is the kernel array after the
evaluation of lines 110-114. -/
def SingPair.entry [Zero T] [Add T] [Mul T] [Mul R] (cast : R → T) (a : SingPair R T)
    (k : List (List T)) (testI trialI : Nat) : Option T :=
  a.weights.zipIdx.foldlM (fun entry (w : R × Nat) => do
    let v ← evaluateSingular cast a.integrand a.testTable a.trialTable w.2 testI trialI k a.test a.trial
    let jt ← a.test.jdets[w.2]?
    let jr ← a.trial.jdets[w.2]?
    some (entry + v * cast (w.1 * (jt * jr)))) 0

/-- `assemble`, `src/boundary_assemblers/cell_pair_assemblers.rs:109-152`: every entry of `local_mat` (a list of columns) is
overwritten. -/
def SingPair.assemble [Zero T] [Add T] [Mul T] [Mul R] (cast : R → T) (a : SingPair R T)
    (localMat : List (List T)) : Option (SingPair R T × List (List T)) := do
  let k ← a.kernel.kernel.assemblePairwiseSt a.kernel.evalType a.test.points a.trial.points a.k
  let m ← localMat.zipIdx.mapM fun (col : List T × Nat) =>
    col.1.zipIdx.mapM fun (e : T × Nat) => a.entry cast k e.2 col.2
  some ({ a with k := k }, m)

/-- `NonsingularCellPairAssemblerWithTestCaching`, `src/boundary_assemblers/cell_pair_assemblers.rs:156-182`; the four vectors
of cached test data are one list of `CellGeom`s; `testIndices` is the `HashMap`. -/
structure NonsingPair (R T : Type) where
  integrand : Integrand T
  kernel : KernelEvaluator R T
  trialEvaluator : GeoMap R
  testTable : List (List (List (List T)))
  trialTable : List (List (List (List T)))
  k : List (List (List T))
  test : List (CellGeom R)
  trial : CellGeom R
  testWeights : List R
  trialWeights : List R
  testCell : Nat
  trialCell : Nat
  testIndices : Map Nat Nat

/-- `NonsingularCellPairAssemblerWithTestCaching::new`, `src/boundary_assemblers/cell_pair_assemblers.rs:194-259`. Inserting in
a `HashMap` puts the newest entry first. -/
def NonsingPair.new [Zero R] [Zero T] (nptsTest nptsTrial derivSize : Nat) (testCells : List Nat)
    (integrand : Integrand T) (kernel : KernelEvaluator R T) (testEvaluator trialEvaluator : GeoMap R)
    (testTable trialTable : List (List (List (List T)))) (testWeights trialWeights : List R) :
    Option (NonsingPair R T) := do
  let cached ← testCells.mapM fun cell => testEvaluator.fill cell (CellGeom.zeros nptsTest)
  some
    { integrand, kernel, trialEvaluator, testTable, trialTable
      k := zeros3 derivSize nptsTest nptsTrial
      test := cached
      trial := CellGeom.zeros nptsTrial
      testWeights, trialWeights
      testCell := 0
      trialCell := 0
      testIndices := testCells.zipIdx.reverse }

/-- `set_test_cell`, `src/boundary_assemblers/cell_pair_assemblers.rs:269-271`. -/
def NonsingPair.setTestCell (a : NonsingPair R T) (cell : Nat) : Option (NonsingPair R T) := do
  let i ← a.testIndices.get? cell
  some { a with testCell := i }

/-- `set_trial_cell`, `src/boundary_assemblers/cell_pair_assemblers.rs:272-282`. -/
def NonsingPair.setTrialCell (a : NonsingPair R T) (cell : Nat) : Option (NonsingPair R T) := do
  let g ← a.trialEvaluator.fill cell a.trial
  some { a with trialCell := cell, trial := g }

/-- One entry of the local matrix, `src/boundary_assemblers/cell_pair_assemblers.rs:307-336`; `tg` is the cached geometry of the
test cell. -/
def NonsingPair.entry [Zero T] [Add T] [Mul T] [Mul R] (cast : R → T) (a : NonsingPair R T)
    (k : List (List (List T))) (tg : CellGeom R) (testI trialI : Nat) : Option T :=
  a.testWeights.zipIdx.foldlM (fun entry (tw : R × Nat) => do
    let jt ← tg.jdets[tw.2]?
    let testIntegrand := cast (tw.1 * jt)
    a.trialWeights.zipIdx.foldlM (fun entry (rw : R × Nat) => do
      let v ← evaluateNonsingular cast a.integrand a.testTable a.trialTable tw.2 rw.2 testI trialI k
        tg a.trial
      let jr ← a.trial.jdets[rw.2]?
      some (entry + v * cast (rw.1 * jr) * testIntegrand)) entry) 0

/-- `assemble`, `src/boundary_assemblers/cell_pair_assemblers.rs:283-339`. -/
def NonsingPair.assemble [Zero T] [Add T] [Mul T] [Mul R] (cast : R → T) (a : NonsingPair R T)
    (localMat : List (List T)) : Option (NonsingPair R T × List (List T)) := do
  let tg ← a.test[a.testCell]?
  let k ← a.kernel.kernel.assembleSt a.kernel.evalType tg.points a.trial.points a.k
  let m ← localMat.zipIdx.mapM fun (col : List T × Nat) =>
    col.1.zipIdx.mapM fun (e : T × Nat) => a.entry cast k tg e.2 col.2
  some ({ a with k := k }, m)

end Bempp
