import Verif.Model.Arrays
/-
Model of `src/boundary_assemblers/integrands.rs` and `integrands/*.rs`. All reads are `Option`s: `none`
is an unchecked read outside its array.
-/
namespace Bempp

/-- `GeometryAccess`, `src/boundary_assemblers/integrands.rs:42-65`: the data of one cell at one point. -/
structure GeomAcc (T : Type) where
  point : Nat → Option T
  normal : Nat → Option T
  jacobian : Nat → Option T
  jdet : Option T

/-- `BoundaryIntegrand::evaluate`, `src/boundary_assemblers/integrands.rs:188-195`. An integrand is its `evaluate` function: the
provided methods `evaluate_nonsingular/evaluate_singular` (197-240) are never overridden by anything
else than a copy of themselves (`src/boundary_assemblers/integrands/hypersingular.rs:101-141`). -/
def Integrand (T : Type) : Type :=
  (k : Nat → Option T) → (testTable trialTable : Nat → Nat → Option T) →
  (testGeometry trialGeometry : GeomAcc T) → Option T

/-- `CellGeometry` / `AssemblerGeometry`, `src/boundary_assemblers/helpers.rs:42-54,119-156`. -/
structure CellGeom (R : Type) where
  points : List (List R)
  normals : List (List R)
  jacobians : List (List R)
  jdets : List R

/-- `Geometry`, `src/boundary_assemblers/integrands.rs:141-176`: read the data of point `p` and convert it to `T`. -/
def CellGeom.at {R T : Type} (cast : R → T) (g : CellGeom R) (p : Nat) : GeomAcc T :=
  { point := fun i => (get2 g.points i p).map cast
    normal := fun i => (get2 g.normals i p).map cast
    jacobian := fun i => (get2 g.jacobians i p).map cast
    jdet := (g.jdets[p]?).map cast }

/-- `evaluate_nonsingular`, `src/boundary_assemblers/integrands.rs:199-218`, with `NonSingularKernel::get` (88-92),
`Table::get` (133-137). -/
def evaluateNonsingular {R T : Type} (cast : R → T) (f : Integrand T)
    (testTable trialTable : List (List (List (List T)))) (testPt trialPt testBasis trialBasis : Nat)
    (k : List (List (List T))) (testGeom trialGeom : CellGeom R) : Option T :=
  f (fun i => get3 k i testPt trialPt)
    (fun i j => get4 testTable i testPt testBasis j)
    (fun i j => get4 trialTable i trialPt trialBasis j)
    (testGeom.at cast testPt) (trialGeom.at cast trialPt)

/-- `evaluate_singular`, `src/boundary_assemblers/integrands.rs:222-240`, with `SingularKernel::get` (110-112). -/
def evaluateSingular {R T : Type} (cast : R → T) (f : Integrand T)
    (testTable trialTable : List (List (List (List T)))) (pt testBasis trialBasis : Nat)
    (k : List (List T)) (testGeom trialGeom : CellGeom R) : Option T :=
  f (fun i => get2 k i pt)
    (fun i j => get4 testTable i pt testBasis j)
    (fun i j => get4 trialTable i pt trialBasis j)
    (testGeom.at cast pt) (trialGeom.at cast pt)

variable {T : Type}

/-- `BoundaryIntegrandSum::evaluate`, `src/boundary_assemblers/integrands.rs:270-283`. -/
def Integrand.sum [Add T] (f g : Integrand T) : Integrand T := fun k a b ga gb => do
  let x ← f k a b ga gb
  let y ← g k a b ga gb
  some (x + y)

/-- `BoundaryIntegrandTimesScalar::evaluate`, `src/boundary_assemblers/integrands.rs:304-316`. -/
def Integrand.timesScalar [Mul T] (s : T) (f : Integrand T) : Integrand T := fun k a b ga gb => do
  let x ← f k a b ga gb
  some (s * x)

/-- `SingleLayerBoundaryIntegrand::evaluate`, `src/boundary_assemblers/integrands/single_layer.rs:23-32`. -/
def singleLayer [Mul T] : Integrand T := fun k test trial _ _ => do
  let k0 ← k 0
  let u ← test 0 0
  let v ← trial 0 0
  some (k0 * u * v)

/-- `DoubleLayerBoundaryIntegrand::evaluate`, `src/boundary_assemblers/integrands/double_layer.rs:23-38`. -/
def doubleLayer [Add T] [Mul T] : Integrand T := fun k test trial _ trialG => do
  let k1 ← k 1
  let n0 ← trialG.normal 0
  let k2 ← k 2
  let n1 ← trialG.normal 1
  let k3 ← k 3
  let n2 ← trialG.normal 2
  let u ← test 0 0
  let v ← trial 0 0
  some ((k1 * n0 + k2 * n1 + k3 * n2) * u * v)

/-- `AdjointDoubleLayerBoundaryIntegrand::evaluate`, `src/boundary_assemblers/integrands/adjoint_double_layer.rs:23-38`. -/
def adjointDoubleLayer [Add T] [Mul T] [Neg T] : Integrand T := fun k test trial testG _ => do
  let k1 ← k 1
  let n0 ← testG.normal 0
  let k2 ← k 2
  let n1 ← testG.normal 1
  let k3 ← k 3
  let n2 ← testG.normal 2
  let u ← test 0 0
  let v ← trial 0 0
  some (-(k1 * n0 + k2 * n1 + k3 * n2) * u * v)

/-- `HypersingularCurlCurlBoundaryIntegrand::evaluate`, `src/boundary_assemblers/integrands/hypersingular.rs:31-57`. -/
def hypersingularCurlCurl [Add T] [Sub T] [Mul T] [Div T] : Integrand T := fun k test trial tG rG => do
  let test0 ← test 1 0
  let test1 ← test 2 0
  let trial0 ← trial 1 0
  let trial1 ← trial 2 0
  let k0 ← k 0
  let t0 ← tG.jacobian 0
  let t1 ← tG.jacobian 1
  let t2 ← tG.jacobian 2
  let t3 ← tG.jacobian 3
  let t4 ← tG.jacobian 4
  let t5 ← tG.jacobian 5
  let r0 ← rG.jacobian 0
  let r1 ← rG.jacobian 1
  let r2 ← rG.jacobian 2
  let r3 ← rG.jacobian 3
  let r4 ← rG.jacobian 4
  let r5 ← rG.jacobian 5
  let dt ← tG.jdet
  let dr ← rG.jdet
  some (k0 * ((t3 * test0 - t0 * test1) * (r3 * trial0 - r0 * trial1)
      + (t4 * test0 - t1 * test1) * (r4 * trial0 - r1 * trial1)
      + (t5 * test0 - t2 * test1) * (r5 * trial0 - r2 * trial1)) / dt / dr)

/-- `HypersingularNormalNormalBoundaryIntegrand::evaluate`, `src/boundary_assemblers/integrands/hypersingular.rs:83-99`. -/
def hypersingularNormalNormal [Add T] [Mul T] : Integrand T := fun k test trial tG rG => do
  let k0 ← k 0
  let r0 ← rG.normal 0
  let t0 ← tG.normal 0
  let r1 ← rG.normal 1
  let t1 ← tG.normal 1
  let r2 ← rG.normal 2
  let t2 ← tG.normal 2
  let u ← test 0 0
  let v ← trial 0 0
  some (k0 * (r0 * t0 + r1 * t1 + r2 * t2) * u * v)

end Bempp
