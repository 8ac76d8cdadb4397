import Verif.Spec.Rounding
/-
Kernel, geometry, basis functions and quadrature rules that are known up to an error, as the values that external libraries
compute.
-/
namespace Bempp

/-- `x` is `y` up to `e * s`, where `s` is a bound for `y`. With `s = ‖y‖` this is a relative error; a larger `s` allows
for instance an error of a component relative to the length of the vector. -/
def Within {𝕜 : Type} [NormedField 𝕜] (e : ℝ) (x y : 𝕜) (s : ℝ) : Prop := ‖x - y‖ ≤ e * s ∧ ‖y‖ ≤ s

/-- On cell `c`, the geometry `G` at reference point `x` is `G'` at reference point `x'` up to `e` times the scales in
`S`. The integration element is not 0, and has a relative error of `e`, both relative to the exact and to the inexact
value. -/
structure Geometry.WithinAt (e : ℝ) (G G' S : Geometry ℝ) (c : Nat) (x x' : List ℝ) : Prop where
  normal : ∀ i, i < 3 → Within e (G.normal c x i) (G'.normal c x' i) (S.normal c x' i)
  jacobian : ∀ i, i < 6 → Within e (G.jacobian c x i) (G'.jacobian c x' i) (S.jacobian c x' i)
  scale : S.jdet c x' = |G'.jdet c x'|
  jdet : |G.jdet c x - G'.jdet c x'| ≤ e * |G'.jdet c x'|
  jdet' : |G.jdet c x - G'.jdet c x'| ≤ e * |G.jdet c x|
  pos : G'.jdet c x' ≠ 0

/-- The values of kernel, geometry and basis functions that an operator is assembled from. -/
structure OperatorData (T : Type) where
  kernel : MathKernel ℝ T
  testGeometry : Geometry ℝ
  trialGeometry : Geometry ℝ
  testBasis : Basis ℝ T
  trialBasis : Basis ℝ T

/-- `x` and `y` are points at which the kernel is evaluated for the cells `c` and `c'`. -/
def Quadrature.Pair (Q : Quadrature ℝ) (test trial : FunctionSpace) (c c' : Entity) (x y : List ℝ) : Prop :=
  if test.grid.addr = trial.grid.addr ∧ c.Touches c' then
    ∃ p ∈ Q.singular c.entityType c'.entityType (connectivity c c'), x = p.1 ∧ y = p.2.1
  else (∃ p ∈ Q.regular c.entityType, x = p.1) ∧ ∃ q ∈ Q.regular c'.entityType, y = q.1

/-- The rules `Q` for cells of type `t` have as many nodes as the rules `Q'`, and weights with a relative error of at
most `e`. -/
structure Quadrature.Within (e : ℝ) (Q Q' : Quadrature ℝ) (t : CellType) : Prop where
  regular : List.Forall₂ (fun p p' => |p.2 - p'.2| ≤ e * |p'.2|) (Q.regular t) (Q'.regular t)
  singular : ∀ con : Connectivity, con.Possible t t →
    List.Forall₂ (fun p p' => |p.2.2 - p'.2.2| ≤ e * |p'.2.2|) (Q.singular t t con) (Q'.singular t t con)

/-- `x` is a node of one of the rules `Q` for cells of type `t`, on one of the two cells, and `x'` is the node at the same
place in the rules `Q'`. -/
def Quadrature.Nodes (Q Q' : Quadrature ℝ) (t : CellType) (x x' : List ℝ) : Prop :=
  (∃ p ∈ (Q.regular t).zip (Q'.regular t), x = p.1.1 ∧ x' = p.2.1) ∨
    ∃ con : Connectivity, con.Possible t t ∧ ∃ p ∈ (Q.singular t t con).zip (Q'.singular t t con),
      (x = p.1.1 ∧ x' = p.2.1) ∨ (x = p.1.2.1 ∧ x' = p.2.2.1)

/-- `x` and `y` are points at which the kernel is evaluated for the cells `c` and `c'` with the rules `Q`, and `x'` and `y'`
are the points at the same place in the rules `Q'`. -/
def Quadrature.Pairs (Q Q' : Quadrature ℝ) (test trial : FunctionSpace) (c c' : Entity) (x y x' y' : List ℝ) : Prop :=
  if test.grid.addr = trial.grid.addr ∧ c.Touches c' then
    ∃ p ∈ (Q.singular c.entityType c'.entityType (connectivity c c')).zip
        (Q'.singular c.entityType c'.entityType (connectivity c c')),
      x = p.1.1 ∧ y = p.1.2.1 ∧ x' = p.2.1 ∧ y' = p.2.2.1
  else (∃ p ∈ (Q.regular c.entityType).zip (Q'.regular c.entityType), x = p.1.1 ∧ x' = p.2.1) ∧
    ∃ q ∈ (Q.regular c'.entityType).zip (Q'.regular c'.entityType), y = q.1.1 ∧ y' = q.2.1

/-- The weights of the rules `Q`, and the values of the data `D` at the nodes of `Q`, are the weights of the rules `Q'` and
the values of `D'` at the nodes of `Q'`, up to `e` times the scales in `S`. -/
structure OperatorData.Within {T : Type} [NormedField T] (e : ℝ) (D D' : OperatorData T) (S : OperatorData ℝ)
    (Q Q' : Quadrature ℝ) (test trial : FunctionSpace) (t : CellType) (dimT dimR : Nat) : Prop where
  weights : Q.Within e Q' t
  testGeometry : ∀ c ∈ test.grid.entityIter 2, ∀ x x', Q.Nodes Q' t x x' →
    Geometry.WithinAt e D.testGeometry D'.testGeometry S.testGeometry c.localIndex x x'
  trialGeometry : ∀ c ∈ trial.grid.entityIter 2, ∀ x x', Q.Nodes Q' t x x' →
    Geometry.WithinAt e D.trialGeometry D'.trialGeometry S.trialGeometry c.localIndex x x'
  testBasis : ∀ x x', Q.Nodes Q' t x x' → ∀ a i, a < dimT → i < 3 →
    Bempp.Within e (D.testBasis t a i x) (D'.testBasis t a i x') (S.testBasis t a i x')
  trialBasis : ∀ x x', Q.Nodes Q' t x x' → ∀ a i, a < dimR → i < 3 →
    Bempp.Within e (D.trialBasis t a i x) (D'.trialBasis t a i x') (S.trialBasis t a i x')
  kernel : ∀ c ∈ test.grid.entityIter 2, ∀ c' ∈ trial.grid.entityIter 2, ∀ x y x' y',
    Q.Pairs Q' test trial c c' x y x' y' → ∀ i, i < 4 → Bempp.Within e
      (D.kernel (D.testGeometry.coords c.localIndex x) (D.trialGeometry.coords c'.localIndex y) i)
      (D'.kernel (D'.testGeometry.coords c.localIndex x') (D'.trialGeometry.coords c'.localIndex y') i)
      (S.kernel (S.testGeometry.coords c.localIndex x') (S.trialGeometry.coords c'.localIndex y') i)

/-- The entry of the matrix in exact arithmetic, for the given data. -/
noncomputable def dataEntry {𝕜 : Type} [NormedField 𝕜] [NormedAlgebra ℝ 𝕜] (D : OperatorData 𝕜) (Q : Quadrature ℝ)
    (test trial : FunctionSpace) (i j : Nat) (F : MathIntegrand 𝕜) : 𝕜 :=
  exactEntry D.kernel D.testGeometry D.trialGeometry D.testBasis D.trialBasis Q test trial i j F

/-- The same sum with the scales and the absolute values of the weights. -/
noncomputable def scaleEntry (S : OperatorData ℝ) (Q : Quadrature ℝ) (test trial : FunctionSpace) (i j : Nat)
    (W : MathIntegrand ℝ) : ℝ :=
  doubleSum test trial (cellPairValue id W S.kernel S.testGeometry S.trialGeometry S.testBasis S.trialBasis Q.abs test
    trial) i j

/-- The number of inexact factors in the products of an operator: the kernel, the basis functions, the normals and the
Jacobians in the integrand, the divisions by integration elements, the two integration elements and the weights (two for
regular rules, one for singular ones). -/
inductive Factors {𝕜 : Type} [NormedField 𝕜] [NormedAlgebra ℝ 𝕜] : MathIntegrand 𝕜 → MathIntegrand ℝ → Nat → Prop
  | singleLayer : Factors slF slF 7
  | doubleLayer : Factors dlF dlF 8
  | adjointDoubleLayer : Factors adlF adlAbsF 8
  | hypersingular : Factors curlCurlF curlCurlAbsF 11
  | helmholtzHypersingular (w : ℝ) : Factors (helmholtzHypF (algebraMap ℝ 𝕜) w) (helmholtzHypAbsF w) 11

end Bempp
