import Verif.Spec.ShapeFloat
import Verif.Spec.ShapeRounding
/-
Errors of the values that the libraries return, for vertices with errors.
-/
namespace Bempp

/-- On cell `c`, the geometry `G` at reference point `x` is `G'` at reference point `x'`, up to absolute or relative errors of
`e`. -/
structure Geometry.NearAt (e : ℝ) (G G' : Geometry ℝ) (c : Nat) (x x' : List ℝ) : Prop where
  point : ∀ i, i < 3 → |G.point c x i - G'.point c x' i| ≤ e * (1 + |G'.point c x' i|)
  normal : ∀ i, i < 3 → |G.normal c x i - G'.normal c x' i| ≤ e * (1 + |G'.normal c x' i|)
  jacobian : ∀ i, i < 6 → |G.jacobian c x i - G'.jacobian c x' i| ≤ e * (1 + |G'.jacobian c x' i|)
  jdet : |G.jdet c x - G'.jdet c x'| ≤ e * (1 + |G'.jdet c x'|)

/-- Every coordinate of the `n` vertices of the cells has an error of at most `e`. -/
def NearVertices (e : ℝ) (g : Grid) (n : Nat) (V' V : Nat → Nat → Nat → ℝ) : Prop :=
  ∀ c ∈ g.entityIter 2, ∀ k i, k < n → i < 3 → |V' c.localIndex k i - V c.localIndex k i| ≤ e

/-- What the libraries return, for the vertices `V'` that they were given: the rules `Q'` are `Q` with errors; the geometry at
the nodes is that of the surface with the vertices `V'`, the basis functions are `BT` and `BR`, and the kernel, evaluated at
the points that were computed, is `K`, all up to absolute or relative errors of `e`. -/
structure LibraryData {T : Type} [NormedField T] (e : ℝ) (D : OperatorData T) (K : MathKernel ℝ T) (t : CellType)
    (V' : Nat → Nat → Nat → ℝ) (BT BR : Basis ℝ T) (Q' Q : Quadrature ℝ) (test trial : FunctionSpace) (dimT dimR : Nat) :
    Prop where
  weights : Q'.Within e Q t
  testGeometry : ∀ c ∈ test.grid.entityIter 2, ∀ x x', Q'.Nodes Q t x x' →
    Geometry.NearAt e D.testGeometry (vertexGeometry (cellFunctions t) V') c.localIndex x x'
  trialGeometry : ∀ c ∈ trial.grid.entityIter 2, ∀ x x', Q'.Nodes Q t x x' →
    Geometry.NearAt e D.trialGeometry (vertexGeometry (cellFunctions t) V') c.localIndex x x'
  testBasis : ∀ x x', Q'.Nodes Q t x x' → ∀ a i, a < dimT → i < 3 →
    ‖D.testBasis t a i x - BT t a i x'‖ ≤ e * (1 + ‖BT t a i x'‖)
  trialBasis : ∀ x x', Q'.Nodes Q t x x' → ∀ a i, a < dimR → i < 3 →
    ‖D.trialBasis t a i x - BR t a i x'‖ ≤ e * (1 + ‖BR t a i x'‖)
  kernel : ∀ c ∈ test.grid.entityIter 2, ∀ c' ∈ trial.grid.entityIter 2, ∀ x y x' y',
    Q'.Pairs Q test trial c c' x y x' y' → ∀ i, i < 4 →
      ‖D.kernel (D.testGeometry.coords c.localIndex x) (D.trialGeometry.coords c'.localIndex y) i -
        K (D.testGeometry.coords c.localIndex x) (D.trialGeometry.coords c'.localIndex y) i‖ ≤
      e * (1 + ‖K (D.testGeometry.coords c.localIndex x) (D.trialGeometry.coords c'.localIndex y) i‖)

/-- The nodes of the rules for cells that touch each other are different points of the surface with the vertices `V`, and the
nodes of the rules for one cell are in the reference cell. -/
structure SeparateNodes (g : Grid) (t : CellType) (V : Nat → Nat → Nat → ℝ) (Q : Quadrature ℝ) : Prop where
  singular : ∀ c ∈ g.entityIter 2, ∀ c' ∈ g.entityIter 2, c.Touches c' →
    ∀ p ∈ Q.singular t t (connectivity c c'), (vertexGeometry (cellFunctions t) V).coords c.localIndex p.1 ≠
      (vertexGeometry (cellFunctions t) V).coords c'.localIndex p.2.1
  regular : ∀ p ∈ Q.regular t, ∃ z ∈ refCell t, p.1 = pointList z

/-- Scales for the errors of the data. -/
noncomputable def Geometry.scales (G : Geometry ℝ) : Geometry ℝ :=
  { point := G.point
    normal := fun c x i => 1 + |G.normal c x i|
    jacobian := fun c x i => 1 + |G.jacobian c x i|
    jdet := fun c x => |G.jdet c x| }

noncomputable def OperatorData.scales {T : Type} [NormedField T] (D : OperatorData T) : OperatorData ℝ :=
  { kernel := fun x y i => 1 + ‖D.kernel x y i‖
    testGeometry := D.testGeometry.scales
    trialGeometry := D.trialGeometry.scales
    testBasis := fun t a i x => 1 + ‖D.testBasis t a i x‖
    trialBasis := fun t a i x => 1 + ‖D.trialBasis t a i x‖ }

/-- As `FloatAssembly`, with `LibraryData`: the vertices that the libraries were given are `V'`. -/
structure LibraryAssembly {T : Type} [RCLike T] {u : ℝ} (A : Arith ℝ u) (B : Arith T u) (e : ℝ) (K : MathKernel ℝ T)
    (V' : Nat → Nat → Nat → ℝ) (BT BR : Basis ℝ T) (Q : Quadrature ℝ) (g : Grid) (t : CellType)
    (famT famR : CellType → ElementDofs) (F' : MathIntegrand T) (W : MathIntegrand ℝ) (k : Nat) (env : Env (Fl A) (Fl B))
    (asm : Assembler (Fl A) (Fl B)) (trial test : Space (Fl A) (Fl B)) (D : OperatorData T) (Q' : Quadrature ℝ) (o : Options)
    (F : MathIntegrand (Fl B)) : Prop where
  cast : env.cast = castFl
  testMade : FunctionSpace.new 0 1 g famT = .done test.fs
  trialMade : FunctionSpace.new 0 1 g famR = .done trial.fs
  sameGeometry : D.testGeometry = D.trialGeometry
  testGeometry : GeometryOk (R := Fl A) test D.testGeometry
  trialGeometry : GeometryOk (R := Fl A) trial D.trialGeometry
  testBasis : TabulateOk (R := Fl A) (T := Fl B) test famT D.testBasis
  trialBasis : TabulateOk (R := Fl A) (T := Fl B) trial famR D.trialBasis
  regular : RegularOk (R := Fl A) env o Q' t
  singular : SingularOk (R := Fl A) env o Q' t t
  operator : OperatorWith env.cast o D.kernel asm F
  rounded : Rounded A B F F' W k
  batch : 0 < o.batchSize
  accurate : LibraryData e D K t V' BT BR Q' Q test.fs trial.fs (famT t).dim (famR t).dim

/-- `s` is a sphere of level `n`, or a screen with `n` cells on each side, in exact arithmetic; `s'` is the same shape as it
is computed in the arithmetic `A`. -/
def ComputedShape {u : ℝ} (A : Arith ℝ u) (n : Nat) (t : CellType) (s : Shape ℝ) (s' : Shape (Fl A)) : Prop :=
  (t = .triangle ∧ realSphere n = some s ∧ ∃ sqrt, RoundedSqrt A sqrt ∧ regularSphere halfFl sqrt n = some s') ∨
  (t = .triangle ∧ screenTriangles (fun k => (k : ℝ)) n = some s ∧
    ∃ fromNat, RoundedNat A fromNat ∧ screenTriangles fromNat n = some s') ∨
  (t = .quadrilateral ∧ screenQuadrilaterals (fun k => (k : ℝ)) n = some s ∧
    ∃ fromNat, RoundedNat A fromNat ∧ screenQuadrilaterals fromNat n = some s')

end Bempp
