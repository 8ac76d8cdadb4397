import Verif.Spec.Inexact
import Verif.Spec.Positive
import Verif.Spec.ShapeSurface
/-
Assembly in floating point arithmetic, with values from the libraries that have errors, of an operator between two spaces on
the same grid.
-/
namespace Bempp

/-- `asm`, with the options `o`, is an operator with integrand `F'`; it is assembled for spaces on the grid `g`. The
arithmetic has a relative error of at most `u` per operation (`A` for real numbers, `B` for the entries of the matrix). The
kernel, the geometry and the basis functions that the libraries return are `D`, and the quadrature rules `Q'`; they are the
exact ones `D'` and `Q` up to `e` times the scales in `S`. `k` is the number of roundings in the integrand. -/
structure FloatAssembly {T : Type} [RCLike T] {u : ℝ} (A : Arith ℝ u) (B : Arith T u) (e : ℝ) (D' : OperatorData T)
    (S : OperatorData ℝ) (Q : Quadrature ℝ) (g : Grid) (t : CellType) (famT famR : CellType → ElementDofs)
    (F' : MathIntegrand T) (W : MathIntegrand ℝ) (k : Nat) (env : Env (Fl A) (Fl B)) (asm : Assembler (Fl A) (Fl B))
    (trial test : Space (Fl A) (Fl B)) (D : OperatorData T) (Q' : Quadrature ℝ) (o : Options)
    (F : MathIntegrand (Fl B)) : Prop where
  cast : env.cast = castFl
  testMade : FunctionSpace.new 0 1 g famT = .done test.fs
  trialMade : FunctionSpace.new 0 1 g famR = .done trial.fs
  sameGeometry : D.testGeometry = D.trialGeometry
  testGeometry : GeometryOk (R := Fl A) test D.testGeometry
  trialGeometry : GeometryOk (R := Fl A) trial D.trialGeometry
  testBasis : TabulateOk (R := Fl A) (T := Fl B) test famT D.testBasis
  trialBasis : TabulateOk (R := Fl A) (T := Fl B) trial famR D.trialBasis
  regular : RegularOk (R := Fl A) env o Q' t
  singular : SingularOk (R := Fl A) env o Q' t t
  operator : OperatorWith env.cast o D.kernel asm F
  rounded : Rounded A B F F' W k
  batch : 0 < o.batchSize
  accurate : D.Within e D' S Q' Q test.fs trial.fs t (famT t).dim (famR t).dim

/-- The exact data of an operator with kernel `K` on a surface with the vertices `V`. -/
noncomputable def shapeData {T : Type} (K : MathKernel ℝ T) (t : CellType) (V : Nat → Nat → Nat → ℝ) (BT BR : Basis ℝ T) :
    OperatorData T :=
  { kernel := K
    testGeometry := vertexGeometry (cellFunctions t) V
    trialGeometry := vertexGeometry (cellFunctions t) V
    testBasis := BT
    trialBasis := BR }

/-- The values of the entries. -/
def values {T : Type} [RCLike T] {u : ℝ} {B : Arith T u} (M : List (Fl B)) : List T := M.map Fl.val

/-- `x` adds up to 0, and solves the linear system with the matrix `M`, stored by columns, and the right-hand side `b` up
to a constant `l`. -/
def SolvesUpTo (M : List ℝ) (n : Nat) (x : Nat → ℝ) (l : ℝ) (b : Nat → ℝ) : Prop :=
  ((List.range n).map x).sum = 0 ∧
    ∀ i, i < n → ((List.range n).map fun j => M.getD (i + n * j) 0 * x j).sum + l = b i

end Bempp
