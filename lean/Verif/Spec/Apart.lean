import Verif.Spec.Dense
import Verif.Spec.ShapeSurface
import Verif.Spec.Convergence
/-
The points at which the kernel is evaluated.
-/
namespace Bempp

variable {R T : Type}

/-- Two kernel objects that do the same whenever they are asked for values at pairs of different points only. At coinciding
points, where Green's functions are singular, one may return a number and the other one something else, or panic. -/
structure Kernel.SameApart (k k' : Kernel R T) : Prop where
  pairwise : ∀ et src tgt res, (∀ p ∈ src.zip tgt, p.1 ≠ p.2) →
    k.assemblePairwiseSt et src tgt res = k'.assemblePairwiseSt et src tgt res
  all : ∀ et src tgt res, (∀ x ∈ src, ∀ y ∈ tgt, x ≠ y) → k.assembleSt et src tgt res = k'.assembleSt et src tgt res

/-- `Kernel.Computes` for pairs of different points only: at coinciding points anything may happen. -/
structure Kernel.ComputesApart (k : Kernel R T) (et : EvalType) (G : MathKernel R T) : Prop where
  pairwise : ∀ (n : Nat) (src tgt : List (List R)) (res : List (List T)), Shape2 3 n src →
    Shape2 3 n tgt → Shape2 et.comps n res → (∀ p ∈ src.zip tgt, p.1 ≠ p.2) → k.assemblePairwiseSt et src tgt res =
      some (List.zipWith (fun x y => (List.range et.comps).map (G x y)) src tgt)
  all : ∀ (m n : Nat) (src tgt : List (List R)) (res : List (List (List T))), Shape2 3 m src →
    Shape2 3 n tgt → Shape3 et.comps m n res → (∀ x ∈ src, ∀ y ∈ tgt, x ≠ y) → k.assembleSt et src tgt res =
      some (tgt.map fun y => src.map fun x => (List.range et.comps).map (G x y))

/-- The same operator with another kernel object. -/
def Assembler.withKernel (asm : Assembler R T) (k : Kernel R T) : Assembler R T :=
  { asm with kernel := { asm.kernel with kernel := k } }

/-- The rules do not pair a point of a test cell with the same point of a trial cell. -/
structure NodesApart (Q : Quadrature R) (GT GR : Geometry R) (test trial : Grid) : Prop where
  singular : ∀ c ∈ test.entityIter 2, ∀ c' ∈ trial.entityIter 2, test.addr = trial.addr → c.Touches c' →
    ∀ p ∈ Q.singular c.entityType c'.entityType (connectivity c c'),
      GT.coords c.localIndex p.1 ≠ GR.coords c'.localIndex p.2.1
  regular : ∀ c ∈ test.entityIter 2, ∀ c' ∈ trial.entityIter 2, ¬ (test.addr = trial.addr ∧ c.Touches c') →
    ∀ p ∈ Q.regular c.entityType, ∀ q ∈ Q.regular c'.entityType,
      GT.coords c.localIndex p.1 ≠ GR.coords c'.localIndex q.1

/-- An operator whose kernel object returns the values of `G` at pairs of different points. -/
structure Assembler.ComputesApart (asm : Assembler R T) (F : MathIntegrand T) (G : MathKernel R T) : Prop where
  integrand : asm.integrand.Computes F asm.derivSize (numDerivs asm.tableDerivs)
  kernel : asm.kernel.kernel.ComputesApart asm.kernel.evalType G
  comps : asm.kernel.evalType.comps = asm.derivSize

/-- The inside of the reference cells. -/
def openCell : CellType → Set (ℝ × ℝ)
  | .triangle => {z | 0 < z.1 ∧ 0 < z.2 ∧ z.1 + z.2 < 1}
  | .quadrilateral => {z | 0 < z.1 ∧ z.1 < 1 ∧ 0 < z.2 ∧ z.2 < 1}
  | _ => ∅

/-- What is needed of the rules: the nodes of the regular rule are in the cell; the nodes of the singular rules are inside of
the cells, and if the two cells are the same then the two points are different. Rules made from Gauss points by the
transformations of Duffy, Sauter and Schwab are like that. -/
structure Quadrature.Inside (Q : Quadrature ℝ) (t : CellType) : Prop where
  regular : ∀ p ∈ Q.regular t, ∃ z ∈ refCell t, p.1 = pointList z
  singular : ∀ con : Connectivity, con.Possible t t → ∀ p ∈ Q.singular t t con, ∃ z ∈ openCell t, ∃ w ∈ openCell t,
    p.1 = pointList z ∧ p.2.1 = pointList w
  same : ∀ con : Connectivity, con.Possible t t → con.connectivityDimension = 2 → ∀ p ∈ Q.singular t t con, p.1 ≠ p.2.1

end Bempp
