import Verif.Spec.Dense
import Mathlib.MeasureTheory.Integral.Bochner.Set
import Mathlib.MeasureTheory.Measure.Lebesgue.Basic
import Mathlib.MeasureTheory.Constructions.BorelSpace.Order
import Mathlib.Analysis.RCLike.Basic
/-
The Galerkin matrix in terms of integrals, and what it means that quadrature rules converge.
-/
namespace Bempp
open MeasureTheory Filter Topology

/-- The reference cells. -/
def refCell : CellType → Set (ℝ × ℝ)
  | .triangle => {z | 0 ≤ z.1 ∧ 0 ≤ z.2 ∧ z.1 + z.2 ≤ 1}
  | .quadrilateral => {z | 0 ≤ z.1 ∧ z.1 ≤ 1 ∧ 0 ≤ z.2 ∧ z.2 ≤ 1}
  | _ => ∅

/-- The coordinates of a point of a reference cell as a list. -/
def pointList (z : ℝ × ℝ) : List ℝ := [z.1, z.2]

/-- A sequence of quadrature rules on `S`: the nodes are in `S`, the sums of the absolute values of the weights are
bounded, and for every continuous function the values of the rules converge to the integral. -/
structure RulesConverge (S : Set (ℝ × ℝ)) (rule : Nat → List (List ℝ × ℝ)) : Prop where
  nodes : ∀ n, ∀ p ∈ rule n, ∃ z ∈ S, p.1 = pointList z
  weights : ∃ C, ∀ n, ((rule n).map fun p => |p.2|).sum ≤ C
  limit : ∀ g : List ℝ → ℝ, ContinuousOn (fun z => g (pointList z)) S →
    Tendsto (fun n => ((rule n).map fun p => p.2 * g p.1).sum) atTop (𝓝 (∫ z in S, g (pointList z)))

section
variable {T : Type} [RCLike T]

/-- The integrand of an operator on the reference cells of `c` and `c'`, with the integration elements. -/
noncomputable def pairIntegrand (F : MathIntegrand T) (K : MathKernel ℝ T) (GT GR : Geometry ℝ) (BT BR : Basis ℝ T)
    (t : CellType) (c c' a b : Nat) (x y : List ℝ) : T :=
  F (K (GT.coords c x) (GR.coords c' y)) (fun i => BT t a i x) (fun i => BR t b i y)
    (GT.data RCLike.ofReal c x) (GR.data RCLike.ofReal c' y) *
      ((GT.jdet c x : ℝ) : T) * ((GR.jdet c' y : ℝ) : T)

/-- The integral over the two cells. -/
noncomputable def pairIntegral (F : MathIntegrand T) (K : MathKernel ℝ T) (GT GR : Geometry ℝ) (BT BR : Basis ℝ T)
    (t : CellType) (c c' : Entity) (a b : Nat) : T :=
  ∫ x in refCell t, ∫ y in refCell t,
    pairIntegrand F K GT GR BT BR t c.localIndex c'.localIndex a b (pointList x) (pointList y)

/-- The geometry of a cell is continuous, and its integration element is not 0. -/
structure ContinuousCell (G : Geometry ℝ) (t : CellType) (c : Nat) : Prop where
  point : ∀ i, i < 3 → ContinuousOn (fun z => G.point c (pointList z) i) (refCell t)
  normal : ∀ i, i < 3 → ContinuousOn (fun z => G.normal c (pointList z) i) (refCell t)
  jacobian : ∀ i, i < 6 → ContinuousOn (fun z => G.jacobian c (pointList z) i) (refCell t)
  jdet : ContinuousOn (fun z => G.jdet c (pointList z)) (refCell t)
  jdet_ne : ∀ z ∈ refCell t, G.jdet c (pointList z) ≠ 0

/-- The basis functions and their first derivatives are continuous. -/
def ContinuousBasis (B : Basis ℝ T) (t : CellType) (dim : Nat) : Prop :=
  ∀ a, a < dim → ∀ i, i < 3 → ContinuousOn (fun z => B t a i (pointList z)) (refCell t)

/-- The kernel and its first derivatives are continuous where the two points are different. -/
def ContinuousKernel (K : MathKernel ℝ T) : Prop :=
  ∀ i, i < 4 → ContinuousOn (fun z : (ℝ × ℝ × ℝ) × (ℝ × ℝ × ℝ) =>
    K [z.1.1, z.1.2.1, z.1.2.2] [z.2.1, z.2.2.1, z.2.2.2] i) {z | z.1 ≠ z.2}

/-- Rules for pairs of points converge to the double integral of `f` over `S`. -/
def PairRulesConverge (S : Set (ℝ × ℝ)) (rule : Nat → List (List ℝ × List ℝ × ℝ)) (f : List ℝ → List ℝ → T) : Prop :=
  Tendsto (fun n => ((rule n).map fun p => ((p.2.2 : ℝ) : T) * f p.1 p.2.1).sum) atTop
    (𝓝 (∫ x in S, ∫ y in S, f (pointList x) (pointList y)))

/-- The two cells have no common point. -/
def DisjointCells (GT GR : Geometry ℝ) (t : CellType) (c c' : Nat) : Prop :=
  ∀ x ∈ refCell t, ∀ y ∈ refCell t, GT.coords c (pointList x) ≠ GR.coords c' (pointList y)

end
end Bempp
