import Verif.Spec.Dense
import Verif.Spec.Operators
import Mathlib.Algebra.Field.Defs
import Mathlib.Algebra.Ring.Hom.Defs
/-
Renumbered, moved and scaled copies of a surface.
-/
namespace Bempp

variable {R T : Type}

/-- `g'` is the grid `g` with other numbers: entity number `e` of dimension `d` of `g` is entity number `num d e` of
`g'`. Cells keep their type and the order of their sub-entities. -/
structure Grid.Renumbering (g g' : Grid) (num : Nat → Nat → Nat) : Prop where
  types : ∀ t ∈ g.entityTypes 2, t ∈ g'.entityTypes 2
  inj : ∀ d, d ≤ 2 → ∀ e e', e < g.count d → e' < g.count d → num d e = num d e' → e = e'
  onto : ∀ d, d ≤ 2 → ∀ e0, e0 < g'.count d → ∃ e, e < g.count d ∧ num d e = e0
  cell : ∀ c ∈ g.entityIter 2, ∃ c0 ∈ g'.entityIter 2, c0.localIndex = num 2 c.localIndex ∧
    c0.entityType = c.entityType ∧ ∀ d, d ≤ 2 → c0.sub d = (c.sub d).map (num d)

/-- The spaces `sp` and `sp'` have the same basis functions on cells `c` and `num c`, up to the bijection `p` of the
DOF numbers. -/
structure SameDofs (sp sp' : FunctionSpace) (num : Nat → Nat) (p : Nat → Nat) : Prop where
  size : sp'.globalSize = sp.globalSize
  lt : ∀ i, i < sp.globalSize → p i < sp.globalSize
  inj : ∀ i j, i < sp.globalSize → j < sp.globalSize → p i = p j → i = j
  onto : ∀ m, m < sp.globalSize → ∃ i, i < sp.globalSize ∧ p i = m
  cell : ∀ c ∈ sp.grid.entityIter 2, ∃ cd, sp.cellDofs c.localIndex = some cd ∧
    sp'.cellDofs (num c.localIndex) = some (cd.map p)

/-- Two pairs of spaces on the same surfaces with different numbers: what touches in the one pair touches in the other
one, in the same way. -/
structure RenumberedPair (test trial test' trial' : FunctionSpace) (numT numR : Nat → Nat → Nat) : Prop where
  testGrid : test.grid.Renumbering test'.grid numT
  trialGrid : trial.grid.Renumbering trial'.grid numR
  addr : test.grid.addr = trial.grid.addr ↔ test'.grid.addr = trial'.grid.addr
  same : test.grid.addr = trial.grid.addr → numT = numR

/-- The columns of `A` are orthonormal. -/
def Orthonormal3 [Zero R] [One R] [Add R] [Mul R] (A : Nat → Nat → R) : Prop :=
  ∀ j k, j < 3 → k < 3 → A 0 j * A 0 k + A 1 j * A 1 k + A 2 j * A 2 k = if j = k then 1 else 0

/-- Component `i` of `A v`. -/
def matVec [Add R] [Mul R] (A : Nat → Nat → R) (v : Nat → R) (i : Nat) : R :=
  A i 0 * v 0 + A i 1 * v 1 + A i 2 * v 2

/-- The point `s A x + b`. -/
def moved [Zero R] [Add R] [Mul R] (s : R) (A : Nat → Nat → R) (b : Nat → R) (x : List R) : List R :=
  (List.range 3).map fun i => s * matVec A (fun k => x.getD k 0) i + b i

/-- Cell `c'` of the second grid is the image of cell `c` of the first one under `x ↦ s A x + b`. -/
structure SimilarCell [Add R] [Mul R] (s : R) (A : Nat → Nat → R) (b : Nat → R) (G : Geometry R) (c : Nat)
    (G' : Geometry R) (c' : Nat) : Prop where
  point : ∀ x i, i < 3 → G'.point c' x i = s * matVec A (G.point c x) i + b i
  normal : ∀ x i, i < 3 → G'.normal c' x i = matVec A (G.normal c x) i
  jacobian : ∀ x i j, i < 3 → j < 2 → G'.jacobian c' x (3 * j + i) =
    s * matVec A (fun k => G.jacobian c x (3 * j + k)) i
  jdet : ∀ x, G'.jdet c' x = s * s * G.jdet c x

/-- On the images of two points, the kernel `K'` has the value of `κ K`, and its gradient is the gradient of `κ K`
turned by `A` and divided by `s`. -/
structure SimilarKernel [Zero R] [Add R] [Mul R] [Add T] [Mul T] (cast : R → T) (s : R) (A : Nat → Nat → R)
    (b : Nat → R) (κ : T) (K K' : MathKernel R T) : Prop where
  value : ∀ x y, x.length = 3 → y.length = 3 → K' (moved s A b x) (moved s A b y) 0 = κ * K x y 0
  gradient : ∀ x y, x.length = 3 → y.length = 3 → ∀ i, i < 3 →
    cast s * K' (moved s A b x) (moved s A b y) (i + 1) =
      κ * matVec (fun i j => cast (A i j)) (fun k => K x y (k + 1)) i

/-- `asm` and `asm'` are returned by the same constructor, for kernels that evaluate `K` and `K'`; the wavenumber of
the second one is, up to its sign, the wavenumber of the first one divided by `s`. The number `e` depends on the operator: with the
kernels related by `κ`, its matrices are expected to be related by `κ s^e`. -/
inductive ScaledOperator [Add T] [Sub T] [Mul T] [Div T] [Neg T] [Mul R] [Neg R] (cast : R → T) (o : Options) (s : R)
    (K K' : MathKernel R T) : Assembler R T → Assembler R T → Nat → Prop
  | laplaceSingleLayer {k k' : Kernel R T} : k.Computes .value K → k'.Computes .value K' →
      ScaledOperator cast o s K K' (Laplace.singleLayer k o) (Laplace.singleLayer k' o) 4
  | laplaceDoubleLayer {k k' : Kernel R T} : k.Computes .valueDeriv K → k'.Computes .valueDeriv K' →
      ScaledOperator cast o s K K' (Laplace.doubleLayer k o) (Laplace.doubleLayer k' o) 3
  | laplaceAdjoint {k k' : Kernel R T} : k.Computes .valueDeriv K → k'.Computes .valueDeriv K' →
      ScaledOperator cast o s K K' (Laplace.adjointDoubleLayer k o) (Laplace.adjointDoubleLayer k' o) 3
  | laplaceHypersingular {k k' : Kernel R T} : k.Computes .valueDeriv K → k'.Computes .valueDeriv K' →
      ScaledOperator cast o s K K' (Laplace.hypersingular k o) (Laplace.hypersingular k' o) 2
  | helmholtzSingleLayer {k k' : R → Kernel R T} {w w' : R} : (k w).Computes .value K →
      (k' w').Computes .value K' → w * w = s * w' * (s * w') →
      ScaledOperator cast o s K K' (Helmholtz.singleLayer k w o) (Helmholtz.singleLayer k' w' o) 4
  | helmholtzDoubleLayer {k k' : R → Kernel R T} {w w' : R} : (k w).Computes .valueDeriv K →
      (k' w').Computes .valueDeriv K' → w * w = s * w' * (s * w') →
      ScaledOperator cast o s K K' (Helmholtz.doubleLayer k w o) (Helmholtz.doubleLayer k' w' o) 3
  | helmholtzAdjoint {k k' : R → Kernel R T} {w w' : R} : (k w).Computes .valueDeriv K →
      (k' w').Computes .valueDeriv K' → w * w = s * w' * (s * w') →
      ScaledOperator cast o s K K' (Helmholtz.adjointDoubleLayer k w o) (Helmholtz.adjointDoubleLayer k' w' o) 3
  | helmholtzHypersingular {k k' : R → Kernel R T} {w w' : R} : (k w).Computes .valueDeriv K →
      (k' w').Computes .valueDeriv K' → w * w = s * w' * (s * w') →
      ScaledOperator cast o s K K' (Helmholtz.hypersingular cast k w o) (Helmholtz.hypersingular cast k' w' o) 2

end Bempp
