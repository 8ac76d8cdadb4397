import Verif.Spec.Dense
/-
Global basis functions, and spaces that contain each other.
-/
namespace Bempp

variable {R T : Type} [AddCommMonoid T] [Mul T]

/-- Global basis function `i` of a space on cell `c`: its value (`d = 0`) or its reference derivatives at the reference
point `x`. It is the sum of the local basis functions whose DOF on this cell is `i`. -/
def FunctionSpace.basisOn (sp : FunctionSpace) (B : Basis R T) (i : Nat) (c : Entity) (d : Nat) (x : List R) : T :=
  (((sp.cellDofs c.localIndex).getD []).zipIdx.map fun (ja : Nat × Nat) =>
    if ja.1 = i then B c.entityType ja.2 d x else 0).sum

/-- Every basis function `i` of `sub` is the combination of the basis functions `j` of `sup` with the coefficients
`P i j`: their values and first derivatives agree on every cell. -/
structure NestedSpaces (sub sup : FunctionSpace) (B B' : Basis R T) (P : Nat → Nat → T) : Prop where
  grid : sub.grid = sup.grid
  combination : ∀ i, i < sub.globalSize → ∀ c ∈ sub.grid.entityIter 2, ∀ d, d < 3 → ∀ x,
    sub.basisOn B i c d x = ((List.range sup.globalSize).map fun j => P i j * sup.basisOn B' j c d x).sum

/-- The family `fam'` is `fam` without continuity: the same number of functions, all of them in the interior. -/
def BrokenFamily (fam fam' : CellType → ElementDofs) (t : CellType) : Prop :=
  (fam' t).dim = (fam t).dim ∧ (fam' t).entityDofs 2 0 = some (List.range (fam t).dim)

/-- The function with the given coefficients on cell `c`: value (`d = 0`) or reference derivatives at the reference point
`x`. -/
def FunctionSpace.functionOn (sp : FunctionSpace) (B : Basis R T) (u : Nat → T) (c : Entity) (d : Nat) (x : List R) : T :=
  ((List.range sp.globalSize).map fun i => u i * sp.basisOn B i c d x).sum

/-- Coefficients `u` in the one space and `u'` in the other one give the same function: the values and first derivatives
agree on every cell. -/
structure SameFunction (sp sp' : FunctionSpace) (B B' : Basis R T) (u u' : Nat → T) : Prop where
  grid : sp.grid = sp'.grid
  values : ∀ c ∈ sp.grid.entityIter 2, ∀ d, d < 3 → ∀ x, sp.functionOn B u c d x = sp'.functionOn B' u' c d x

/-- The basis functions of the element add up to one, and their derivatives to zero. -/
def PartitionOfUnity [One T] (B : Basis R T) (t : CellType) (dim : Nat) : Prop :=
  ∀ x, ((List.range dim).map fun b => B t b 0 x).sum = 1 ∧ ((List.range dim).map fun b => B t b 1 x).sum = 0 ∧
    ((List.range dim).map fun b => B t b 2 x).sum = 0

/-- `uᵀ M v` for a matrix stored by columns. -/
def formOf (M : List T) (n m : Nat) (u v : Nat → T) : T :=
  ((List.range n).map fun i => ((List.range m).map fun j => u i * v j * M.getD (i + n * j) 0).sum).sum

end Bempp
