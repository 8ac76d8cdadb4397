import Verif.Spec.Dense
/-
What the properties about the sparse singular part talk about.
-/
namespace Bempp

variable {R T : Type}

/-- Entry `(i, j)` of a matrix in compressed row format: the sum of the stored values of row `i` (positions
`indptr[i] .. indptr[i+1]-1`) whose column index is `j`. -/
def Csr.entry [Zero T] [Add T] (m : Csr T) (i j : Nat) : T :=
  ((((m.indices.zip m.data).take (m.indptr.getD (i + 1) 0)).drop (m.indptr.getD i 0)).map fun x =>
    if x.1 = j then x.2 else 0).sum

/-- Sum of the values of all triplets at `(i, j)`. -/
def tripletSum [Zero T] [Add T] (rows cols : List Nat) (data : List T) (i j : Nat) : T :=
  (((rows.zip cols).zip data).map fun x => if x.1 = (i, j) then x.2 else 0).sum

/-- The contract of `rlst`'s `CsrMatrix::from_aij`: for triplets in range it returns a matrix of the given
shape whose entries are the sums of the triplets. -/
def FromAijOk [Zero T] [Add T] (env : Env R T) : Prop :=
  ∀ (shape : Nat × Nat) (rows cols : List Nat) (data : List T), rows.length = data.length →
    cols.length = data.length → (∀ r ∈ rows, r < shape.1) → (∀ c ∈ cols, c < shape.2) →
    ∃ m, env.fromAij shape rows cols data = some m ∧ m.shape = shape ∧
      m.indptr.length = shape.1 + 1 ∧ (∀ c ∈ m.indices, c < shape.2) ∧
      ∀ i j, i < shape.1 → m.entry i j = tripletSum rows cols data i j

/-- The global DOF numbers of a cell. -/
def FunctionSpace.globalDofs (sp : FunctionSpace) (c : Nat) : List Nat :=
  ((sp.cellDofs c).getD []).map fun n => (sp.globalDofIndex n).getD 0

/-- The sum of `value c c' a b` over all test cells `c` owned by the process, all cells `c'` that touch them
and all local numbers `a`, `b` of basis functions whose global DOF numbers on these cells are `i` and
`j`. -/
def touchingSum [AddCommMonoid T] (test trial : FunctionSpace) (value : Entity → Entity → Nat → Nat → T)
    (i j : Nat) : T :=
  (((test.grid.entityIter 2).filter fun c => c.ownership = .owned).map fun c =>
    (((trial.grid.entityIter 2).filter fun c' => c.Touches c').map fun c' =>
      ((test.globalDofs c.localIndex).zipIdx.map fun (ia : Nat × Nat) =>
        ((trial.globalDofs c'.localIndex).zipIdx.map fun (jb : Nat × Nat) =>
          if ia.1 = i ∧ jb.1 = j then value c c' ia.2 jb.2 else 0).sum).sum).sum).sum

section
variable [Zero T] [Add T] [Mul T] [Mul R]

/-- The singular quadrature value of a pair of cells of one grid. -/
def singularPairValue (cast : R → T) (F : MathIntegrand T) (K : MathKernel R T) (G : Geometry R)
    (BT BR : Basis R T) (Q : Quadrature R) (c c' : Entity) (a b : Nat) : T :=
  singularValue cast F K G G BT BR Q c.entityType c'.entityType (connectivity c c') c.localIndex
    c'.localIndex a b

end
end Bempp
