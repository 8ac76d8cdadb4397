import Verif.Spec.Sparse
/-
What C98 says about spaces and about the sparse format.
-/
namespace Bempp

variable {R T : Type}

/-- Every DOF belongs to one cell only. -/
def FunctionSpace.OneCell (fs : FunctionSpace) : Prop :=
  ∀ c ∈ fs.grid.entityIter 2, ∀ c' ∈ fs.grid.entityIter 2, ∀ cd cd' n, fs.cellDofs c.localIndex = some cd →
    fs.cellDofs c'.localIndex = some cd' → n ∈ cd → n ∈ cd' → c.localIndex = c'.localIndex

/-- The columns and the values that are stored for row `i`. -/
def Csr.storedRow (m : Csr T) (i : Nat) : List (Nat × T) :=
  ((m.indices.zip m.data).take (m.indptr.getD (i + 1) 0)).drop (m.indptr.getD i 0)

/-- The contract of `from_aij` says in addition what is stored: at a position of the triplets, one value, which is the sum of the triplets
at this position. -/
def FromAijStored [Zero T] [Add T] (env : Env R T) : Prop :=
  ∀ (shape : Nat × Nat) (rows cols : List Nat) (data : List T), rows.length = data.length →
    cols.length = data.length → (∀ r ∈ rows, r < shape.1) → (∀ c ∈ cols, c < shape.2) →
    ∀ m, env.fromAij shape rows cols data = some m → ∀ i, i < shape.1 →
      ((m.storedRow i).map Prod.fst).Nodup ∧
      ∀ x ∈ m.storedRow i, (i, x.1) ∈ rows.zip cols ∧ x.2 = tripletSum rows cols data i x.1

end Bempp
