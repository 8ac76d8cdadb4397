/-
`rlst` arrays as far as bempp-rs uses them. A two-dimensional array is the list of its columns, a
three-dimensional one a list of two-dimensional ones, and so on (column-major order, last index
outermost). Every access, also the unchecked ones, is bounds checked per index in the model; `none`
stands for a panic (checked access) or undefined behaviour (unchecked access).
-/
namespace Bempp

/-- `get([i, j])` / `get_unchecked([i, j])` of a two-dimensional `rlst` array.
Used for `src/boundary_assemblers/integrands.rs:111,159-169` and the local matrices of `src/boundary_assemblers.rs:660,742`. -/
def get2 {α : Type} (a : List (List α)) (i j : Nat) : Option α := a[j]?.bind (·[i]?)

/-- `get_unchecked([i, j, k])` of a three-dimensional `rlst` array.
Used for `src/boundary_assemblers/integrands.rs:91`. -/
def get3 {α : Type} (a : List (List (List α))) (i j k : Nat) : Option α := a[k]?.bind (get2 · i j)

/-- `get_unchecked([i, j, k, l])` of a four-dimensional `rlst` array.
Used for `src/boundary_assemblers/integrands.rs:136`. -/
def get4 {α : Type} (a : List (List (List (List α)))) (i j k l : Nat) : Option α :=
  a[l]?.bind (get3 · i j k)

/-- `rlst_dynamic_array2!(T, [n0, n1])`: zero-initialised.
Used for `src/boundary_assemblers/cell_pair_assemblers.rs:72-78,210-250`, `src/boundary_assemblers.rs:660-663,742-745`. -/
def zeros2 {α : Type} [Zero α] (n0 n1 : Nat) : List (List α) :=
  List.replicate n1 (List.replicate n0 0)

/-- `rlst_dynamic_array3!(T, [n0, n1, n2])`. Used for `src/boundary_assemblers/cell_pair_assemblers.rs:244`. -/
def zeros3 {α : Type} [Zero α] (n0 n1 n2 : Nat) : List (List (List α)) :=
  List.replicate n2 (zeros2 n0 n1)

end Bempp
