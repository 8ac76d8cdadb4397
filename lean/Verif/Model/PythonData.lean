import Verif.Model.Operators
/-
Model of how numbers get from Rust to Python: the methods of `FunctionSpace` in `python/bempp/function_space.py`, the
methods of `BoundaryAssembler` in `python/bempp/assembly/boundary.py` and the functions of `src/bindings/space.rs`,
`src/bindings/matrices.rs`, `src/bindings/boundary_assemblers.rs` they call. The function space behind the C interface
is a `FunctionSpace` (the bindings were written for its predecessor, see `Model/LocalSpace`). `c_api_tools` is not
modelled: its `concretise_types` finds the Rust type of the boxed arguments and panics if there is none in its list.
-/
namespace Bempp

/-- How a call from Python ends: with a value, with a Python exception, with a Rust panic (which ends the process), or with
undefined behaviour (writes outside an array, reads of memory that was not written or was freed).
For the functions of `python/bempp/function_space.py:72-118`, `python/bempp/assembly/boundary.py:22-32,127-155`. -/
inductive Ffi (α : Type) where
  | ok (a : α)
  | raised
  | panic
  | undefined

namespace Ffi
variable {α β : Type}

protected def bind (x : Ffi α) (f : α → Ffi β) : Ffi β :=
  match x with
  | .ok a => f a
  | .raised => .raised
  | .panic => .panic
  | .undefined => .undefined

/-- Sequencing of statements, for the functions of `python/bempp/function_space.py:72-118`, `python/bempp/assembly/boundary.py:22-32,127-155`. -/
instance : Monad Ffi where
  pure := Ffi.ok
  bind := Ffi.bind

/-- A Rust function that may panic. For example `src/bindings/space.rs:76-106`. -/
def rust : Option α → Ffi α
  | some a => .ok a
  | none => .panic

/-- A memory access. For example `src/bindings/space.rs:97-105`. -/
def mem : Option α → Ffi α
  | some a => .ok a
  | none => .undefined

end Ffi

/-- A one-dimensional `numpy` array; an element that was not written since `np.empty` has no value.
Made at `python/bempp/function_space.py:74-77,87`, `python/bempp/assembly/boundary.py:25-27`. -/
abbrev NpBuffer (α : Type) := List (Option α)

/-- `np.empty(n)`. `python/bempp/function_space.py:74-77,87`, `python/bempp/assembly/boundary.py:25-27`. -/
def NpBuffer.empty (α : Type) (n : Nat) : NpBuffer α := List.replicate n none

/-- `*ptr.add(i) = x`. `src/bindings/space.rs:97-105,160-164`. -/
def NpBuffer.write {α : Type} (b : NpBuffer α) (i : Nat) (x : α) : Ffi (NpBuffer α) :=
  Ffi.mem (if i < b.length then some (b.set i (some x)) else none)

/-- `for (i, j) in src.iter().enumerate() { *ptr.add(i) = *j; }`, `src/bindings/space.rs:97-105,160-164`,
`src/bindings/matrices.rs:46-48,79-81,108-110,134-136`. -/
def copyToBuffer {α : Type} : List α → Nat → NpBuffer α → Ffi (NpBuffer α)
  | [], _, b => .ok b
  | x :: src, i, b => do copyToBuffer src (i + 1) (← b.write i x)

/-- Read a whole array (`[int(i) for i in dofs]`, or its use by SciPy).
`python/bempp/function_space.py:81,89`, `python/bempp/assembly/boundary.py:32`. -/
def NpBuffer.read {α : Type} (b : NpBuffer α) : Ffi (List α) := Ffi.mem (b.mapM id)

/-- `FunctionSpace.get_local_dof_numbers`, `python/bempp/function_space.py:72-81`, with
`space_get_local_dof_numbers_size`, `space_get_local_dof_numbers`, `src/bindings/space.rs:76-106`. -/
def pyGetLocalDofNumbers (fs : FunctionSpace) (d e : Nat) : Ffi (List Nat) := do
  let size ← Ffi.rust ((fs.getLocalDofNumbers d e).map List.length)
  let dofs := NpBuffer.empty Nat size
  let src ← Ffi.rust (fs.getLocalDofNumbers d e)
  let dofs ← copyToBuffer src 0 dofs
  dofs.read

/-- `FunctionSpace.cell_dofs`, `python/bempp/function_space.py:83-89`, with `space_has_cell_dofs`,
`space_cell_dofs_size`, `space_cell_dofs`, `src/bindings/space.rs:137-165`. -/
def pyCellDofs (fs : FunctionSpace) (cell : Nat) : Ffi (Option (List Nat)) :=
  if (fs.cellDofs cell).isSome = false then .ok none
  else do
    let size ← Ffi.rust ((fs.cellDofs cell).map List.length)
    let dofs := NpBuffer.empty Nat size
    let src ← Ffi.rust (fs.cellDofs cell)
    let dofs ← copyToBuffer src 0 dofs
    return some (← dofs.read)

/-- `FunctionSpace.global_dof_index`, `python/bempp/function_space.py:91-93`, `src/bindings/space.rs:174-176`. -/
def pyGlobalDofIndex (fs : FunctionSpace) (i : Nat) : Ffi Nat := Ffi.rust (fs.globalDofIndex i)

/-- `FunctionSpace.ownership`, `python/bempp/function_space.py:95-103`, `src/bindings/space.rs:185-187`: `true` for an owned
DOF; the functions called for a ghost do not exist, which is an `AttributeError`. -/
def pyIsOwned (fs : FunctionSpace) (i : Nat) : Ffi Bool := do
  let o ← Ffi.rust (fs.ownership i)
  match o with
  | .owned => return true
  | .ghost _ _ => .raised

/-- The scalar types, `c_api_tools::DType`.
Imported at `src/bindings/boundary_assemblers.rs:7`; Python tables `python/bempp/assembly/boundary.py:13-19`. -/
inductive DType where
  | f32
  | f64
  | c32
  | c64
deriving DecidableEq, Repr

/-- `FunctionSpace.dtype`, `python/bempp/function_space.py:105-108`: the table `_dtypes` (lines 13-16) has entries for the
two real types only. -/
def pySpaceDtype : DType → Ffi DType
  | .f32 => .ok .f32
  | .f64 => .ok .f64
  | _ => .raised

/-- A two-dimensional `numpy` array: element `(i, j)` is at position `i * stride0 + j * stride1`.
Made at `python/bempp/assembly/boundary.py:132-134`. -/
structure NpArray (α : Type) where
  shape0 : Nat
  shape1 : Nat
  stride0 : Nat
  stride1 : Nat
  data : List α

/-- `a[i, j]` (`none`: `IndexError`). The result of `python/bempp/assembly/boundary.py:141`. -/
def NpArray.item {α : Type} (a : NpArray α) (i j : Nat) : Option α :=
  if i < a.shape0 ∧ j < a.shape1 then a.data[i * a.stride0 + j * a.stride1]? else none

/-- `np.zeros((m, n), order="F")`. `python/bempp/assembly/boundary.py:132-134`. -/
def NpArray.zerosF (α : Type) [Zero α] (m n : Nat) : NpArray α := ⟨m, n, 1, m, List.replicate (m * n) 0⟩

section
variable {R T : Type} [Zero T] [Add T] [Mul T] [Zero R] [Mul R]

/-- A Python function space: the Rust space and its scalar type. `python/bempp/function_space.py:42-50,105-108`. -/
structure PyFs (R T : Type) where
  space : Space R T
  dtype : DType

/-- A Python assembler. `python/bempp/assembly/boundary.py:110-120,171-174`. -/
structure PyAssembler (R T : Type) where
  asm : Assembler R T
  dtype : DType

/-- `assert trial_space.dtype == test_space.dtype == self.dtype`, `python/bempp/assembly/boundary.py:131` and 147. -/
def checkDtypes (a d e : DType) : Ffi Unit := do
  let td ← pySpaceDtype d
  let sd ← pySpaceDtype e
  if td = sd ∧ sd = a then return () else .raised

/-- `BoundaryAssembler.assemble`, `python/bempp/assembly/boundary.py:127-141`, with
`boundary_assembler_assemble_into_memory`, `src/bindings/boundary_assemblers.rs:330-348`: Rust makes a slice of
`test_space.global_size() * trial_space.global_size()` elements from the pointer, which is undefined if the array is
shorter. A call whose arguments have different scalar types panics in `concretise_types`. -/
def PyAssemble (env : Env R T) (a : PyAssembler R T) (trial test : PyFs R T) (out : Ffi (NpArray T)) : Prop :=
  match checkDtypes a.dtype trial.dtype test.dtype with
  | .raised => out = .raised
  | .panic => out = .panic
  | .undefined => out = .undefined
  | .ok () =>
    let output := NpArray.zerosF T test.space.fs.globalSize trial.space.fs.globalSize
    let n := test.space.fs.globalSize * trial.space.fs.globalSize
    if trial.dtype ≠ a.dtype ∨ test.dtype ≠ a.dtype then out = .panic
    else if output.data.length < n then out = .undefined
    else ∃ o, AssembleIntoMemory env a.asm trial.space test.space (output.data.take n) o ∧
      out = match o with
        | .panicked _ => .panic
        | .ok mem => .ok { output with data := mem ++ output.data.drop n }

/-- `scipy.sparse.csr_matrix((data, indices, indptr), shape)`. `python/bempp/assembly/boundary.py:32`. -/
structure ScipyCsr (T : Type) where
  shape : Nat × Nat
  data : List T
  indices : List Nat
  indptr : List Nat

/-- The Rust matrix behind a `MatrixT` pointer; `none` after `matrix_t_free`. `src/bindings.rs:13-14`. -/
abbrev RustMatrix (T : Type) := Option (Csr T)

/-- `matrix_t_free` (`src/bindings.rs`): freeing twice is undefined. -/
def RustMatrix.free (m : RustMatrix T) : Ffi (RustMatrix T) := do
  let _ ← Ffi.mem m
  return none

/-- `_convert_to_scipy`, `python/bempp/assembly/boundary.py:22-32`, with the functions of `src/bindings/matrices.rs`. The
second result is the state of the Rust matrix. -/
def convertToScipy (m : RustMatrix T) : Ffi (ScipyCsr T × RustMatrix T) := do
  let shape := (← Ffi.mem m).shape
  let data := NpBuffer.empty T (← Ffi.mem m).data.length
  let indices := NpBuffer.empty Nat (← Ffi.mem m).indices.length
  let indptr := NpBuffer.empty Nat (← Ffi.mem m).indptr.length
  let data ← copyToBuffer (← Ffi.mem m).data 0 data
  let indices ← copyToBuffer (← Ffi.mem m).indices 0 indices
  let indptr ← copyToBuffer (← Ffi.mem m).indptr 0 indptr
  let m ← RustMatrix.free m
  return (⟨shape, ← data.read, ← indices.read, ← indptr.read⟩, m)

/-- `BoundaryAssembler.assemble_singular`, `python/bempp/assembly/boundary.py:143-155`, with
`boundary_assembler_assemble_singular`, `src/bindings/boundary_assemblers.rs:256-270`. The second result is the state of the
Rust matrix. -/
def PyAssembleSingular (env : Env R T) (a : PyAssembler R T) (trial test : PyFs R T)
    (out : Ffi (ScipyCsr T × RustMatrix T)) : Prop :=
  match checkDtypes a.dtype trial.dtype test.dtype with
  | .raised => out = .raised
  | .panic => out = .panic
  | .undefined => out = .undefined
  | .ok () =>
    if trial.dtype ≠ a.dtype ∨ test.dtype ≠ a.dtype then out = .panic
    else ∃ m, AssembleSingular env a.asm trial.space test.space m ∧
      out = match m with
        | none => .panic
        | some m => convertToScipy (some m)

end

/-- The values of the Python enumeration `OperatorType`, `python/bempp/assembly/boundary.py:35-43`. -/
inductive PyOperator where
  | singleLayer
  | doubleLayer
  | adjointDoubleLayer
  | hypersingular
  | electricField
  | magneticField
deriving DecidableEq, Repr

/-- `create_laplace_assembler`, `python/bempp/assembly/boundary.py:177-188`, with `laplace_boundary_assembler_new`,
`src/bindings/boundary_assemblers.rs:128-166`. `T` is the scalar type that belongs to `dtype`, `kernel` the Laplace kernel of
that type. The options are read when the matrix is assembled (the Rust assembler keeps a reference). -/
def createLaplaceAssembler {R T : Type} [Add T] [Sub T] [Mul T] [Div T] [Neg T] (kernel : Kernel R T) (op : PyOperator)
    (o : Options) (dtype : DType) : Ffi (PyAssembler R T) :=
  if dtype ≠ .f32 ∧ dtype ≠ .f64 then .panic
  else match op with
    | .singleLayer => .ok ⟨Laplace.singleLayer kernel o, dtype⟩
    | .doubleLayer => .ok ⟨Laplace.doubleLayer kernel o, dtype⟩
    | .adjointDoubleLayer => .ok ⟨Laplace.adjointDoubleLayer kernel o, dtype⟩
    | .hypersingular => .ok ⟨Laplace.hypersingular kernel o, dtype⟩
    | _ => .panic

end Bempp
