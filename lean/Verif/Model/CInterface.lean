import Verif.Model.PythonData
/-
Model of the C interface, `src/bindings`, for programs that call it directly. Objects live on a heap; a pointer that is
passed to the wrong function, or was freed, is undefined behaviour. A panic in a function of the interface ends the process.

`c_api_tools` is not part of the repository. Its `concretise_types` is modelled by its purpose: it looks the Rust types of the
boxed arguments up in the list that the attribute spells out and panics if they are not in it. A pointer into Rust's memory that
`matrix_dense_data`, `matrix_csr_data`, `matrix_csr_indices` or `matrix_csr_indptr` returns is modelled by the matrix and the array it
points to. Grids and families are made by `ndgrid` and `ndelement`; their contents are parameters. Values of all scalar types are
values of one type `T`.
-/
namespace Bempp

/-- The real scalar types, `RlstScalar::Real` in `src/bindings/space.rs:22`. -/
inductive RealType where
  | f32
  | f64
deriving DecidableEq, Repr

/-- `<T as RlstScalar>::Real`. `src/bindings/space.rs:22-23`, `src/bindings/boundary_assemblers.rs:216-223`. -/
def DType.real : DType → RealType
  | .f32 => .f32
  | .f64 => .f64
  | .c32 => .f32
  | .c64 => .f64

/-- A real type as a scalar type. `src/bindings/boundary_assemblers.rs:216-219`. -/
def RealType.dtype : RealType → DType
  | .f32 => .f32
  | .f64 => .f64

/-- `<T as RlstScalar>::Complex`. `src/bindings/boundary_assemblers.rs:220-223`. -/
def RealType.complex : RealType → DType
  | .f32 => .c32
  | .f64 => .c64

/-- The types of element families, `src/bindings/space.rs:25-27`. -/
inductive FamilyType where
  | lagrange
  | raviartThomas
  | nedelec
deriving DecidableEq, Repr

/-- The modules `laplace` and `helmholtz`, `src/bindings/boundary_assemblers.rs:216-223`. -/
inductive Equation where
  | laplace
  | helmholtz
deriving DecidableEq, Repr

/-- The Rust types of boxed values. `borrowed` is `SingleElementGridBorrowed`. A `spaceRef` is a box with a reference to a
space. `src/bindings/space.rs:20-28,43-49`, `src/bindings/matrices.rs:6-9`, `src/bindings/boundary_assemblers.rs:213-224`. -/
inductive RustType where
  | grid (borrowed : Bool) (r : RealType)
  | family (k : FamilyType) (d : DType)
  | space (d : DType) (borrowed : Bool) (r : RealType)
  | spaceRef (d : DType) (borrowed : Bool) (r : RealType)
  | assembler (e : Equation) (op : PyOperator) (d : DType)
  | csr (d : DType)
  | dense (d : DType)
  | denseBorrowed (d : DType)
deriving DecidableEq, Repr

namespace RustType

/-- `gen_type(name = "dtype", ..)`. `src/bindings/space.rs:21`. -/
def dtypes : List DType := [.f32, .f64, .c32, .c64]

/-- The four operators in the lists of `src/bindings/boundary_assemblers.rs:216-219`. -/
def layers : List PyOperator := [.singleLayer, .doubleLayer, .adjointDoubleLayer, .hypersingular]

/-- The list of `function_space`, `src/bindings/space.rs:20-28`. -/
def functionSpaceTable : List (List RustType) :=
  dtypes.flatMap fun d => [.grid false d.real, .grid true d.real].flatMap fun g =>
    [.family .lagrange d, .family .raviartThomas d, .family .nedelec d].map fun f => [g, f]

/-- The list of the functions that take a space, `src/bindings/space.rs:44-50` and the same lines before the other functions of
that file. -/
def spaceTable : List (List RustType) :=
  dtypes.flatMap fun d => [false, true].map fun b => [.space d b d.real]

/-- The list of `boundary_assembler_dtype`, `src/bindings/boundary_assemblers.rs:213-225`. -/
def assemblerTable : List (List RustType) :=
  dtypes.flatMap fun d => (layers.map fun op => [.assembler .laplace op d.real.dtype]) ++
    (layers.map fun op => [.assembler .helmholtz op d.real.complex])

/-- The list of the three functions that assemble, `src/bindings/boundary_assemblers.rs:236-255`. One type stands for both spaces. The
Helmholtz operators are commented out. -/
def assembleTable : List (List RustType) :=
  dtypes.flatMap fun d => [false, true].flatMap fun b =>
    layers.map fun op => [.assembler .laplace op d, .space d b d.real, .space d b d.real]

/-- The list of `matrix_shape0` and `matrix_shape1`, `src/bindings/matrices.rs:6-9,14-17`. -/
def shapeTable : List (List RustType) := dtypes.flatMap fun d => [[.csr d], [.dense d], [.denseBorrowed d]]

/-- The list of `matrix_dense_data_copy`, `src/bindings/matrices.rs:37-40`. -/
def denseTable : List (List RustType) := dtypes.flatMap fun d => [[.dense d], [.denseBorrowed d]]

/-- The list of the functions for CSR matrices, `src/bindings/matrices.rs:57-60`. -/
def csrTable : List (List RustType) := dtypes.map fun d => [.csr d]

end RustType

/-- `concretise_types`: call the Rust function if the types are in the list. For example `src/bindings/space.rs:20-41`. -/
def concretise {α : Type} (table : List (List RustType)) (args : List RustType) (call : Ffi α) : Ffi α :=
  if args ∈ table then call else .panic

/-- What can be behind a pointer. A space refers to its grid and family (`&'static`, `src/bindings/space.rs:35-36`), an assembler to
its options (`src/bindings/boundary_assemblers.rs:137`). `Γ` and `Φ` are the contents of grids and families. -/
inductive CObj (Γ Φ T : Type) where
  | options (o : Options)
  | grid (borrowed : Bool) (r : RealType) (v : Γ)
  | family (k : FamilyType) (d : DType) (v : Φ)
  | space (d : DType) (borrowed : Bool) (r : RealType) (grid family : Nat)
  | spaceRef (d : DType) (borrowed : Bool) (r : RealType) (space : Nat)
  | assembler (e : Equation) (op : PyOperator) (d : DType) (options : Nat)
  | csr (d : DType) (m : Csr T)
  | dense (d : DType) (shape : Nat × Nat) (data : List T)

/-- The C types of pointers: `BoundaryAssemblerOptionsT`, `GridT`, `ElementFamilyT`, `SpaceT`, `BoundaryAssemblerT`, `MatrixT`.
`src/bindings.rs:13-14`, `src/bindings/space.rs:17-18`, `src/bindings/boundary_assemblers.rs:26-30`. -/
inductive CKind where
  | options
  | grid
  | family
  | space
  | assembler
  | matrix
deriving DecidableEq, Repr

/-- The C type of the pointer to an object. `src/bindings.rs:13-14`, `src/bindings/space.rs:17-18`,
`src/bindings/boundary_assemblers.rs:26-30`. -/
def CObj.kind {Γ Φ T : Type} : CObj Γ Φ T → CKind
  | .options _ => .options
  | .grid .. => .grid
  | .family .. => .family
  | .space .. => .space
  | .spaceRef .. => .space
  | .assembler .. => .assembler
  | .csr .. => .matrix
  | .dense .. => .matrix

/-- The Rust type in the box; options are not boxed (`src/bindings/boundary_assemblers.rs:29-32`). The array that `assemble`
returns is an `Array2D`. `src/bindings/space.rs:38-41`, `src/bindings/boundary_assemblers.rs:141-155,185-199,266-270`. -/
def CObj.type {Γ Φ T : Type} : CObj Γ Φ T → List RustType
  | .options _ => []
  | .grid b r _ => [.grid b r]
  | .family k d _ => [.family k d]
  | .space d b r _ _ => [.space d b r]
  | .spaceRef d b r _ => [.spaceRef d b r]
  | .assembler e op d _ => [.assembler e op d]
  | .csr d _ => [.csr d]
  | .dense d _ _ => [.dense d]

/-- The heap. Addresses are not reused. `src/bindings/boundary_assemblers.rs:35-50`. -/
structure CHeap (Γ Φ T : Type) where
  next : Nat
  live : Nat → Option (CObj Γ Φ T)

/-- No objects. The state before the first call of a function of `src/bindings.rs`. -/
def CHeap.start {Γ Φ T : Type} : CHeap Γ Φ T := ⟨0, fun _ => none⟩

/-- `Box::into_raw(Box::new(..))`, `space_t_create` and the other functions that `cfuncs` makes. `src/bindings/space.rs:38-40`,
`src/bindings/boundary_assemblers.rs:36-39`. -/
def CHeap.alloc {Γ Φ T : Type} (h : CHeap Γ Φ T) (o : CObj Γ Φ T) : CHeap Γ Φ T :=
  { next := h.next + 1, live := fun p => if p = h.next then some o else h.live p }

/-- A write to an object. `src/bindings/boundary_assemblers.rs:58-59,85-86,116-117`. -/
def CHeap.store {Γ Φ T : Type} (h : CHeap Γ Φ T) (p : Nat) (o : Option (CObj Γ Φ T)) : CHeap Γ Φ T :=
  { h with live := fun q => if q = p then o else h.live q }

/-- Follow a pointer. For example `src/bindings/boundary_assemblers.rs:58`. -/
def CHeap.read {Γ Φ T : Type} (h : CHeap Γ Φ T) (k : CKind) (p : Nat) : Ffi (CObj Γ Φ T) :=
  match h.live p with
  | some o => if o.kind = k then .ok o else .undefined
  | none => .undefined

/-- `(*options).options`. For example `src/bindings/boundary_assemblers.rs:58,66,137`. -/
def CHeap.readOptions {Γ Φ T : Type} (h : CHeap Γ Φ T) (p : Nat) : Ffi Options :=
  match h.live p with
  | some (.options o) => .ok o
  | _ => .undefined

/-- A live assembler holds a reference to the options at `p`. To write to them is then undefined behaviour in Rust, whether or
not the assembler is used again (a simplification: Rust's rules depend on later uses). `src/bindings/boundary_assemblers.rs:137,141`. -/
def CHeap.Borrowed {Γ Φ T : Type} (h : CHeap Γ Φ T) (p : Nat) : Prop :=
  ∃ q e op d, h.live q = some (.assembler e op d p)

/-- The space behind a pointer: Rust follows the references to the grid and the family. `newSpace` is `SerialFunctionSpace::new` with
the tables of the family. `src/bindings/space.rs:35-40`. -/
def CHeap.spaceOf {Γ Φ R T : Type} (newSpace : Γ → Φ → Option (Space R T)) (h : CHeap Γ Φ T) : CObj Γ Φ T → Ffi (Space R T)
  | .space _ _ _ g f =>
    match h.live g, h.live f with
    | some (.grid _ _ v), some (.family _ _ w) => Ffi.mem (newSpace v w)
    | _, _ => .undefined
  | _ => .undefined

/-- Questions about a space: the functions `space_..` of `src/bindings/space.rs:57-198`. The buffers are those of the caller. -/
inductive SpaceQuery where
  | isSerial
  | dofNumbersSize (dim entity : Nat)
  | dofNumbers (dim entity : Nat) (dofs : NpBuffer Nat)
  | localSize
  | globalSize
  | hasCellDofs (cell : Nat)
  | cellDofsSize (cell : Nat)
  | cellDofs (cell : Nat) (dofs : NpBuffer Nat)
  | globalDofIndex (i : Nat)
  | isOwned (i : Nat)
  | dtype

/-- The arrays of a matrix to which C programs can get pointers. `src/bindings/matrices.rs:33,69,96,125`. -/
inductive MatrixPart where
  | dense
  | csrData
  | csrIndices
  | csrIndptr
deriving DecidableEq, Repr

/-- What a call returns or leaves in the buffer of the caller. A `pointer` points to the first element of an array of a matrix;
`value` is a number that was read through such a pointer. `src/bindings/space.rs:57-198`, `src/bindings/matrices.rs:10-136`,
`src/bindings/boundary_assemblers.rs:35-348`. -/
inductive CResult (T : Type) where
  | nothing
  | handle (p : Nat)
  | bool (b : Bool)
  | nat (n : Nat)
  | shape (s : Nat × Nat)
  | dtype (d : DType)
  | nats (b : NpBuffer Nat)
  | values (b : NpBuffer T)
  | memory (data : List T)
  | pointer (m : Nat) (part : MatrixPart)
  | value (x : T)

/-- The answers. `space_local_size` and `space_global_size` (108-128) return what the space returns. `src/bindings/space.rs:57-198`. -/
def SpaceQuery.answer {R T : Type} (d : DType) (s : Space R T) : SpaceQuery → Ffi (CResult T)
  | .isSerial => .ok (.bool s.fs.isSerial)
  | .dofNumbersSize dim e => do return .nat (← Ffi.rust (s.fs.getLocalDofNumbers dim e)).length
  | .dofNumbers dim e buf => do return .nats (← copyToBuffer (← Ffi.rust (s.fs.getLocalDofNumbers dim e)) 0 buf)
  | .localSize => .ok (.nat s.fs.localSize)
  | .globalSize => .ok (.nat s.fs.globalSize)
  | .hasCellDofs c => .ok (.bool (s.fs.cellDofs c).isSome)
  | .cellDofsSize c => do return .nat (← Ffi.rust (s.fs.cellDofs c)).length
  | .cellDofs c buf => do return .nats (← copyToBuffer (← Ffi.rust (s.fs.cellDofs c)) 0 buf)
  | .globalDofIndex i => do return .nat (← Ffi.rust (s.fs.globalDofIndex i))
  | .isOwned i => do return .bool ((← Ffi.rust (s.fs.ownership i)) = .owned)
  | .dtype => .ok (.dtype d)

/-- The list of types of a function that returns a pointer. `src/bindings/matrices.rs:29-32,65-68,92-95,121-124`. -/
def MatrixPart.table : MatrixPart → List (List RustType)
  | .dense => RustType.denseTable
  | _ => RustType.csrTable

/-- The `i`-th number of an array (`none`: there is none). `src/bindings/matrices.rs:34,70,97,126`. -/
def MatrixPart.item {Γ Φ T : Type} (i : Nat) : MatrixPart → CObj Γ Φ T → Option (CResult T)
  | .dense, .dense _ _ x => x[i]?.map .value
  | .csrData, .csr _ m => m.data[i]?.map .value
  | .csrIndices, .csr _ m => m.indices[i]?.map .nat
  | .csrIndptr, .csr _ m => m.indptr[i]?.map .nat
  | _, _ => none

/-- Questions about a matrix: `src/bindings/matrices.rs:6-138`, without the functions that return pointers. -/
inductive MatrixQuery (T : Type) where
  | shape
  | denseCopy (data : NpBuffer T)
  | csrDataSize
  | csrDataCopy (data : NpBuffer T)
  | csrIndicesSize
  | csrIndicesCopy (indices : NpBuffer Nat)
  | csrIndptrSize
  | csrIndptrCopy (indptr : NpBuffer Nat)

/-- The list of types of a function for matrices. `src/bindings/matrices.rs:6-9,37-40,57-60`. -/
def MatrixQuery.table {T : Type} : MatrixQuery T → List (List RustType)
  | .shape => RustType.shapeTable
  | .denseCopy _ => RustType.denseTable
  | _ => RustType.csrTable

/-- The answers. The combinations in the last line are not in the lists. `src/bindings/matrices.rs:10-138`. -/
def MatrixQuery.answer {Γ Φ T : Type} : MatrixQuery T → CObj Γ Φ T → Ffi (CResult T)
  | .shape, .csr _ m => .ok (.shape m.shape)
  | .shape, .dense _ s _ => .ok (.shape s)
  | .denseCopy buf, .dense _ _ x => do return .values (← copyToBuffer x 0 buf)
  | .csrDataSize, .csr _ m => .ok (.nat m.data.length)
  | .csrDataCopy buf, .csr _ m => do return .values (← copyToBuffer m.data 0 buf)
  | .csrIndicesSize, .csr _ m => .ok (.nat m.indices.length)
  | .csrIndicesCopy buf, .csr _ m => do return .nats (← copyToBuffer m.indices 0 buf)
  | .csrIndptrSize, .csr _ m => .ok (.nat m.indptr.length)
  | .csrIndptrCopy buf, .csr _ m => do return .nats (← copyToBuffer m.indptr 0 buf)
  | _, _ => .panic

/-- The setters of options, `src/bindings/boundary_assemblers.rs:52-60,78-87,111-118`. -/
inductive OptionChange where
  | regular (t : CellType) (n : Nat)
  | singular (t0 t1 : CellType) (n : Nat)
  | batch (n : Nat)

/-- `src/bindings/boundary_assemblers.rs:58-59,85-86,116-117`. -/
def OptionChange.apply (o : Options) : OptionChange → Options
  | .regular t n => o.setRegularQuadratureDegree t n
  | .singular t0 t1 n => o.setSingularQuadratureDegree (t0, t1) n
  | .batch n => o.setBatchSize n

/-- The getters of options, `src/bindings/boundary_assemblers.rs:61-76,88-109,119-125`. -/
inductive OptionQuery where
  | regular (t : CellType)
  | hasRegular (t : CellType)
  | singular (t0 t1 : CellType)
  | hasSingular (t0 t1 : CellType)
  | batch

/-- `src/bindings/boundary_assemblers.rs:66-67,74-75,94-97,105-108,123-124`. -/
def OptionQuery.answer {T : Type} (o : Options) : OptionQuery → Ffi (CResult T)
  | .regular t => do return .nat (← Ffi.rust (o.getRegularQuadratureDegree t))
  | .hasRegular t => .ok (.bool (o.getRegularQuadratureDegree t).isSome)
  | .singular t0 t1 => do return .nat (← Ffi.rust (o.getSingularQuadratureDegree (t0, t1)))
  | .hasSingular t0 t1 => .ok (.bool (o.getSingularQuadratureDegree (t0, t1)).isSome)
  | .batch => .ok (.nat o.getBatchSize)

/-- The calls of a C program. `free` with `none` is a null pointer. The wavenumber of `helmholtzNew` is behind a `void` pointer: a
number of one of the real types. `load` is the C expression `ptr[i]` for a pointer that `matrixPointer` returned.
`src/bindings/ndgrid.rs:7-56`, `src/bindings/ndelement.rs:8-43`, `src/bindings/space.rs:20-198`,
`src/bindings/matrices.rs:6-138`, `src/bindings/boundary_assemblers.rs:34-348`. -/
inductive CCall (Γ Φ R T : Type) where
  | createGrid (borrowed : Bool) (r : RealType) (v : Γ)
  | createFamily (k : FamilyType) (d : DType) (v : Φ)
  | free (k : CKind) (p : Option Nat)
  | functionSpace (g f : Nat)
  | localSpace (s : Nat)
  | space (s : Nat) (q : SpaceQuery)
  | newOptions
  | setOptions (p : Nat) (set : OptionChange)
  | getOptions (p : Nat) (get : OptionQuery)
  | laplaceNew (p : Nat) (op : PyOperator) (d : DType)
  | helmholtzNew (k : RealType × R) (p : Nat) (op : PyOperator) (d : DType)
  | assemblerDtype (a : Nat)
  | assemble (a trial test : Nat)
  | assembleSingular (a trial test : Nat)
  | assembleIntoMemory (a trial test : Nat) (data : List T)
  | matrix (m : Nat) (q : MatrixQuery T)
  | matrixPointer (m : Nat) (part : MatrixPart)
  | load (m : Nat) (part : MatrixPart) (i : Nat)

section
variable {Γ Φ R T : Type}

/-- How a function that makes an object ends: with the pointer to it. For example `src/bindings/space.rs:38-41`. -/
def CHeap.made (h : CHeap Γ Φ T) : Ffi (CObj Γ Φ T) → CHeap Γ Φ T × Ffi (CResult T)
  | .ok o => (h.alloc o, .ok (.handle h.next))
  | .raised => (h, .raised)
  | .panic => (h, .panic)
  | .undefined => (h, .undefined)

/-- `laplace_boundary_assembler_new`, `src/bindings/boundary_assemblers.rs:128-166`. -/
def CHeap.laplaceNew (h : CHeap Γ Φ T) (p : Nat) (op : PyOperator) (d : DType) : Ffi (CObj Γ Φ T) :=
  match d with
  | .f32 | .f64 => do
    let _ ← h.readOptions p
    match op with
    | .singleLayer | .doubleLayer | .adjointDoubleLayer | .hypersingular => .ok (.assembler .laplace op d p)
    | _ => .panic
  | _ => .panic

/-- `helmholtz_boundary_assembler_new`, `src/bindings/boundary_assemblers.rs:169-210`. The `void` pointer is read as a pointer to the
real type. -/
def CHeap.helmholtzNew (h : CHeap Γ Φ T) (k : RealType × R) (p : Nat) (op : PyOperator) (d : DType) : Ffi (CObj Γ Φ T) :=
  match d with
  | .c32 | .c64 =>
    if k.1 ≠ d.real then .undefined
    else do
      let _ ← h.readOptions p
      match op with
      | .singleLayer | .doubleLayer | .adjointDoubleLayer | .hypersingular => .ok (.assembler .helmholtz op d p)
      | _ => .panic
  | _ => .panic

/-- The calls whose end is determined by the state. `src/bindings/ndgrid.rs:7-56`, `src/bindings/ndelement.rs:8-43`,
`src/bindings/space.rs:20-198`, `src/bindings/matrices.rs:6-138`, `src/bindings/boundary_assemblers.rs:34-234`. -/
noncomputable def CHeap.call (newSpace : Γ → Φ → Option (Space R T)) (h : CHeap Γ Φ T) :
    CCall Γ Φ R T → CHeap Γ Φ T × Ffi (CResult T)
  | .createGrid b r v => h.made (.ok (.grid b r v))
  | .createFamily k d v => h.made (.ok (.family k d v))
  | .free _ none => (h, .ok .nothing)
  | .free k (some p) =>
    match h.read k p with
    | .ok _ => (h.store p none, .ok .nothing)
    | _ => (h, .undefined)
  | .functionSpace g f => h.made do
      let x ← h.read .grid g
      let y ← h.read .family f
      match x, y with
      | .grid b r v, .family _ d w =>
        concretise RustType.functionSpaceTable (x.type ++ y.type) do
          let _ ← Ffi.rust (newSpace v w)
          return .space d b r g f
      | _, _ => .undefined
  | .localSpace s => h.made do
      let x ← h.read .space s
      concretise RustType.spaceTable x.type do
        let _ ← h.spaceOf newSpace x
        match x with
        | .space d b r _ _ => return .spaceRef d b r s
        | _ => .undefined
  | .space s q => (h, do
      let x ← h.read .space s
      concretise RustType.spaceTable x.type do
        let y ← h.spaceOf newSpace x
        match x with
        | .space d _ _ _ _ => q.answer d y
        | _ => .undefined)
  | .newOptions => h.made (.ok (.options Options.default))
  | .setOptions p c =>
    open Classical in
    match h.readOptions p with
    | .ok o => if h.Borrowed p then (h, .undefined) else (h.store p (some (.options (c.apply o))), .ok .nothing)
    | _ => (h, .undefined)
  | .getOptions p q => (h, do q.answer (← h.readOptions p))
  | .laplaceNew p op d => h.made (h.laplaceNew p op d)
  | .helmholtzNew k p op d => h.made (h.helmholtzNew k p op d)
  | .assemblerDtype a => (h, do
      let x ← h.read .assembler a
      concretise RustType.assemblerTable x.type do
        match x with
        | .assembler _ _ d _ => return .dtype d
        | _ => .undefined)
  | .matrix m q => (h, do
      let x ← h.read .matrix m
      concretise q.table x.type (q.answer x))
  | .matrixPointer m part => (h, do
      let x ← h.read .matrix m
      concretise part.table x.type (.ok (.pointer m part)))
  | .load m part i => (h, do
      let x ← h.read .matrix m
      Ffi.mem (part.item i x))
  | _ => (h, .undefined)

/-- The arguments of the functions that assemble: the types are looked up, and Rust follows the references. `o` are the options as they
are now. `src/bindings/boundary_assemblers.rs:256-265,293-302,330-339`. -/
def CHeap.arguments [Add T] [Sub T] [Mul T] [Div T] [Neg T] (newSpace : Γ → Φ → Option (Space R T)) (kernel : DType → Kernel R T)
    (h : CHeap Γ Φ T) (a trial test : Nat) : Ffi (DType × Assembler R T × Space R T × Space R T) := do
  let x ← h.read .assembler a
  let y ← h.read .space trial
  let z ← h.read .space test
  concretise RustType.assembleTable (x.type ++ y.type ++ z.type) do
    match x with
    | .assembler _ op d p =>
      let o ← h.readOptions p
      let asm ← createLaplaceAssembler (kernel d) op o d
      return (d, asm.asm, ← h.spaceOf newSpace y, ← h.spaceOf newSpace z)
    | _ => .undefined

/-- One call: the state after it and how it can end. `src/bindings/boundary_assemblers.rs:256-348` and `CHeap.call`. The slice that
`assemble_into_memory` makes from the pointer is undefined if the memory of the caller is smaller. -/
def CCall.Step [Zero T] [Add T] [Sub T] [Mul T] [Div T] [Neg T] [Zero R] [Mul R] (newSpace : Γ → Φ → Option (Space R T))
    (kernel : DType → Kernel R T) (env : DType → Env R T) (h : CHeap Γ Φ T) (c : CCall Γ Φ R T) (h' : CHeap Γ Φ T)
    (r : Ffi (CResult T)) : Prop :=
  match c with
  | .assemble a trial test =>
    match h.arguments newSpace kernel a trial test with
    | .ok (d, asm, y, z) => ∃ out, Assemble (env d) asm y z out ∧ (h', r) = h.made (do
        return .dense d (z.fs.globalSize, y.fs.globalSize) (← Ffi.rust out))
    | .raised => h' = h ∧ r = .raised
    | .panic => h' = h ∧ r = .panic
    | .undefined => h' = h ∧ r = .undefined
  | .assembleSingular a trial test =>
    match h.arguments newSpace kernel a trial test with
    | .ok (d, asm, y, z) => ∃ out, AssembleSingular (env d) asm y z out ∧ (h', r) = h.made (do
        return .csr d (← Ffi.rust out))
    | .raised => h' = h ∧ r = .raised
    | .panic => h' = h ∧ r = .panic
    | .undefined => h' = h ∧ r = .undefined
  | .assembleIntoMemory a trial test data =>
    h' = h ∧ match h.arguments newSpace kernel a trial test with
    | .ok (d, asm, y, z) =>
      let n := z.fs.globalSize * y.fs.globalSize
      if data.length < n then r = .undefined
      else ∃ out, AssembleIntoMemory (env d) asm y z (data.take n) out ∧
        r = match out with
          | .panicked _ => .panic
          | .ok mem => .ok (.memory (mem ++ data.drop n))
    | .raised => r = .raised
    | .panic => r = .panic
    | .undefined => r = .undefined
  | c => (h', r) = h.call newSpace c

/-- A C program: the calls one after the other until one ends the process. `src/bindings.rs:1-14`. -/
inductive CRuns [Zero T] [Add T] [Sub T] [Mul T] [Div T] [Neg T] [Zero R] [Mul R] (newSpace : Γ → Φ → Option (Space R T))
    (kernel : DType → Kernel R T) (env : DType → Env R T) :
    CHeap Γ Φ T → List (CCall Γ Φ R T) → CHeap Γ Φ T → List (Ffi (CResult T)) → Prop
  | nil (h : CHeap Γ Φ T) : CRuns newSpace kernel env h [] h []
  | returned {h h' h'' : CHeap Γ Φ T} {c : CCall Γ Φ R T} {cs : List (CCall Γ Φ R T)} {x : CResult T}
      {rs : List (Ffi (CResult T))} (s : c.Step newSpace kernel env h h' (.ok x)) (t : CRuns newSpace kernel env h' cs h'' rs) :
      CRuns newSpace kernel env h (c :: cs) h'' (.ok x :: rs)
  | ended {h h' : CHeap Γ Φ T} {c : CCall Γ Φ R T} {cs : List (CCall Γ Φ R T)} {r : Ffi (CResult T)}
      (s : c.Step newSpace kernel env h h' r) (hr : ∀ x, r ≠ .ok x) : CRuns newSpace kernel env h (c :: cs) h' [r]

end
end Bempp
