import Verif.Model.CInterface
import Verif.Model.FunctionSpace
/-
Model of what `python/bempp/function_space.py` passes to Rust to make a grid and an element family for Rust from the Python
ones, with the numbers that stand for cell types, scalar types and continuities in the C interfaces of `ndgrid` and of bempp.
`ndgrid` and `ndelement` are not in the repository: `RustGrid` and `RustFamily` are the data that they are given.
-/
namespace Bempp

/-- `ndelement::types::Continuity`, `src/bindings/ndelement.rs:21`. -/
inductive Continuity where
  | standard
  | discontinuous
deriving DecidableEq, Repr

/-- The scalar types of `numpy` in the keys of `_rtypes`, `python/bempp/function_space.py:17-22`, and all others. -/
inductive NpType where
  | float32
  | float64
  | complex64
  | complex128
  | other (name : Nat)
deriving DecidableEq, Repr

/-- `_rtypes[t]`, `python/bempp/function_space.py:17-22`. -/
def rtypes : NpType → Option DType
  | .float32 => some .f32
  | .float64 => some .f64
  | .complex64 => some .c32
  | .complex128 => some .c64
  | .other _ => none

/-- The numbers that the C interface of a library has for its enumerations: the constants `ReferenceCellType_*`, `DType_*`,
`Continuity_*` and `GridType_SingleElementGrid` of `_lib` and `_gridlib`, `python/bempp/function_space.py:18-22,24,37,149,154`. -/
structure Numbering where
  cell : CellType → Nat
  dtype : DType → Nat
  continuity : Continuity → Nat
  singleElementGrid : Nat

/-- The names in `python/bempp/function_space.py:25-34`. -/
def cellNames : List CellType := [.point, .interval, .triangle, .quadrilateral, .tetrahedron, .hexahedron, .prism, .pyramid]

/-- The names in `python/bempp/function_space.py:38`. -/
def dtypeNames : List DType := [.f32, .f64, .c32, .c64]

/-- `d[x]` for a dictionary that was made by going through pairs: the last one with this key counts; `KeyError` if there is none.
`python/bempp/function_space.py:23-39,157,173`. -/
def dictGet (pairs : List (Nat × Nat)) (x : Nat) : Ffi Nat :=
  match pairs.reverse.find? fun p => p.1 = x with
  | some p => .ok p.2
  | none => .raised

/-- `_cells_ndgrid_to_bempp`, `python/bempp/function_space.py:23-35`. -/
def cellsNdgridToBempp (gridlib lib : Numbering) : List (Nat × Nat) := cellNames.map fun c => (gridlib.cell c, lib.cell c)

/-- `_dtype_ndgrid_to_bempp`, `python/bempp/function_space.py:36-39`. -/
def dtypeNdgridToBempp (gridlib lib : Numbering) : List (Nat × Nat) := dtypeNames.map fun d => (gridlib.dtype d, lib.dtype d)

/-- A number as a value of a Rust `enum` (a number that stands for nothing is undefined behaviour). `src/bindings/ndelement.rs:21-22`,
`src/bindings/ndgrid.rs:22,31`. -/
def enumValue {α : Type} (values : List α) (number : α → Nat) (x : Nat) : Ffi α :=
  Ffi.mem (values.find? fun a => number a = x)

/-- A Python `ElementFamily`; `kind` is not read by bempp. `python/bempp/function_space.py:147-150`. -/
structure PyFamily where
  kind : FamilyType
  degree : Nat
  continuity : Continuity
  dtype : NpType

/-- What `ndelement` makes a family from. `src/bindings/ndelement.rs:19-42`. -/
structure RustFamily where
  kind : FamilyType
  degree : Nat
  continuity : Continuity
  dtype : DType
deriving DecidableEq

/-- `create_lagrange_family_bempp`, `src/bindings/ndelement.rs:18-25`. -/
def createLagrangeFamilyBempp (lib : Numbering) (degree continuity dtype : Nat) : Ffi RustFamily := do
  let c ← enumValue [Continuity.standard, .discontinuous] lib.continuity continuity
  let d ← enumValue dtypeNames lib.dtype dtype
  return ⟨.lagrange, degree, c, d⟩

/-- `recreate_element_family`, `python/bempp/function_space.py:147-150`. -/
def recreateElementFamily (lib : Numbering) (f : PyFamily) : Ffi RustFamily :=
  match rtypes f.dtype with
  | none => .raised
  | some d => createLagrangeFamilyBempp lib f.degree (lib.continuity f.continuity) (lib.dtype d)

/-- The data of a grid; `P` are pointers, or the arrays they point to. The fields are those that are read at
`python/bempp/function_space.py:156-177`. -/
structure GridData (P C D : Type) where
  tdim : Nat
  idSizes : P
  idPointers : P
  entityTypes : List C
  entityCounts : P
  downwardConnectivity : P
  downwardConnectivityShape0 : P
  upwardConnectivity : P
  upwardConnectivityLens : P
  points : P
  gdim : Nat
  npoints : Nat
  dtype : D
  cells : P
  pointsPerCell : Nat
  ncells : Nat
  geometryDegree : Nat

/-- `cdata`, `python/bempp/function_space.py:155`: types are numbers of `ndgrid`. -/
abbrev CData (P : Type) := GridData P Nat Nat

/-- What `ndgrid` makes a grid from. `src/bindings/ndgrid.rs:38-56`. -/
abbrev RustGrid (P : Type) := GridData P CellType DType

/-- A Python `Grid`: the number of its type and its data. `python/bempp/function_space.py:154-155`. -/
structure PyGrid (P : Type) where
  gridType : Nat
  cdata : CData P

/-- `np.array(xs, dtype=np.uint8)`: numbers that do not fit raise an exception. `python/bempp/function_space.py:156-159`. -/
def uint8Array (xs : List Nat) : Ffi (List Nat) :=
  if ∀ x ∈ xs, x < 256 then .ok xs else .raised

/-- `single_element_grid_borrowed_create_bempp`, `src/bindings/ndgrid.rs:18-57`. The library reads `tdim + 1` cell types. -/
def singleElementGridBorrowedCreateBempp {P : Type} (lib : Numbering) (tdim : Nat) (idSizes idPointers : P) (entityTypes : List Nat)
    (entityCounts downwardConnectivity downwardConnectivityShape0 upwardConnectivity upwardConnectivityLens points : P)
    (gdim npoints dtype : Nat) (cells : P) (pointsPerCell ncells geometryDegree : Nat) : Ffi (RustGrid P) := do
  let numbers ← (List.range (tdim + 1)).mapM fun i => Ffi.mem entityTypes[i]?
  let types ← numbers.mapM (enumValue cellNames lib.cell)
  let d ← enumValue dtypeNames lib.dtype dtype
  return { tdim, idSizes, idPointers, entityTypes := types, entityCounts, downwardConnectivity, downwardConnectivityShape0,
           upwardConnectivity, upwardConnectivityLens, points, gdim, npoints, dtype := d, cells, pointsPerCell, ncells, geometryDegree }

/-- `recreate_grid`, `python/bempp/function_space.py:153-182`. -/
def recreateGrid {P : Type} (gridlib lib : Numbering) (g : PyGrid P) : Ffi (RustGrid P) :=
  if g.gridType = gridlib.singleElementGrid then do
    let cdata := g.cdata
    let entityTypes ← (List.range (cdata.tdim + 1)).mapM fun i => do
      dictGet (cellsNdgridToBempp gridlib lib) (← Ffi.mem cdata.entityTypes[i]?)
    let entityTypes ← uint8Array entityTypes
    let dtype ← dictGet (dtypeNdgridToBempp gridlib lib) cdata.dtype
    singleElementGridBorrowedCreateBempp lib cdata.tdim cdata.idSizes cdata.idPointers entityTypes cdata.entityCounts
      cdata.downwardConnectivity cdata.downwardConnectivityShape0 cdata.upwardConnectivity cdata.upwardConnectivityLens cdata.points
      cdata.gdim cdata.npoints dtype cdata.cells cdata.pointsPerCell cdata.ncells cdata.geometryDegree
  else .raised

/-- A Python function space that was made just now. `python/bempp/function_space.py:45-50`. -/
structure MadeSpace (P : Type) where
  rsSpace : FunctionSpace
  dtype : DType
  grid : PyGrid P
  family : PyFamily

/-- The Rust function `function_space`, `src/bindings/space.rs:20-41`: `topology` and `elements` are what `ndgrid` and `ndelement` make
from their data. Grids of complex type do not exist in `ndgrid`. -/
def rustFunctionSpace {P : Type} (topology : RustGrid P → Grid) (elements : RustFamily → CellType → ElementDofs) (g : RustGrid P)
    (f : RustFamily) : Ffi FunctionSpace :=
  if g.dtype = .c32 ∨ g.dtype = .c64 then .panic
  else concretise RustType.functionSpaceTable [.grid true g.dtype.real, .family f.kind f.dtype]
    (match FunctionSpace.new 0 1 (topology g) (elements f) with
    | .done fs => .ok fs
    | _ => .panic)

/-- `function_space`, `python/bempp/function_space.py:131-144`, for a grid and a family that have no Rust objects yet. -/
def pyFunctionSpace {P : Type} (gridlib lib : Numbering) (topology : RustGrid P → Grid) (elements : RustFamily → CellType → ElementDofs)
    (grid : PyGrid P) (family : PyFamily) : Ffi (MadeSpace P) := do
  let g ← recreateGrid gridlib lib grid
  let f ← recreateElementFamily lib family
  let fs ← rustFunctionSpace topology elements g f
  return ⟨fs, f.dtype, grid, family⟩

/-- `FunctionSpace.element`, `python/bempp/function_space.py:68-70`: the element of the Python family, which `ndelement` made from the
description of the family. -/
def MadeSpace.element {P : Type} (elements : RustFamily → CellType → ElementDofs) (s : MadeSpace P) (t : CellType) : Option ElementDofs :=
  (rtypes s.family.dtype).map fun d => elements ⟨s.family.kind, s.family.degree, s.family.continuity, d⟩ t

end Bempp
