import Verif.Model.PythonRecreate
import Verif.Spec.Families
/-
Specification for C99: what the objects of Python mean.
-/
namespace Bempp

/-- A library has different numbers for different names; cell types are stored in one byte. -/
structure Numbering.Ok (n : Numbering) : Prop where
  cell : ∀ c c', n.cell c = n.cell c' → c = c'
  byte : ∀ c, n.cell c < 256
  dtype : ∀ d d', n.dtype d = n.dtype d' → d = d'
  continuity : ∀ c c', n.continuity c = n.continuity c' → c = c'

/-- The Python grid `p` is the grid with the data `g`: `ndgrid` says so in its own numbers. -/
def PyGrid.Shows {P : Type} (gridlib : Numbering) (p : PyGrid P) (g : RustGrid P) : Prop :=
  p.gridType = gridlib.singleElementGrid ∧ g.entityTypes.length = g.tdim + 1 ∧
    p.cdata = { g with entityTypes := g.entityTypes.map gridlib.cell, dtype := gridlib.dtype g.dtype }

/-- The Python family `p` is the family `f`. -/
def PyFamily.Shows (p : PyFamily) (f : RustFamily) : Prop :=
  p.kind = f.kind ∧ p.degree = f.degree ∧ p.continuity = f.continuity ∧
    match p.dtype with
    | .float32 => f.dtype = .f32
    | .float64 => f.dtype = .f64
    | .complex64 => f.dtype = .c32
    | .complex128 => f.dtype = .c64
    | .other _ => False

/-- The scalars of a family have the precision of the points of a grid. -/
def SamePrecision {P : Type} (g : RustGrid P) (f : RustFamily) : Prop :=
  (g.dtype = .f32 ∧ (f.dtype = .f32 ∨ f.dtype = .c32)) ∨ (g.dtype = .f64 ∧ (f.dtype = .f64 ∨ f.dtype = .c64))

/-- The families of `Spec/Families`; vector-valued ones have the usual continuity. -/
def RustFamily.IsA (f : RustFamily) : StandardFamily → Prop
  | .lagrange p => f.kind = .lagrange ∧ f.continuity = .standard ∧ f.degree = p
  | .discontinuous p => f.kind = .lagrange ∧ f.continuity = .discontinuous ∧ f.degree = p
  | .raviartThomas p => f.kind = .raviartThomas ∧ f.continuity = .standard ∧ f.degree = p
  | .nedelec p => f.kind = .nedelec ∧ f.continuity = .standard ∧ f.degree = p

/-- `ndelement` makes elements with DOFs where they belong. -/
def ElementsOk (elements : RustFamily → CellType → ElementDofs) : Prop :=
  ∀ f F, f.IsA F → F.Valid → (elements f .triangle).Uniform .triangle (F.counts .triangle)

end Bempp
