import Verif.Spec.Operators
import Mathlib.Algebra.BigOperators.Group.List.Basic
/-
The situations in which the theorems about assembled matrices hold.
-/
namespace Bempp

variable {R T : Type}

/-- A function space on one of any number of processes, as the user gets it from
`FunctionSpace::new`. -/
structure SpaceOn (sp : FunctionSpace) (fam : CellType → ElementDofs) : Prop where
  wf : sp.grid.WF
  family : ∃ nd t0, FamilyOn sp.grid fam nd ∧ Colourable sp.grid fam nd t0
  made : ∃ rank size, (FunctionSpace.new rank size sp.grid fam).Yields sp

/-- Two spaces on the same conforming surface grid, with external functions that work. `F`, `K` are the
operator, `G` the geometry, `BT` and `BR` the test and trial basis functions, `Q` the quadrature
rules. -/
structure SingularSetting (env : Env R T) (asm : Assembler R T) (trial test : Space R T)
    (famT famR : CellType → ElementDofs) (F : MathIntegrand T) (K : MathKernel R T) (G : Geometry R)
    (BT BR : Basis R T) (Q : Quadrature R) : Prop where
  testSpace : SpaceOn test.fs famT
  trialSpace : SpaceOn trial.fs famR
  sameGrid : trial.fs.grid = test.fs.grid
  surface : Surface test.fs.grid
  vertices : test.fs.grid.Vertices
  conforming : ∃ ev, test.fs.grid.Edges ev ∧ test.fs.grid.Conforming ev
  geometry : GeometryOk test G
  testBasis : TabulateOk test famT BT
  trialBasis : TabulateOk trial famR BR
  operator : asm.Computes F K
  rules : ∀ tt ∈ test.fs.grid.entityTypes 2, ∀ rt ∈ test.fs.grid.entityTypes 2, SingularOk env asm.options Q tt rt

/-- Two spaces on one process, on grids of cells of one common type `t`, with external functions that
work. If the grids are at the same address then they are the same object. -/
structure DenseSetting (env : Env R T) (asm : Assembler R T) (trial test : Space R T)
    (famT famR : CellType → ElementDofs) (F : MathIntegrand T) (K : MathKernel R T) (GT GR : Geometry R)
    (BT BR : Basis R T) (Q : Quadrature R) (t : CellType) : Prop where
  testSpace : SerialSpace test.fs famT
  trialSpace : SerialSpace trial.fs famR
  testType : test.fs.grid.entityTypes 2 = [t]
  trialType : trial.fs.grid.entityTypes 2 = [t]
  testSurface : Surface test.fs.grid
  trialSurface : Surface trial.fs.grid
  testGeometry : GeometryOk test GT
  trialGeometry : GeometryOk trial GR
  testBasis : TabulateOk test famT BT
  trialBasis : TabulateOk trial famR BR
  operator : asm.Computes F K
  rule : RegularOk env asm.options Q t
  same : test.fs.grid.addr = trial.fs.grid.addr →
    SingularSetting env asm trial test famT famR F K GT BT BR Q ∧ GR = GT

/-- The same without an operator: two spaces on one process, on grids of cells of one common type `t`, with
geometry, element and quadrature functions that work for the options `o`. If the grids are at the same address then
they are the same object, and it is conforming. -/
structure SpacePair (env : Env R T) (o : Options) (trial test : Space R T) (famT famR : CellType → ElementDofs)
    (GT GR : Geometry R) (BT BR : Basis R T) (Q : Quadrature R) (t : CellType) : Prop where
  testSpace : SerialSpace test.fs famT
  trialSpace : SerialSpace trial.fs famR
  testType : test.fs.grid.entityTypes 2 = [t]
  trialType : trial.fs.grid.entityTypes 2 = [t]
  testSurface : Surface test.fs.grid
  trialSurface : Surface trial.fs.grid
  testGeometry : GeometryOk test GT
  trialGeometry : GeometryOk trial GR
  testBasis : TabulateOk test famT BT
  trialBasis : TabulateOk trial famR BR
  rule : RegularOk env o Q t
  same : test.fs.grid.addr = trial.fs.grid.addr → trial.fs.grid = test.fs.grid ∧ GR = GT ∧
    test.fs.grid.Vertices ∧ (∃ ev, test.fs.grid.Edges ev ∧ test.fs.grid.Conforming ev) ∧ SingularOk env o Q t t

/-- Pairs of adjacent cells, the first one owned by the process: each exactly once. -/
def adjacentPairs (g : Grid) : List (Entity × Entity) :=
  ((g.entityIter 2).filter fun c => c.ownership = .owned).flatMap fun c =>
    ((g.entityIter 2).filter fun c' => (c.sub 0).any fun v => (c'.sub 0).contains v).map fun c' => (c, c')

/-- Two cells of a grid touch each other: they have a common vertex. -/
def Entity.Touches (c c' : Entity) : Prop := ∃ v ∈ c.sub 0, v ∈ c'.sub 0

instance (c c' : Entity) : Decidable (c.Touches c') := by unfold Entity.Touches; infer_instance

section
variable [Zero T] [Add T] [Mul T] [Mul R]

/-- The quadrature value for test basis function `a` on cell `c` and trial basis function `b` on cell
`c'`: by the singular rule for their connectivity if they are touching cells of one grid, by the regular
rules otherwise. -/
def cellPairValue (cast : R → T) (F : MathIntegrand T) (K : MathKernel R T) (GT GR : Geometry R)
    (BT BR : Basis R T) (Q : Quadrature R) (test trial : FunctionSpace) (c c' : Entity) (a b : Nat) : T :=
  if test.grid.addr = trial.grid.addr ∧ c.Touches c' then
    singularValue cast F K GT GR BT BR Q c.entityType c'.entityType (connectivity c c') c.localIndex
      c'.localIndex a b
  else regularValue cast F K GT GR BT BR Q c.entityType c'.entityType c.localIndex c'.localIndex a b

end

/-- The sum of `value c c' a b` over all test cells `c`, trial cells `c'` and local numbers `a`, `b` of
basis functions whose DOFs on these cells are `i` and `j`. -/
def doubleSum [AddCommMonoid T] (test trial : FunctionSpace) (value : Entity → Entity → Nat → Nat → T)
    (i j : Nat) : T :=
  ((test.grid.entityIter 2).map fun c => ((trial.grid.entityIter 2).map fun c' =>
    ((((test.cellDofs c.localIndex).getD []).zipIdx).map fun (ia : Nat × Nat) =>
      ((((trial.cellDofs c'.localIndex).getD []).zipIdx).map fun (jb : Nat × Nat) =>
        if ia.1 = i ∧ jb.1 = j then value c c' ia.2 jb.2 else 0).sum).sum).sum).sum

end Bempp
