import Verif.Model.Grid
/-
Model of `BoundaryAssemblerOptions`, `src/boundary_assemblers.rs:32-100`.
-/
namespace Bempp

/-- `entry(k).and_modify(|x| *x = v)`: changes the value of a key that is present, inserts nothing.
`src/boundary_assemblers.rs:62-64,78-80`. -/
def Map.andModify {K V : Type} [DecidableEq K] (m : Map K V) (k : K) (v : V) : Map K V :=
  m.map fun e => if e.1 = k then (e.1, v) else e

/-- `BoundaryAssemblerOptions`, `src/boundary_assemblers.rs:34-41`. -/
structure Options where
  quadratureDegrees : Map CellType Nat
  singularQuadratureDegrees : Map (CellType × CellType) Nat
  batchSize : Nat

/-- `Default::default`, `src/boundary_assemblers.rs:44-56`. -/
def Options.default : Options :=
  { quadratureDegrees := [(.triangle, 37), (.quadrilateral, 37)]
    singularQuadratureDegrees :=
      [((.triangle, .triangle), 4), ((.quadrilateral, .quadrilateral), 4),
        ((.quadrilateral, .triangle), 4), ((.triangle, .quadrilateral), 4)]
    batchSize := 128 }

/-- `set_regular_quadrature_degree`, `src/boundary_assemblers.rs:61-65`. -/
def Options.setRegularQuadratureDegree (o : Options) (t : CellType) (n : Nat) : Options :=
  { o with quadratureDegrees := o.quadratureDegrees.andModify t n }

/-- `get_regular_quadrature_degree`, `src/boundary_assemblers.rs:68-70`. -/
def Options.getRegularQuadratureDegree (o : Options) (t : CellType) : Option Nat :=
  o.quadratureDegrees.get? t

/-- `set_singular_quadrature_degree`, `src/boundary_assemblers.rs:73-81`. -/
def Options.setSingularQuadratureDegree (o : Options) (t : CellType × CellType) (n : Nat) : Options :=
  { o with singularQuadratureDegrees := o.singularQuadratureDegrees.andModify t n }

/-- `get_singular_quadrature_degree`, `src/boundary_assemblers.rs:84-89`. -/
def Options.getSingularQuadratureDegree (o : Options) (t : CellType × CellType) : Option Nat :=
  o.singularQuadratureDegrees.get? t

/-- `set_batch_size`, `src/boundary_assemblers.rs:92-94`. -/
def Options.setBatchSize (o : Options) (n : Nat) : Options := { o with batchSize := n }

/-- `get_batch_size`, `src/boundary_assemblers.rs:97-99`. -/
def Options.getBatchSize (o : Options) : Nat := o.batchSize

end Bempp
