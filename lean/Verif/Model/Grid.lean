/-
Interface of the external crates `ndgrid` and `ndelement` as far as bempp-rs uses it.
These are *parameters* of the model: a `Grid` / `Element` value records what the trait methods
return. Contracts on these values are stated in `Verif/Spec/Contract.lean`.
-/
namespace Bempp

/-- `ndelement::types::ReferenceCellType`; the variants are listed in
`python/bempp/function_space.py:23-34`. -/
inductive CellType where
  | point | interval | triangle | quadrilateral | tetrahedron | hexahedron | prism | pyramid
deriving DecidableEq, Repr

/-- `ndgrid::types::Ownership` as matched in `src/function.rs:408,427,210-221` and
`src/boundary_assemblers.rs:579`. -/
inductive Ownership where
  | owned
  | ghost (process index : Nat)
deriving DecidableEq, Repr

/-- What bempp-rs reads from an `ndgrid` entity: `local_index()`, `entity_type()`, `ownership()`,
`topology().sub_entity_iter(d)` and `topology().connected_entity_iter(d)`
(`src/function.rs:314-338,408-438`, `src/boundary_assemblers.rs:575-591,781-782`). -/
structure Entity where
  localIndex : Nat
  entityType : CellType
  ownership : Ownership
  sub : Nat → List Nat
  connected : Nat → List Nat

/-- What bempp-rs reads from an `ndgrid` grid. `addr` is the address compared by `equal_grids`
(`src/boundary_assemblers/helpers.rs:59-64`); the remaining fields are `topology_dim()`,
`geometry_dim()`, `entity_types(d)`, `entity_count(t)`, `entity_iter(d)` and `entity(d, i)`. -/
structure Grid where
  addr : Nat
  topologyDim : Nat
  geometryDim : Nat
  entityTypes : Nat → List CellType
  entityCount : CellType → Nat
  entityIter : Nat → List Entity
  entity : Nat → Nat → Option Entity

/-- Number of entities of dimension `d`: the expression of `src/function.rs:389-396`
(`entity_types(d).iter().map(|&i| entity_count(i)).sum()`). -/
def Grid.count (g : Grid) (d : Nat) : Nat := ((g.entityTypes d).map g.entityCount).sum

/-- The part of `ndelement`'s `FiniteElement` used for DOF maps: `dim()` and `entity_dofs(d, i)`
(`src/function.rs:386,422`, `src/function.rs:288-291`). -/
structure ElementDofs where
  dim : Nat
  entityDofs : Nat → Nat → Option (List Nat)

/-- `ndelement::reference_cell::entity_counts(cell)[d]` for the two-dimensional cells that the code
supports (`src/boundary_assemblers.rs:269-270,284`); other cells are not used by the model. -/
def refCount : CellType → Nat → Nat
  | .triangle, 0 => 3
  | .triangle, 1 => 3
  | .triangle, 2 => 1
  | .quadrilateral, 0 => 4
  | .quadrilateral, 1 => 4
  | .quadrilateral, 2 => 1
  | _, _ => 0

/-- `ndelement::reference_cell::edges(cell)` (`src/boundary_assemblers.rs:275-276`): the two
reference vertices of each reference edge. The triangle list is the one `src/shapes.rs:68` repeats;
the quadrilateral list is ndelement's tensor-product numbering (vertices 0..3 in the order of
`src/shapes.rs:208-213`). -/
def refEdges : CellType → List (Nat × Nat)
  | .triangle => [(1, 2), (0, 2), (0, 1)]
  | .quadrilateral => [(0, 1), (0, 2), (1, 3), (2, 3)]
  | _ => []

/-- A `HashMap` that is only inserted into and looked up: association list, newest entry first.
`src/function.rs:122,382-383`, `src/boundary_assemblers.rs:36-38,259`. -/
abbrev Map (K V : Type) := List (K × V)

/-- `map[&k]` / `map.get(&k)`: `none` is the panic (resp. the `None`) for a missing key.
`src/function.rs:255,288`, `src/boundary_assemblers.rs:69,88,357,416,418`. -/
def Map.get? {K V : Type} [DecidableEq K] (m : Map K V) (k : K) : Option V := List.lookup k m

end Bempp
