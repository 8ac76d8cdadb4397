import Verif.Model.Grid
/-
Model of `assign_dofs`, `src/function.rs:365-445`. A panic is `none`.
-/
namespace Bempp

/-- The mutable variables of `assign_dofs` (`src/function.rs:377-379,404`). -/
structure DofState where
  /-- `size` -/
  size : Nat
  /-- `entity_dofs: [Vec<Vec<usize>>; 4]` -/
  entityDofs : List (List (List Nat))
  /-- `owner_data: Vec<(usize, usize, usize, usize)>` = (process, dim, entity, position) -/
  ownerData : List (Nat × Nat × Nat × Nat)
  /-- `cell_dofs: Vec<Vec<usize>>` -/
  cellDofs : List (List Nat)

/-- Body of the loop `src/function.rs:425-435`: give the next free number to position `dofI` of
entity `(d, e)` and record its owner. -/
def pushDof (rank : Nat) (g : Grid) (d e : Nat) (s : DofState) (dofI : Nat) : Option DofState := do
  let edofsD ← s.entityDofs[d]?
  let cur ← edofsD[e]?
  let ent ← g.entity d e
  let own := match ent.ownership with
    | .ghost process index => (process, d, index, dofI)
    | .owned => (rank, d, e, dofI)
  some { s with
    entityDofs := s.entityDofs.set d (edofsD.set e (cur ++ [s.size]))
    ownerData := s.ownerData ++ [own]
    size := s.size + 1 }

/-- Body of the loop `src/function.rs:437-439`: `cell_dofs[c][local_dof] = dof`. -/
def writeCellDof (c : Nat) (s : DofState) (p : Nat × Nat) : Option DofState := do
  let row ← s.cellDofs[c]?
  if p.1 < row.length then
    some { s with cellDofs := s.cellDofs.set c (row.set p.1 p.2) }
  else none

/-- Body of the loop `src/function.rs:421-441` for sub-entity number `i` (entity `e`) of dimension
`d` of cell number `c`. -/
def visit (rank : Nat) (g : Grid) (el : ElementDofs) (c d i e : Nat) (s : DofState) :
    Option DofState := do
  let eDofs ← el.entityDofs d i
  if eDofs.isEmpty then
    some s
  else
    let edofsD ← s.entityDofs[d]?
    let cur ← edofsD[e]?
    let s1 ← if cur.isEmpty then (List.range eDofs.length).foldlM (pushDof rank g d e) s else some s
    let edofsD1 ← s1.entityDofs[d]?
    let cur1 ← edofsD1[e]?
    (eDofs.zip cur1).foldlM (writeCellDof c) s1

/-- Body of the loop `src/function.rs:414-443` for one cell. -/
def assignCell (rank : Nat) (g : Grid) (elements : Map CellType ElementDofs) (s : DofState)
    (cell : Entity) : Option DofState := do
  let el ← elements.get? cell.entityType
  if cell.localIndex < s.cellDofs.length then
    let s0 := { s with cellDofs := s.cellDofs.set cell.localIndex (List.replicate el.dim 0) }
    (List.range (g.topologyDim + 1)).foldlM (fun s d =>
      (cell.sub d).zipIdx.foldlM (fun s (p : Nat × Nat) =>
        visit rank g el cell.localIndex d p.2 p.1 s) s) s0
  else none

/-- `assign_dofs`, `src/function.rs:365-445`. The returned state holds the four results
`(cell_dofs, entity_dofs, size, owner_data)`. The loop of lines 406-413 computes `max_rank`, which is
never used, and is omitted. The element dimensions stored in `element_dims` (line 386) are read off
the stored element. -/
def assignDofs (rank : Nat) (g : Grid) (fam : CellType → ElementDofs) : Option DofState := do
  let elements : Map CellType ElementDofs := (g.entityTypes 2).map fun t => (t, fam t)
  if 2 < g.topologyDim then none else
  let s0 : DofState :=
    { size := 0
      entityDofs := (List.range 4).map fun d =>
        if d < g.topologyDim + 1 then List.replicate (g.count d) [] else []
      ownerData := []
      cellDofs := List.replicate (g.count g.topologyDim) [] }
  (g.entityIter g.topologyDim).foldlM (assignCell rank g elements) s0

end Bempp
