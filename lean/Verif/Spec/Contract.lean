import Verif.Model.Grid
/-
Contracts of the external crates `ndgrid` and `ndelement` that the property theorems assume.
They are predicates on the data an implementation returns; concrete grids that satisfy them are in
`Verif/Spec/Examples.lean`.
-/
namespace Bempp

/-- The grid contract: a two-dimensional grid whose entities of each dimension are numbered
`0 .. count-1`, whose cells are of listed types, whose sub-entity lists are duplicate free, in range and of the
length of the reference cell, and in which every entity belongs to a cell. -/
structure Grid.WF (g : Grid) : Prop where
  tdim : g.topologyDim = 2
  index : ∀ d, d ≤ 2 → ((g.entityIter d).map Entity.localIndex).Perm (List.range (g.count d))
  entity : ∀ d, d ≤ 2 → ∀ e ∈ g.entityIter d, g.entity d e.localIndex = some e
  types : ∀ c ∈ g.entityIter 2, c.entityType ∈ g.entityTypes 2
  sub_lt : ∀ c ∈ g.entityIter 2, ∀ d, d ≤ 2 → ∀ e ∈ c.sub d, e < g.count d
  sub_nodup : ∀ c ∈ g.entityIter 2, ∀ d, d ≤ 2 → (c.sub d).Nodup
  sub_length : ∀ c ∈ g.entityIter 2, ∀ d, d ≤ 2 → (c.sub d).length = refCount c.entityType d
  sub_self : ∀ c ∈ g.entityIter 2, c.sub 2 = [c.localIndex]
  cell_types : ∀ t ∈ g.entityTypes 2, t = .triangle ∨ t = .quadrilateral
  types_nodup : (g.entityTypes 2).Nodup
  types0 : g.entityTypes 0 = [.point]
  types1 : g.entityTypes 1 = [.interval]
  covered : ∀ d, d ≤ 2 → ∀ e, e < g.count d → ∃ c ∈ g.entityIter 2, e ∈ c.sub d

/-- All reference DOF numbers of an element, sub-entity by sub-entity. -/
def ElementDofs.allDofs (el : ElementDofs) (t : CellType) : List Nat :=
  (List.range 3).flatMap fun d => (List.range (refCount t d)).flatMap fun i =>
    (el.entityDofs d i).getD []

/-- The element contract on cell type `t`: `entity_dofs` is defined for every sub-entity and the
reference DOFs `0 .. dim-1` are distributed over the sub-entities, each exactly once. -/
structure ElementDofs.WF (el : ElementDofs) (t : CellType) : Prop where
  defined : ∀ d, d ≤ 2 → ∀ i, i < refCount t d → (el.entityDofs d i).isSome
  partition : (el.allDofs t).Perm (List.range el.dim)

/-- An element family is compatible with a grid if its elements satisfy the contract and all cells
that contain an entity `(d, e)` put the same number `nd d e` of DOFs on it. -/
structure FamilyOn (g : Grid) (fam : CellType → ElementDofs) (nd : Nat → Nat → Nat) : Prop where
  elem : ∀ t ∈ g.entityTypes 2, (fam t).WF t
  count : ∀ c ∈ g.entityIter 2, ∀ d, d ≤ 2 → ∀ i e, (c.sub d)[i]? = some e →
    ∀ l, (fam c.entityType).entityDofs d i = some l → l.length = nd d e


/-- The two vertices of an edge as an unordered pair. -/
def SamePair (p q : Nat × Nat) : Prop := p = q ∨ p = (q.2, q.1)

/-- The conformity contract: edge `e` is a pair of vertices, the same for all cells that contain it;
different edges are different pairs; and a cell's edge number `i` joins the two vertices that the
reference cell prescribes. -/
structure Grid.Edges (g : Grid) (ev : Nat → Nat × Nat) : Prop where
  ref : ∀ c ∈ g.entityIter 2, ∀ i e : Nat, (c.sub 1)[i]? = some e → ∃ a b va vb : Nat,
    (refEdges c.entityType)[i]? = some (a, b) ∧ (c.sub 0)[a]? = some va ∧ (c.sub 0)[b]? = some vb ∧
    SamePair (ev e) (va, vb)
  inj : ∀ e e', e < g.count 1 → e' < g.count 1 → SamePair (ev e) (ev e') → e = e'

/-- The family contract of the colouring: the first cell type's element has DOFs on the first
sub-entity of some dimension, and if it has none on its first vertex (first edge) then no vertex (no
edge) of the grid carries DOFs. Lagrange, Raviart-Thomas and Nedelec elements satisfy this. -/
structure Colourable (g : Grid) (fam : CellType → ElementDofs) (nd : Nat → Nat → Nat) (t0 : CellType) :
    Prop where
  first : (g.entityTypes 2)[0]? = some t0
  exists_dof : ∃ d l, d ≤ 2 ∧ (fam t0).entityDofs d 0 = some l ∧ l ≠ []
  lowest : ∀ d, d ≤ 1 → (fam t0).entityDofs d 0 = some [] → ∀ e, nd d e = 0

/-- The entities `(d, e)` in the order in which one meets them going through the cells in the order of
the grid, and in each cell through its vertices, its edges and its interior. -/
def Grid.visitOrder (g : Grid) : List (Nat × Nat) :=
  (g.entityIter 2).flatMap fun c => (List.range 3).flatMap fun d => (c.sub d).map fun e => (d, e)

/-- The places `(d, e, k)` of DOFs (position `k` on entity `(d, e)`) when the entities are met in the
given order and an entity that was met before is skipped. -/
def dofPlaces (nd : Nat → Nat → Nat) (es : List (Nat × Nat)) : List (Nat × Nat × Nat) :=
  es.eraseDups.flatMap fun x => (List.range (nd x.1 x.2)).map fun k => (x.1, x.2, k)

end Bempp
