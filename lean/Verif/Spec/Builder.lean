import Verif.Spec.Shapes
import Verif.Spec.Dense
import Mathlib.Data.Finset.Card
/-
The contract of the grid builder of `ndgrid`, as used by `src/shapes.rs:28-31,103-112,136-170,194-221` on one process,
and what is said about the grids that it makes.
-/
namespace Bempp

/-- `g` is a grid made from the calls `s`, all cells being of type `t`. The builder may renumber: vertex `i` of the
grid is point `pt i` and cell `k` is cell `cl k` of the calls. -/
structure Built {T : Type} (s : Shape T) (t : CellType) (g : Grid) (pt cl : Nat → Nat) : Prop where
  wf : g.WF
  surface : Surface g
  types : g.entityTypes 2 = [t]
  owned : ∀ d, d ≤ 2 → ∀ e ∈ g.entityIter d, e.ownership = .owned
  vertices : g.Vertices
  edges : ∃ ev, g.Edges ev
  points : ((List.range (g.count 0)).map pt).Perm (List.range s.points.length)
  cells : ((List.range (g.count 2)).map cl).Perm (List.range s.cells.length)
  corners : ∀ c ∈ g.entityIter 2, ∃ x, s.cells[cl c.localIndex]? = some x ∧ x.2 = (c.sub 0).map pt

/-- All cells of a shape are of type `t`. -/
def Shape.OfType {T : Type} (s : Shape T) (t : CellType) : Prop :=
  ∀ c ∈ s.cells, c.2.length = refCount t 0 ∧ c.2.Nodup

/-- `v` and `w` are the ends of an edge of the cell `c`. -/
def Joined (c : List Nat) (v w : Nat) : Prop := (v, w) ∈ cellEdges c ∨ (w, v) ∈ cellEdges c

/-- A conforming shape: two different cells have in common nothing, one corner, or the two ends of an edge of both. -/
structure Shape.Conforming {T : Type} (s : Shape T) : Prop where
  edge : s.cells.Pairwise fun c c' => ∀ v w, v ∈ c.2 → w ∈ c.2 → v ∈ c'.2 → w ∈ c'.2 → v ≠ w →
    Joined c.2 v w ∧ Joined c'.2 v w
  two : s.cells.Pairwise fun c c' => ∀ u v w, u ∈ c.2 → v ∈ c.2 → w ∈ c.2 → u ∈ c'.2 → v ∈ c'.2 → w ∈ c'.2 →
    u = v ∨ u = w ∨ v = w

/-- The edges of a shape without their direction. -/
def Shape.undirected {T : Type} (s : Shape T) : Finset (Nat × Nat) :=
  (s.edges.map fun d => (min d.1 d.2, max d.1 d.2)).toFinset

/-- An element that has, on cells of type `t`, `k 0` degrees of freedom on each vertex, `k 1` on each edge and `k 2`
inside; not all of them 0. -/
structure ElementDofs.Uniform (el : ElementDofs) (t : CellType) (k : Nat → Nat) : Prop where
  wf : el.WF t
  count : ∀ d, d ≤ 2 → ∀ i, i < refCount t d → ∀ l, el.entityDofs d i = some l → l.length = k d
  some : 0 < k 0 + k 1 + k 2

end Bempp
