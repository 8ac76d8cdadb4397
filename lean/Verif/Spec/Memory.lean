import Verif.Spec.Dense
/-
What is needed of external functions for memory safety: the sizes of what they return. Nothing is said about values, and
every function may panic whenever it wants. Functions that are given a slice cannot change its length.
-/
namespace Bempp

variable {R T : Type}

/-- A geometry map writes to slices, so the shapes of the arrays stay the same. -/
structure GeoMap.Sized (ev : GeoMap R) : Prop where
  points : ∀ c n b b', Shape2 3 n b → ev.points c b = some b' → Shape2 3 n b'
  other : ∀ c n bj bd bn x, Shape2 6 n bj → bd.length = n → Shape2 3 n bn →
    ev.jacobiansDetsNormals c bj bd bn = some x → Shape2 6 n x.1 ∧ x.2.1.length = n ∧ Shape2 3 n x.2.2

/-- A kernel writes to a slice, so the shape of the array stays the same. -/
structure Kernel.Sized (K : Kernel R T) : Prop where
  pairwise : ∀ et s t m n b b', Shape2 m n b → K.assemblePairwiseSt et s t b = some b' → Shape2 m n b'
  all : ∀ et s t m n p b b', Shape3 m n p b → K.assembleSt et s t b = some b' → Shape3 m n p b'

/-- The shapes that come from `geometry_map`, and from `tabulate_array_shape` (the array is made by the assembler,
`tabulate` writes to it): derivatives, points, basis functions, one value component. -/
structure Space.Sized (sp : Space R T) : Prop where
  geometry : ∀ t pts ev, sp.geometryMap t pts = some ev → ev.Sized
  tabulate : ∀ t el d pts n tab, sp.fs.element t = some el → sp.tabulate t d pts n = some tab →
    Shape4 (numDerivs d) n el.dim 1 tab

/-- `simplex_rule` returns as many weights as it was asked for. -/
def Env.Sized (env : Env R T) : Prop := ∀ t n q, env.simplexRule t n = some q → q.weights.length = n

/-- The numbers of basis functions with which dense assembly reads its tables are not too large. The call of
`assemble_batch_nonadjacent` exchanges the two cell types (`src/boundary_assemblers.rs:501-502` against 698-699), so for
test cells of type `tt` the program takes the number of basis functions that the test element has on the type `rt` of
the trial cells. -/
def TablesFit (test trial : FunctionSpace) : Prop :=
  ∀ tt ∈ test.grid.entityTypes 2, ∀ rt ∈ trial.grid.entityTypes 2, ∀ a b c d,
    test.element tt = some a → test.element rt = some b → trial.element rt = some c → trial.element tt = some d →
    b.dim ≤ a.dim ∧ d.dim ≤ c.dim

/-- The geometry maps of a grid do not panic when they are given arrays of the right sizes, for cells of whatever
type. -/
def Space.MapsWork (sp : Space R T) : Prop :=
  ∀ t ∈ sp.fs.grid.entityTypes 2, ∀ pts, RefPoints pts → ∃ ev, sp.geometryMap t pts = some ev ∧
    ∀ c ∈ sp.fs.grid.entityIter 2,
      (∀ b, Shape2 3 pts.length b → ∃ b', ev.points c.localIndex b = some b') ∧
      ∀ bj bd bn, Shape2 6 pts.length bj → bd.length = pts.length → Shape2 3 pts.length bn →
        ∃ x, ev.jacobiansDetsNormals c.localIndex bj bd bn = some x

/-- The kernel does not panic when it is given arrays of the right sizes. -/
def Kernel.Works (K : Kernel R T) (et : EvalType) : Prop :=
  ∀ (m n : Nat) (src tgt : List (List R)) (res : List (List (List T))), Shape2 3 m src → Shape2 3 n tgt →
    Shape3 et.comps m n res → ∃ r, K.assembleSt et src tgt res = some r

end Bempp
