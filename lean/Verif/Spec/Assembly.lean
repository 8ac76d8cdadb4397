import Verif.Spec.Contract
import Verif.Spec.Yields
import Verif.Model.Operators
/-
What the property theorems about assembly assume of the external crates (`ndgrid`, `ndelement`,
`green-kernels`, `bempp-quadrature`), and the mathematical quantities that they talk about.

Nothing here refers to how the assembler works: geometry is a function of a cell and a reference
point, a basis function is a function of a reference point, a kernel is a function of two points, a
quadrature rule is a list of nodes with weights.
-/
namespace Bempp

variable {R T : Type}

/-! ### Mathematical data -/

/-- Geometry of a grid: for a cell, a reference point and a component, the coordinates, the unit
normal, the Jacobian (two columns of three) and the integration element. -/
structure Geometry (R : Type) where
  point : Nat → List R → Nat → R
  normal : Nat → List R → Nat → R
  jacobian : Nat → List R → Nat → R
  jdet : Nat → List R → R

/-- Geometry of a cell at one point, converted to `T`. -/
structure PointData (T : Type) where
  point : Nat → T
  normal : Nat → T
  jacobian : Nat → T
  jdet : T

/-- The point data of cell `c` at reference point `x`. -/
def Geometry.data (cast : R → T) (G : Geometry R) (c : Nat) (x : List R) : PointData T :=
  { point := fun i => cast (G.point c x i)
    normal := fun i => cast (G.normal c x i)
    jacobian := fun i => cast (G.jacobian c x i)
    jdet := cast (G.jdet c x) }

/-- The three coordinates of the image of a reference point. -/
def Geometry.coords (G : Geometry R) (c : Nat) (x : List R) : List R := (List.range 3).map (G.point c x)

/-- An integrand: a function of the kernel components, of the test and trial basis functions (value,
first reference derivative, second reference derivative, ...) and of the two cell geometries. -/
abbrev MathIntegrand (T : Type) : Type :=
  (Nat → T) → (Nat → T) → (Nat → T) → PointData T → PointData T → T

/-- Basis functions: cell type, number of the basis function, derivative, reference point. -/
abbrev Basis (R T : Type) : Type := CellType → Nat → Nat → List R → T

/-- A kernel: two points (lists of coordinates) and a component. -/
abbrev MathKernel (R T : Type) : Type := List R → List R → Nat → T

/-- Quadrature rules: nodes with weights for one cell; pairs of nodes with weights for two cells that
are connected in the given way. -/
structure Quadrature (R : Type) where
  regular : CellType → List (List R × R)
  singular : CellType → CellType → Connectivity → List (List R × List R × R)

/-! ### Contracts -/

/-- Number of derivatives up to order `d` in two variables. -/
def numDerivs (d : Nat) : Nat := (d + 1) * (d + 2) / 2

/-- Number of components that a kernel produces. -/
def EvalType.comps : EvalType → Nat
  | .value => 1
  | .valueDeriv => 4

/-- A two-dimensional array of shape `[n0, n1]`. -/
def Shape2 {α : Type} (n0 n1 : Nat) (a : List (List α)) : Prop := a.length = n1 ∧ ∀ c ∈ a, c.length = n0

/-- A three-dimensional array of shape `[n0, n1, n2]`. -/
def Shape3 {α : Type} (n0 n1 n2 : Nat) (a : List (List (List α))) : Prop :=
  a.length = n2 ∧ ∀ c ∈ a, Shape2 n0 n1 c

/-- The shape of geometry buffers for `n` points. -/
structure CellGeom.Shaped (n : Nat) (g : CellGeom R) : Prop where
  points : Shape2 3 n g.points
  normals : Shape2 3 n g.normals
  jacobians : Shape2 6 n g.jacobians
  jdets : g.jdets.length = n

/-- A four-dimensional array of shape `[n0, n1, n2, n3]`. -/
def Shape4 {α : Type} (n0 n1 n2 n3 : Nat) (a : List (List (List (List α)))) : Prop :=
  a.length = n3 ∧ ∀ c ∈ a, Shape3 n0 n1 n2 c

/-- What an evaluator for reference points `pts` must do for cell `c`: overwrite buffers of the right
shape by the geometry at these points. -/
structure GeoMap.Evaluates (ev : GeoMap R) (G : Geometry R) (pts : List (List R)) (c : Nat) : Prop where
  points : ∀ buf, Shape2 3 pts.length buf →
    ev.points c buf = some (pts.map fun x => (List.range 3).map (G.point c x))
  jacobiansDetsNormals : ∀ bj bd bn, Shape2 6 pts.length bj → bd.length = pts.length →
    Shape2 3 pts.length bn → ev.jacobiansDetsNormals c bj bd bn =
      some (pts.map fun x => (List.range 6).map (G.jacobian c x), pts.map (G.jdet c),
        pts.map fun x => (List.range 3).map (G.normal c x))

/-- Points of a reference cell. -/
def RefPoints (pts : List (List R)) : Prop := ∀ x ∈ pts, x.length = 2

/-- The contract of `ndgrid`'s geometry maps on a grid. -/
def GeometryOk (sp : Space R T) (G : Geometry R) : Prop :=
  ∀ t ∈ sp.fs.grid.entityTypes 2, ∀ pts, RefPoints pts → ∃ ev, sp.geometryMap t pts = some ev ∧
    ∀ c ∈ sp.fs.grid.entityIter 2, c.entityType = t → ev.Evaluates G pts c.localIndex

/-- The table of `dim` basis functions and `nd` derivatives at a list of points. -/
def Basis.table (B : Basis R T) (t : CellType) (dim nd : Nat) (pts : List (List R)) :
    List (List (List (List T))) :=
  [(List.range dim).map fun a => pts.map fun x => (List.range nd).map fun i => B t a i x]

/-- The contract of `ndelement`'s `tabulate`: the table has the values and derivatives of all basis
functions at all points (order: value component, basis function, point, derivative). -/
def TabulateOk (sp : Space R T) (fam : CellType → ElementDofs) (B : Basis R T) : Prop :=
  ∀ t ∈ sp.fs.grid.entityTypes 2, ∀ d pts, RefPoints pts → sp.tabulate t d pts pts.length =
    some (B.table t (fam t).dim (numDerivs d) pts)

/-- The contract of `green-kernels`: the result buffer of the right size is overwritten by the kernel
values. -/
structure Kernel.Computes (K : Kernel R T) (et : EvalType) (G : MathKernel R T) : Prop where
  pairwise : ∀ (n : Nat) (src tgt : List (List R)) (res : List (List T)), Shape2 3 n src →
    Shape2 3 n tgt → Shape2 et.comps n res → K.assemblePairwiseSt et src tgt res =
      some (List.zipWith (fun x y => (List.range et.comps).map (G x y)) src tgt)
  all : ∀ (m n : Nat) (src tgt : List (List R)) (res : List (List (List T))), Shape2 3 m src →
    Shape2 3 n tgt → Shape3 et.comps m n res → K.assembleSt et src tgt res =
      some (tgt.map fun y => src.map fun x => (List.range et.comps).map (G x y))

/-- The integrand `f` needs `nk` kernel components and `nd` derivatives, and on these data it has the
value of `F`; whatever else can or cannot be read does not matter. -/
def Integrand.Computes (f : Integrand T) (F : MathIntegrand T) (nk nd : Nat) : Prop :=
  ∀ (k : Nat → Option T) (u v : Nat → Nat → Option T) (tg rg : GeomAcc T)
    (K U V : Nat → T) (TG RG : PointData T),
    (∀ i, i < nk → k i = some (K i)) → (∀ i, i < nd → u i 0 = some (U i)) →
    (∀ i, i < nd → v i 0 = some (V i)) →
    (∀ i, i < 3 → tg.point i = some (TG.point i)) → (∀ i, i < 3 → rg.point i = some (RG.point i)) →
    (∀ i, i < 3 → tg.normal i = some (TG.normal i)) → (∀ i, i < 3 → rg.normal i = some (RG.normal i)) →
    (∀ i, i < 6 → tg.jacobian i = some (TG.jacobian i)) →
    (∀ i, i < 6 → rg.jacobian i = some (RG.jacobian i)) →
    tg.jdet = some TG.jdet → rg.jdet = some RG.jdet →
    f k u v tg rg = some (F K U V TG RG)

/-- An assembler for the mathematical operator given by integrand `F` and kernel `G`. -/
structure Assembler.Computes (asm : Assembler R T) (F : MathIntegrand T) (G : MathKernel R T) : Prop where
  integrand : asm.integrand.Computes F asm.derivSize (numDerivs asm.tableDerivs)
  kernel : asm.kernel.kernel.Computes asm.kernel.evalType G
  comps : asm.kernel.evalType.comps = asm.derivSize

/-- Connectivities of two cells of a conforming grid: a common vertex, a common edge (in one of two
relative orientations), the same cell. -/
inductive Connectivity.Possible (tt rt : CellType) : Connectivity → Prop
  | vertex {i j : Nat} : i < refCount tt 0 → j < refCount rt 0 → Possible tt rt ⟨0, [(i, j)]⟩
  | edge {a b c d : Nat} : ((a, b) ∈ refEdges tt ∨ (b, a) ∈ refEdges tt) → (c, d) ∈ refEdges rt →
      Possible tt rt ⟨1, [(a, c), (b, d)]⟩
  | same : tt = rt → Possible tt rt ⟨2, (List.range (refCount tt 0)).map fun i => (i, i)⟩

/-- The rules of the quadrature crates for the degrees chosen in the options and the cell type `t`. -/
structure RegularOk (env : Env R T) (o : Options) (Q : Quadrature R) (t : CellType) : Prop where
  degree : o.getRegularQuadratureDegree t = some (Q.regular t).length
  rule : env.simplexRule t (Q.regular t).length =
    some ⟨(Q.regular t).flatMap Prod.fst, (Q.regular t).map Prod.snd⟩
  points : ∀ p ∈ Q.regular t, p.1.length = 2

/-- The Duffy rule function for a pair of cell types. -/
def Env.duffy (env : Env R T) (tt rt : CellType) : Connectivity → Nat → Option (TestTrialRule R) :=
  match tt, rt with
  | .triangle, .triangle => env.triangleDuffy
  | .triangle, .quadrilateral => env.triangleQuadrilateralDuffy
  | .quadrilateral, .triangle => env.quadrilateralTriangleDuffy
  | .quadrilateral, .quadrilateral => env.quadrilateralDuffy
  | _, _ => fun _ _ => none

/-- See `RegularOk`. -/
structure SingularOk (env : Env R T) (o : Options) (Q : Quadrature R) (tt rt : CellType) :
    Prop where
  degree : ∃ n, o.getSingularQuadratureDegree (tt, rt) = some n ∧
    ∀ con, con.Possible tt rt → env.duffy tt rt con n =
      some ⟨(Q.singular tt rt con).flatMap fun p => p.1,
        (Q.singular tt rt con).flatMap fun p => p.2.1, (Q.singular tt rt con).map fun p => p.2.2⟩
  points : ∀ con, con.Possible tt rt → ∀ p ∈ Q.singular tt rt con, p.1.length = 2 ∧ p.2.1.length = 2

/-- A function space on one process, as the user gets it from `FunctionSpace::new`. -/
structure SerialSpace (sp : FunctionSpace) (fam : CellType → ElementDofs) : Prop where
  wf : sp.grid.WF
  edges : ∃ ev, sp.grid.Edges ev
  family : ∃ nd t0, FamilyOn sp.grid fam nd ∧ Colourable sp.grid fam nd t0
  owned : ∀ d, d ≤ 2 → ∀ e ∈ sp.grid.entityIter d, e.ownership = .owned
  made : FunctionSpace.new 0 1 sp.grid fam = .done sp

/-- A grid of surfaces in three-dimensional space. -/
def Surface (g : Grid) : Prop := g.geometryDim = 3 ∧ g.topologyDim = 2

/-- Grids at the same address are the same object. -/
def SameObject (test trial : Space R T) : Prop :=
  test.fs.grid.addr = trial.fs.grid.addr →
    test.fs.grid = trial.fs.grid ∧ test.geometryMap = trial.geometryMap

/-- The connectivity contract of `ndgrid`: a vertex is connected to the cells that contain it, each
listed once. -/
structure Grid.Vertices (g : Grid) : Prop where
  nodup : ∀ v ∈ g.entityIter 0, (v.connected 2).Nodup
  mem : ∀ v ∈ g.entityIter 0, ∀ i, i ∈ v.connected 2 ↔
    ∃ c ∈ g.entityIter 2, c.localIndex = i ∧ v.localIndex ∈ c.sub 0

/-- A conforming grid: two different cells with two common vertices have the edge between them in
common, and they never have three common vertices. -/
structure Grid.Conforming (g : Grid) (ev : Nat → Nat × Nat) : Prop where
  edge : ∀ c ∈ g.entityIter 2, ∀ c' ∈ g.entityIter 2, c.localIndex ≠ c'.localIndex →
    ∀ v ∈ c.sub 0, ∀ w ∈ c.sub 0, v ∈ c'.sub 0 → w ∈ c'.sub 0 → v ≠ w →
    ∃ e, e ∈ c.sub 1 ∧ e ∈ c'.sub 1 ∧ SamePair (ev e) (v, w)
  two : ∀ c ∈ g.entityIter 2, ∀ c' ∈ g.entityIter 2, c.localIndex ≠ c'.localIndex →
    ∀ u v w, u ∈ c.sub 0 → v ∈ c.sub 0 → w ∈ c.sub 0 → u ∈ c'.sub 0 → v ∈ c'.sub 0 → w ∈ c'.sub 0 →
    u = v ∨ u = w ∨ v = w

/-! ### Local quadrature values -/

section
variable [Zero T] [Add T] [Mul T] [Mul R]

/-- Regular quadrature value for test basis function `a` on cell `c` of type `tt` and trial basis
function `b` on cell `c'` of type `rt`; the terms are added in the order of the nodes, the trial nodes
inside. -/
def regularValue (cast : R → T) (F : MathIntegrand T) (G : MathKernel R T) (testG trialG : Geometry R)
    (testB trialB : Basis R T) (Q : Quadrature R) (tt rt : CellType) (c c' a b : Nat) : T :=
  (Q.regular tt).foldl (fun s p => (Q.regular rt).foldl (fun s q =>
    s + F (G (testG.coords c p.1) (trialG.coords c' q.1)) (fun i => testB tt a i p.1)
        (fun i => trialB rt b i q.1) (testG.data cast c p.1) (trialG.data cast c' q.1)
      * cast (q.2 * trialG.jdet c' q.1) * cast (p.2 * testG.jdet c p.1)) s) 0

/-- Singular quadrature value. -/
def singularValue (cast : R → T) (F : MathIntegrand T) (G : MathKernel R T) (testG trialG : Geometry R)
    (testB trialB : Basis R T) (Q : Quadrature R) (tt rt : CellType) (con : Connectivity)
    (c c' a b : Nat) : T :=
  (Q.singular tt rt con).foldl (fun s p =>
    s + F (G (testG.coords c p.1) (trialG.coords c' p.2.1)) (fun i => testB tt a i p.1)
        (fun i => trialB rt b i p.2.1) (testG.data cast c p.1) (trialG.data cast c' p.2.1)
      * cast (p.2.2 * (testG.jdet c p.1 * trialG.jdet c' p.2.1))) 0

end

/-- The connectivity of two cells: which local vertices coincide. -/
def sharedVertices (c c' : Entity) : List (Nat × Nat) :=
  (c'.sub 0).zipIdx.flatMap fun r => ((c.sub 0).zipIdx.filter fun t => t.1 = r.1).map fun t => (t.2, r.2)

/-- The dimension of the intersection of two adjacent cells with the given common local vertices: a
point, an edge, a cell. -/
def connectivity (c c' : Entity) : Connectivity :=
  { connectivityDimension := if c.localIndex = c'.localIndex then 2
      else if (sharedVertices c c').length = 1 then 0 else 1
    localIndices := sharedVertices c c' }

end Bempp
