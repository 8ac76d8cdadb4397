import Verif.Spec.Operators
import Verif.Spec.Examples
import Mathlib.Algebra.Order.Ring.Unbundled.Rat
import Mathlib.Algebra.Field.Rat
import Mathlib.Algebra.Order.Group.Unbundled.Abs
/-
A concrete world in which the contracts of the external crates hold: the octahedron with rational
geometry, polynomial kernels and small quadrature rules.
-/
namespace Bempp.Examples

variable {R T : Type}

/-- A geometry map that does what its contract says. -/
def geoMapOf (G : Geometry R) (pts : List (List R)) : GeoMap R :=
  { points := fun c _ => some (pts.map fun x => (List.range 3).map (G.point c x))
    jacobiansDetsNormals := fun c _ _ _ =>
      some (pts.map fun x => (List.range 6).map (G.jacobian c x), pts.map (G.jdet c),
        pts.map fun x => (List.range 3).map (G.normal c x)) }

theorem geoMapOf_evaluates (G : Geometry R) (pts : List (List R)) (c : Nat) :
    (geoMapOf G pts).Evaluates G pts c :=
  ⟨fun _ _ => rfl, fun _ _ _ _ _ _ => rfl⟩

/-- A kernel that does what its contract says. -/
def kernelOf (G : MathKernel R T) : Kernel R T :=
  { assemblePairwiseSt := fun et src tgt _ =>
      some (List.zipWith (fun x y => (List.range et.comps).map (G x y)) src tgt)
    assembleSt := fun et src tgt _ =>
      some (tgt.map fun y => src.map fun x => (List.range et.comps).map (G x y)) }

theorem kernelOf_computes (G : MathKernel R T) (et : EvalType) : (kernelOf G).Computes et G :=
  ⟨fun _ _ _ _ _ _ _ => rfl, fun _ _ _ _ _ _ _ _ => rfl⟩

/-- A function space with geometry `G` and basis functions `B`. -/
def spaceOf (fs : FunctionSpace) (fam : CellType → ElementDofs) (G : Geometry R) (B : Basis R T) :
    Space R T :=
  { fs
    tabulate := fun t d pts _ => some (B.table t (fam t).dim (numDerivs d) pts)
    geometryMap := fun _ pts => some (geoMapOf G pts) }

theorem spaceOf_geometry (fs : FunctionSpace) (fam : CellType → ElementDofs) (G : Geometry R)
    (B : Basis R T) : GeometryOk (spaceOf fs fam G B) G :=
  fun _ _ pts _ => ⟨geoMapOf G pts, rfl, fun c _ _ => geoMapOf_evaluates G pts c.localIndex⟩

theorem spaceOf_tabulate (fs : FunctionSpace) (fam : CellType → ElementDofs) (G : Geometry R)
    (B : Basis R T) : TabulateOk (spaceOf fs fam G B) fam B :=
  fun _ _ _ _ _ => rfl

/-- External functions that return the rules of `Q`. -/
def envOf (cast : R → T) (Q : Quadrature R) (isBig : T → Bool)
    (fromAij : Nat × Nat → List Nat → List Nat → List T → Option (Csr T)) : Env R T :=
  let duffy (tt rt : CellType) (con : Connectivity) (_ : Nat) : Option (TestTrialRule R) :=
    some ⟨(Q.singular tt rt con).flatMap fun p => p.1,
      (Q.singular tt rt con).flatMap fun p => p.2.1, (Q.singular tt rt con).map fun p => p.2.2⟩
  { cast
    simplexRule := fun t _ => some ⟨(Q.regular t).flatMap Prod.fst, (Q.regular t).map Prod.snd⟩
    triangleDuffy := duffy .triangle .triangle
    triangleQuadrilateralDuffy := duffy .triangle .quadrilateral
    quadrilateralTriangleDuffy := duffy .quadrilateral .triangle
    quadrilateralDuffy := duffy .quadrilateral .quadrilateral
    isBig, fromAij }

/-- Coordinates of the vertices of the octahedron (`src/shapes.rs`). -/
def octVertex (v i : Nat) : Rat :=
  (([[0, 0, 1], [1, 0, 0], [0, 1, 0], [-1, 0, 0], [0, -1, 0], [0, 0, -1]] : List (List Rat)).getD v
    []).getD i 0

/-- Vertex `k` of cell `c` of the octahedron. -/
def octCell (c k : Nat) : Nat :=
  (([[0, 1, 2], [0, 2, 3], [0, 3, 4], [0, 4, 1], [5, 2, 1], [5, 3, 2], [5, 4, 3], [5, 1, 4]] :
    List (List Nat)).getD c []).getD k 0

/-- Geometry of the octahedron. The integration element is 2 instead of an irrational number, the
normals have length 1 in the maximum norm. -/
def octGeometry : Geometry Rat :=
  let col (c j i : Nat) : Rat := octVertex (octCell c (j + 1)) i - octVertex (octCell c 0) i
  { point := fun c x i => octVertex (octCell c 0) i + x.getD 0 0 * col c 0 i + x.getD 1 0 * col c 1 i
    normal := fun c _ i =>
      octVertex (octCell c 0) i + octVertex (octCell c 1) i + octVertex (octCell c 2) i
    jacobian := fun c _ j => col c (j / 3) (j % 3)
    jdet := fun _ _ => 2 }

/-- The degree 1 basis functions of a triangle. -/
def p1Basis : Basis Rat Rat := fun _ a i x =>
  match a, i with
  | 0, 0 => 1 - x.getD 0 0 - x.getD 1 0
  | 1, 0 => x.getD 0 0
  | 2, 0 => x.getD 1 0
  | 0, 1 => -1
  | 0, 2 => -1
  | 1, 1 => 1
  | 2, 2 => 1
  | _, _ => 0

/-- A symmetric polynomial kernel with its gradient. -/
def squareKernel : MathKernel Rat Rat := fun x y i =>
  let d (j : Nat) : Rat := x.getD j 0 - y.getD j 0
  match i with
  | 0 => d 0 * d 0 + d 1 * d 1 + d 2 * d 2
  | j + 1 => 2 * d j

/-- Two regular nodes; two singular pairs of nodes. -/
def smallRules : Quadrature Rat :=
  { regular := fun _ => [([1/3, 1/3], 1/4), ([1/2, 1/4], 1/4)]
    singular := fun _ _ con =>
      [([1/3, 1/3], [1/4, 1/2], con.connectivityDimension + 1),
        ([1/4, 1/2], [1/3, 1/3], con.connectivityDimension + 1)] }

/-- Options with two regular nodes. -/
def smallOptions : Options := Options.default.setRegularQuadratureDegree .triangle 2

/-- A conversion to compressed row format that does what its contract says. -/
def csrOf (shape : Nat × Nat) (rows cols : List Nat) (data : List T) : Csr T :=
  let row (i : Nat) : List ((Nat × Nat) × T) := ((rows.zip cols).zip data).filter fun x => x.1.1 = i
  { shape
    indices := (List.range shape.1).flatMap fun i => (row i).map fun x => x.1.2
    indptr := (List.range (shape.1 + 1)).map fun i => ((List.range i).map fun k => (row k).length).sum
    data := (List.range shape.1).flatMap fun i => (row i).map fun x => x.2 }

/-- The external functions of the example world; entries above 1e-10 count as big. -/
def exEnv : Env Rat Rat :=
  envOf id smallRules (fun x => decide (1/10000000000 < |x|))
    (fun shape rows cols data => some (csrOf shape rows cols data))

theorem exEnv_regular : RegularOk exEnv smallOptions smallRules .triangle where
  degree := by decide
  rule := rfl
  points := by
    intro p hp
    simp only [smallRules, List.mem_cons, List.not_mem_nil, or_false] at hp
    rcases hp with rfl | rfl <;> rfl

theorem exEnv_singular : SingularOk exEnv smallOptions smallRules .triangle .triangle where
  degree := ⟨4, by decide, fun _ _ => rfl⟩
  points := by
    intro con _ p hp
    simp only [smallRules, List.mem_cons, List.not_mem_nil, or_false] at hp
    rcases hp with rfl | rfl <;> exact ⟨rfl, rfl⟩

end Bempp.Examples
