import Verif.Spec.Shapes
/-
Shapes that contain other shapes, and symmetric shapes.
-/
namespace Bempp

/-- The shape `s` is a part of the shape `s'`, moved by `f`: point number `v` of `s` is point number `p v` of `s'` and lies
at its image under `f`, and cell number `k` is cell number `q k`, with its corners in the same order. -/
structure Shape.MovedInto {T : Type} (s s' : Shape T) (f : T × T × T → T × T × T) (p q : Nat → Nat) : Prop where
  point : ∀ v x, s.at v = some x → s'.at (p v) = some (f x)
  pointInj : ∀ v w, v < s.points.length → w < s.points.length → p v = p w → v = w
  cell : ∀ k c, s.cells[k]? = some c → ∃ n, s'.cells[q k]? = some (n, c.2.map p)
  cellInj : ∀ k l, k < s.cells.length → l < s.cells.length → q k = q l → k = l

/-- The shape `s` is mapped to itself by `f`; corners of cells may come in another order. -/
structure Shape.Invariant {T : Type} (s : Shape T) (f : T × T × T → T × T × T) (p : Nat → Nat) : Prop where
  point : ∀ v x, s.at v = some x → s.at (p v) = some (f x)
  pointInj : ∀ v w, v < s.points.length → w < s.points.length → p v = p w → v = w
  cell : ∀ c ∈ s.cells, ∃ c' ∈ s.cells, c'.2.Perm (c.2.map p)

/-- A quarter turn around the third axis. -/
def quarterTurnZ {T : Type} [Neg T] (x : T × T × T) : T × T × T := (-x.2.1, x.1, x.2.2)

/-- A half turn around the axis through `(1, 1, 0)`. -/
def halfTurnXY {T : Type} [Neg T] (x : T × T × T) : T × T × T := (x.2.1, x.1, -x.2.2)

/-- The eight turns that map a square in the plane of the first two coordinates to itself. -/
inductive SquareTurn {T : Type} [Neg T] : (T × T × T → T × T × T) → Prop
  | identity : SquareTurn id
  | quarter {f : T × T × T → T × T × T} : SquareTurn f → SquareTurn fun x => quarterTurnZ (f x)
  | half {f : T × T × T → T × T × T} : SquareTurn f → SquareTurn fun x => halfTurnXY (f x)

/-- The symmetries of the cube: exchanging coordinates and changing their signs. -/
inductive CubeSymmetry : (Vec → Vec) → Prop
  | identity : CubeSymmetry id
  | swap12 {f : Vec → Vec} : CubeSymmetry f → CubeSymmetry fun x => ((f x).2.1, (f x).1, (f x).2.2)
  | swap23 {f : Vec → Vec} : CubeSymmetry f → CubeSymmetry fun x => ((f x).1, (f x).2.2, (f x).2.1)
  | sign1 {f : Vec → Vec} : CubeSymmetry f → CubeSymmetry fun x => (-(f x).1, (f x).2.1, (f x).2.2)

/-- The map `x ↦ s A x + b`. -/
def AffineMap3 (s : ℝ) (A : Nat → Nat → ℝ) (b : Nat → ℝ) (x : Vec) : Vec :=
  (s * (A 0 0 * x.1 + A 0 1 * x.2.1 + A 0 2 * x.2.2) + b 0, s * (A 1 0 * x.1 + A 1 1 * x.2.1 + A 1 2 * x.2.2) + b 1,
    s * (A 2 0 * x.1 + A 2 1 * x.2.1 + A 2 2 * x.2.2) + b 2)

/-- `s` is the screen of `n` times `n` squares, in exact arithmetic; its cells are of type `t`. -/
def ScreenShape (n : Nat) (t : CellType) (s : Shape ℝ) : Prop :=
  screenTriangles (fun k => (k : ℝ)) n = some s ∧ t = .triangle ∨
    screenQuadrilaterals (fun k => (k : ℝ)) n = some s ∧ t = .quadrilateral

/-- The map from a screen of `m` times `m` squares to the block of a screen of `n` times `n` squares that starts in column
`a` and row `b`. -/
noncomputable def toBlock (m n a b : Nat) : Vec → Vec :=
  AffineMap3 ((m + 1) / (n + 1)) (fun i j => if i = j then 1 else 0) fun i =>
    if i = 0 then a / (n + 1) else if i = 1 then b / (n + 1) else 0

/-- The number of the cell in that block for cell number `k` of the small screen. -/
def blockCell (t : CellType) (m n a b k : Nat) : Nat :=
  match t with
  | .quadrilateral => (k / m + b) * n + (k % m + a)
  | _ => 2 * ((k / 2 / m + b) * n + (k / 2 % m + a)) + k % 2

/-- The column and the row of the square of a screen of `n` times `n` squares to which cell number `k` belongs. -/
def screenSquare (t : CellType) (n k : Nat) : Nat × Nat :=
  match t with
  | .quadrilateral => (k % n, k / n)
  | _ => (k / 2 % n, k / 2 / n)

/-- Laws of arithmetic about signs and the order of two terms, which hold also in floating point arithmetic. -/
structure SignLaws {T : Type} [Zero T] [Neg T] [Add T] [Mul T] [Div T] : Prop where
  neg_zero : -(0 : T) = 0
  neg_neg : ∀ a : T, - -a = a
  add_comm : ∀ a b : T, a + b = b + a
  neg_add : ∀ a b : T, -a + -b = -(a + b)
  mul_neg : ∀ a b : T, a * -b = -(a * b)
  neg_mul_neg : ∀ a b : T, -a * -b = a * b
  neg_div : ∀ a b : T, -a / b = -(a / b)
  squares : ∀ a b : T, 0 + a * a + b * b = 0 + b * b + a * a

end Bempp
