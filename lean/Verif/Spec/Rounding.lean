import Mathlib.Analysis.Normed.Field.Basic
import Mathlib.Analysis.Normed.Module.Basic
import Mathlib.Analysis.Real.Sqrt
import Verif.Spec.Dense
import Verif.Spec.Operators
/-
Floating point arithmetic in the standard model of error analysis: every operation returns its exact result up to a
relative error of at most `u`. The number type of the program is then `Fl A`; its operations need be neither
associative nor commutative nor distributive.
-/
namespace Bempp

/-- Operations on `𝕜` (the real or the complex numbers) with a relative error of at most `u` each. -/
structure Arith (𝕜 : Type) [NormedField 𝕜] (u : ℝ) where
  add : 𝕜 → 𝕜 → 𝕜
  sub : 𝕜 → 𝕜 → 𝕜
  mul : 𝕜 → 𝕜 → 𝕜
  div : 𝕜 → 𝕜 → 𝕜
  add_err : ∀ x y, ‖add x y - (x + y)‖ ≤ u * ‖x + y‖
  sub_err : ∀ x y, ‖sub x y - (x - y)‖ ≤ u * ‖x - y‖
  mul_err : ∀ x y, ‖mul x y - x * y‖ ≤ u * ‖x * y‖
  div_err : ∀ x y, y ≠ 0 → ‖div x y - x / y‖ ≤ u * ‖x / y‖

/-- The numbers with the operations of `A`; the change of sign is exact. -/
def Fl {𝕜 : Type} [NormedField 𝕜] {u : ℝ} (_ : Arith 𝕜 u) : Type := 𝕜

section
variable {𝕜 : Type} [NormedField 𝕜] {u : ℝ} {A : Arith 𝕜 u}

/-- The number itself. -/
def Fl.val (x : Fl A) : 𝕜 := x

instance : Zero (Fl A) := ⟨(0 : 𝕜)⟩
instance : Add (Fl A) := ⟨A.add⟩
instance : Sub (Fl A) := ⟨A.sub⟩
instance : Mul (Fl A) := ⟨A.mul⟩
instance : Div (Fl A) := ⟨A.div⟩
instance : Neg (Fl A) := ⟨fun x => (-(show 𝕜 from x) : 𝕜)⟩

/-- The conversion from real numbers, which is exact. -/
noncomputable def castFl [NormedAlgebra ℝ 𝕜] {A : Arith ℝ u} {B : Arith 𝕜 u} (x : Fl A) : Fl B := algebraMap ℝ 𝕜 x.val

end

/-! ### The absolute values of the data and of the formulas -/

/-- The geometry with the absolute values of normals, Jacobians and integration elements. -/
def Geometry.abs (G : Geometry ℝ) : Geometry ℝ :=
  { G with
    normal := fun c x i => |G.normal c x i|
    jacobian := fun c x i => |G.jacobian c x i|
    jdet := fun c x => |G.jdet c x| }

/-- The rules with the absolute values of the weights. -/
def Quadrature.abs (Q : Quadrature ℝ) : Quadrature ℝ :=
  { regular := fun t => (Q.regular t).map fun p => (p.1, |p.2|)
    singular := fun t t' con => (Q.singular t t' con).map fun p => (p.1, p.2.1, |p.2.2|) }

/-- `x` is a node of one of the rules for cells of type `t`, on one of the two cells. -/
def Quadrature.Node (Q : Quadrature ℝ) (t : CellType) (x : List ℝ) : Prop :=
  (∃ p ∈ Q.regular t, x = p.1) ∨
    ∃ con : Connectivity, con.Possible t t ∧ ∃ p ∈ Q.singular t t con, x = p.1 ∨ x = p.2.1

/-- `adlF` without its minus sign. -/
def adlAbsF : MathIntegrand ℝ := fun K U V TG _ =>
  (K 1 * TG.normal 0 + K 2 * TG.normal 1 + K 3 * TG.normal 2) * U 0 * V 0

/-- `surfaceCurl` with a plus sign. -/
def surfaceCurlAbs (G : PointData ℝ) (U : Nat → ℝ) (i : Nat) : ℝ :=
  G.jacobian (3 + i) * U 1 + G.jacobian i * U 2

/-- `curlCurlF` with plus signs only. -/
noncomputable def curlCurlAbsF : MathIntegrand ℝ := fun K U V TG RG =>
  K 0 * (surfaceCurlAbs TG U 0 * surfaceCurlAbs RG V 0 + surfaceCurlAbs TG U 1 * surfaceCurlAbs RG V 1
    + surfaceCurlAbs TG U 2 * surfaceCurlAbs RG V 2) / TG.jdet / RG.jdet

/-- `helmholtzHypF` with plus signs only. -/
noncomputable def helmholtzHypAbsF (w : ℝ) : MathIntegrand ℝ := fun K U V TG RG =>
  curlCurlAbsF K U V TG RG + w * w * normalNormalF K U V TG RG

/-- `Rounded A B F F' m n`: `F` is one of the formulas of the operators with the operations of `A` (for the
wavenumber) and `B`, `F'` is the same formula with exact operations, `m` is the formula with plus signs only, and `n`
is the number of roundings on the longest path through the formula. -/
inductive Rounded {𝕜 : Type} [NormedField 𝕜] [NormedAlgebra ℝ 𝕜] {u : ℝ} (A : Arith ℝ u) (B : Arith 𝕜 u) :
    MathIntegrand (Fl B) → MathIntegrand 𝕜 → MathIntegrand ℝ → Nat → Prop
  | singleLayer : Rounded A B slF slF slF 2
  | doubleLayer : Rounded A B dlF dlF dlF 5
  | adjointDoubleLayer : Rounded A B adlF adlF adlAbsF 5
  | hypersingular : Rounded A B curlCurlF curlCurlF curlCurlAbsF 10
  | helmholtzHypersingular (w : ℝ) : Rounded A B
      (helmholtzHypF (R := Fl A) castFl w)
      (helmholtzHypF (algebraMap ℝ 𝕜) w) (helmholtzHypAbsF w) 11

/-! ### What is computed, in exact arithmetic -/

section
variable {𝕜 : Type} [NormedField 𝕜] [NormedAlgebra ℝ 𝕜] (K : MathKernel ℝ 𝕜) (GT GR : Geometry ℝ) (BT BR : Basis ℝ 𝕜)
  (Q : Quadrature ℝ) (test trial : FunctionSpace) (i j : Nat)

/-- Entry `(i, j)` in exact arithmetic, for the given values of the kernel, the basis functions, the geometry and the
quadrature rules. -/
noncomputable def exactEntry (F : MathIntegrand 𝕜) : 𝕜 :=
  doubleSum test trial (cellPairValue (algebraMap ℝ 𝕜) F K GT GR BT BR Q test trial) i j

/-- The same sum with the absolute values of all terms. -/
noncomputable def absEntry (W : MathIntegrand ℝ) : ℝ :=
  doubleSum test trial (cellPairValue id W (fun x y i => ‖K x y i‖) GT.abs GR.abs (fun t a d x => ‖BT t a d x‖)
    (fun t a d x => ‖BR t a d x‖) Q.abs test trial) i j

/-- The number of quadrature values that are added to entry `(i, j)`: pairs of a cell with DOF `i` and a cell with
DOF `j`. -/
def entryTerms : Nat := doubleSum test trial (fun _ _ _ _ => 1) i j

end

end Bempp
