import Verif.Spec.Rounding
import Verif.Spec.Inexact
import Mathlib.Data.NNReal.Defs
import Mathlib.Data.Complex.Basic
import Mathlib.Analysis.Normed.Group.Basic
/-
Floating point arithmetic with a bounded range of exponents, as in IEEE 754: results that are too small lose accuracy,
and results that are too large are lost.
-/
namespace Bempp
open NNReal

/-- Operations on `𝕜` (the real or the complex numbers). If the exact result is at most `Ω`, then a sum or a difference has a
relative error of at most `u` (also if it is small, because then it is exact), and a product or a quotient has an error
of at most `u` relative to the exact result plus `m`, where `m` is the smallest number with full accuracy. If the exact
result is larger than `Ω`, then nothing is known about what is returned. `divides` are the numbers one can divide by. -/
structure Ranged (𝕜 : Type) [NormedField 𝕜] (u : ℝ) (m : ℝ≥0) (Ω : ℝ) where
  add : 𝕜 → 𝕜 → 𝕜
  sub : 𝕜 → 𝕜 → 𝕜
  mul : 𝕜 → 𝕜 → 𝕜
  div : 𝕜 → 𝕜 → 𝕜
  divides : 𝕜 → Prop
  divides_ne : ∀ y, divides y → y ≠ 0
  add_err : ∀ x y, ‖x + y‖ ≤ Ω → ‖add x y - (x + y)‖ ≤ u * ‖x + y‖
  sub_err : ∀ x y, ‖x - y‖ ≤ Ω → ‖sub x y - (x - y)‖ ≤ u * ‖x - y‖
  mul_err : ∀ x y, ‖x * y‖ ≤ Ω → ‖mul x y - x * y‖ ≤ u * (‖x * y‖ + m)
  div_err : ∀ x y, divides y → ‖x / y‖ ≤ Ω → ‖div x y - x / y‖ ≤ u * (‖x / y‖ + m)

/-- The numbers with the operations of `B`; the change of sign is exact. -/
def Rg {𝕜 : Type} [NormedField 𝕜] {u : ℝ} {m : ℝ≥0} {Ω : ℝ} (_ : Ranged 𝕜 u m Ω) : Type := 𝕜

section
variable {𝕜 : Type} [NormedField 𝕜] {u : ℝ} {m : ℝ≥0} {Ω : ℝ} {B : Ranged 𝕜 u m Ω}

/-- The number itself. -/
def Rg.val (x : Rg B) : 𝕜 := x

instance : Zero (Rg B) := ⟨(0 : 𝕜)⟩
instance : Add (Rg B) := ⟨B.add⟩
instance : Sub (Rg B) := ⟨B.sub⟩
instance : Mul (Rg B) := ⟨B.mul⟩
instance : Div (Rg B) := ⟨B.div⟩
instance : Neg (Rg B) := ⟨fun x => (-(show 𝕜 from x) : 𝕜)⟩

/-- The conversion from real numbers, which is exact. -/
noncomputable def castRg [NormedAlgebra ℝ 𝕜] {A : Ranged ℝ u m Ω} {B : Ranged 𝕜 u m Ω} (x : Rg A) : Rg B :=
  algebraMap ℝ 𝕜 x.val

end

/-! ### The size of intermediate results -/

/-- How large a number can be, with all signs ignored and with `m` added to every product and every quotient, and how
large the numbers can be from which it is computed. -/
@[ext] structure Scale (m : ℝ≥0) where
  size : ℝ≥0
  peak : ℝ≥0

namespace Scale
variable {m : ℝ≥0}

/-- The larger one of the two. -/
def top (x : Scale m) : ℝ≥0 := max x.size x.peak

/-- A number that is given. -/
def of {𝕜 : Type} [NormedField 𝕜] (x : 𝕜) : Scale m := ⟨‖x‖₊, 0⟩

instance : Zero (Scale m) := ⟨⟨0, 0⟩⟩
noncomputable instance : Add (Scale m) := ⟨fun x y => ⟨x.size + y.size, max x.peak y.peak⟩⟩

noncomputable instance : AddCommMonoid (Scale m) where
  add_assoc x y z := Scale.ext (add_assoc x.size y.size z.size) (max_assoc x.peak y.peak z.peak)
  zero_add x := Scale.ext (zero_add x.size) (max_eq_right zero_le)
  add_zero x := Scale.ext (add_zero x.size) (max_eq_left zero_le)
  add_comm x y := Scale.ext (add_comm x.size y.size) (max_comm x.peak y.peak)
  nsmul := nsmulRec

/-- Signs are ignored: a difference can be as large as a sum. -/
noncomputable instance : Sub (Scale m) := ⟨fun x y => x + y⟩
instance : Neg (Scale m) := ⟨fun x => x⟩
noncomputable instance : Mul (Scale m) := ⟨fun x y => ⟨x.size * y.size + m, max x.top y.top⟩⟩
noncomputable instance : Div (Scale m) := ⟨fun x y => ⟨x.size / y.size + m, max x.top y.top⟩⟩

end Scale

/-- `InRange A B F F' W n`: `F` is one of the formulas of the operators with the operations of `A` (for the wavenumber)
and `B`, `F'` is the same formula with exact operations, `W` the same formula for the sizes, and `n` is the number of
roundings on the longest path through the formula. -/
inductive InRange {𝕜 : Type} [NormedField 𝕜] [NormedAlgebra ℝ 𝕜] {u : ℝ} {m : ℝ≥0} {Ω : ℝ} (A : Ranged ℝ u m Ω)
    (B : Ranged 𝕜 u m Ω) : MathIntegrand (Rg B) → MathIntegrand 𝕜 → MathIntegrand (Scale m) → Nat → Prop
  | singleLayer : InRange A B slF slF slF 2
  | doubleLayer : InRange A B dlF dlF dlF 5
  | adjointDoubleLayer : InRange A B adlF adlF adlF 5
  | hypersingular : InRange A B curlCurlF curlCurlF curlCurlF 10
  | helmholtzHypersingular (w : ℝ) : InRange A B
      (helmholtzHypF (R := Rg A) castRg w) (helmholtzHypF (algebraMap ℝ 𝕜) w) (helmholtzHypF (R := Scale m) id (.of w)) 11

section
variable {𝕜 : Type} [NormedField 𝕜] (m : ℝ≥0) (K : MathKernel ℝ 𝕜) (GT GR : Geometry ℝ) (BT BR : Basis ℝ 𝕜)
  (Q : Quadrature ℝ) (test trial : FunctionSpace) (W : MathIntegrand (Scale m))

/-- The size of the integrand at a pair of points. -/
noncomputable def integrandScale (t t' : CellType) (c c' a b : Nat) (x y : List ℝ) : Scale m :=
  W (fun i => .of (K (GT.coords c x) (GR.coords c' y) i)) (fun i => .of (BT t a i x)) (fun i => .of (BR t' b i y))
    (GT.data .of c x) (GR.data .of c' y)

/-- The size of the quadrature value of a pair of cells. -/
noncomputable def pairScale (c c' : Entity) (a b : Nat) : Scale m :=
  if test.grid.addr = trial.grid.addr ∧ c.Touches c' then
    ((Q.singular c.entityType c'.entityType (connectivity c c')).map fun p =>
      integrandScale m K GT GR BT BR W c.entityType c'.entityType c.localIndex c'.localIndex a b p.1 p.2.1 *
        (.of p.2.2 * (.of (GT.jdet c.localIndex p.1) * .of (GR.jdet c'.localIndex p.2.1)))).sum
  else ((Q.regular c.entityType).map fun p => ((Q.regular c'.entityType).map fun q =>
      integrandScale m K GT GR BT BR W c.entityType c'.entityType c.localIndex c'.localIndex a b p.1 q.1 *
        (.of q.2 * .of (GR.jdet c'.localIndex q.1)) * (.of p.2 * .of (GT.jdet c.localIndex p.1))).sum).sum

/-- The size of an entry of the matrix and of the numbers from which it is computed. -/
noncomputable def entryScale (i j : Nat) : Scale m :=
  doubleSum test trial (pairScale m K GT GR BT BR Q test trial W) i j

/-- All values from which an operator is assembled are at most `C`, and the integration elements are at least `1 / C`. -/
structure Moderate (C : ℝ≥0) (t : CellType) (dimT dimR : Nat) : Prop where
  one_le : 1 ≤ C
  testGeometry : ∀ c ∈ test.grid.entityIter 2, ∀ x, Q.Node t x →
    (∀ i < 3, |GT.normal c.localIndex x i| ≤ C) ∧ (∀ i < 6, |GT.jacobian c.localIndex x i| ≤ C) ∧
      |GT.jdet c.localIndex x| ≤ C ∧ 1 / C ≤ |GT.jdet c.localIndex x|
  trialGeometry : ∀ c ∈ trial.grid.entityIter 2, ∀ x, Q.Node t x →
    (∀ i < 3, |GR.normal c.localIndex x i| ≤ C) ∧ (∀ i < 6, |GR.jacobian c.localIndex x i| ≤ C) ∧
      |GR.jdet c.localIndex x| ≤ C ∧ 1 / C ≤ |GR.jdet c.localIndex x|
  testBasis : ∀ x, Q.Node t x → ∀ a i, a < dimT → i < 3 → ‖BT t a i x‖ ≤ C
  trialBasis : ∀ x, Q.Node t x → ∀ a i, a < dimR → i < 3 → ‖BR t a i x‖ ≤ C
  kernel : ∀ c ∈ test.grid.entityIter 2, ∀ c' ∈ trial.grid.entityIter 2, ∀ x y, Q.Pair test trial c c' x y →
    ∀ i < 4, ‖K (GT.coords c.localIndex x) (GR.coords c'.localIndex y) i‖ ≤ C
  regular : ∀ p ∈ Q.regular t, |p.2| ≤ C
  singular : ∀ con, con.Possible t t → ∀ p ∈ Q.singular t t con, |p.2.2| ≤ C

end

/-- `W` gives the sizes for one of the operators, and the wavenumber is at most `C`. -/
inductive ModerateFormula {m : ℝ≥0} (C : ℝ≥0) : MathIntegrand (Scale m) → Prop
  | singleLayer : ModerateFormula C slF
  | doubleLayer : ModerateFormula C dlF
  | adjointDoubleLayer : ModerateFormula C adlF
  | hypersingular : ModerateFormula C curlCurlF
  | helmholtzHypersingular (w : ℝ) : |w| ≤ C → ModerateFormula C (helmholtzHypF (R := Scale m) id (.of w))

/-! ### Complex numbers -/

section
variable {u : ℝ} {m : ℝ≥0} {Ω : ℝ} (A : Ranged ℝ u m Ω) (x y : ℂ)

/-- The operations of `num::complex::Complex`, made of operations on the real and the imaginary parts. -/
def complexAdd : ℂ := ⟨A.add x.re y.re, A.add x.im y.im⟩
def complexSub : ℂ := ⟨A.sub x.re y.re, A.sub x.im y.im⟩
def complexMul : ℂ :=
  ⟨A.sub (A.mul x.re y.re) (A.mul x.im y.im), A.add (A.mul x.re y.im) (A.mul x.im y.re)⟩
def complexDiv : ℂ :=
  let normSqr := A.add (A.mul y.re y.re) (A.mul y.im y.im)
  let re := A.add (A.mul x.re y.re) (A.mul x.im y.im)
  let im := A.sub (A.mul x.im y.re) (A.mul x.re y.im)
  ⟨A.div re normSqr, A.div im normSqr⟩

end
end Bempp
