import Verif.Spec.Rounding
import Verif.Spec.Shapes
/-
The shapes in floating point arithmetic.
-/
namespace Bempp

instance {𝕜 : Type} [NormedField 𝕜] {u : ℝ} {A : Arith 𝕜 u} : One (Fl A) := ⟨(1 : 𝕜)⟩

/-- A square root with a relative error of at most `u`. -/
structure RoundedSqrt {u : ℝ} (A : Arith ℝ u) (sqrt : Fl A → Fl A) : Prop where
  err : ∀ x : Fl A, 0 ≤ x.val → |(sqrt x).val - Real.sqrt x.val| ≤ u * Real.sqrt x.val

/-- A conversion of natural numbers with a relative error of at most `u`. -/
structure RoundedNat {u : ℝ} (A : Arith ℝ u) (fromNat : Nat → Fl A) : Prop where
  err : ∀ k : Nat, |(fromNat k).val - k| ≤ u * k

/-- One half, which is a floating point number. -/
noncomputable def halfFl {u : ℝ} {A : Arith ℝ u} : Fl A := (1 / 2 : ℝ)

/-- The shape with its coordinates as real numbers. -/
noncomputable def Shape.values {u : ℝ} {A : Arith ℝ u} (s : Shape (Fl A)) : Shape ℝ :=
  { points := s.points.map fun p => (p.1, (p.2.1.val, p.2.2.1.val, p.2.2.2.val))
    cells := s.cells }

end Bempp
