import Verif.Spec.Green
import Mathlib.Analysis.SpecialFunctions.Sqrt
import Mathlib.Analysis.SpecialFunctions.ExpDeriv
import Mathlib.Analysis.Complex.RealDeriv
import Mathlib.Tactic.IntervalCases
import Mathlib.Data.List.GetD
/-
The derivatives of the Green's functions.
-/
namespace Bempp

section
variable {x y : List ℝ} {j : Nat}

theorem pointDiff_set (hj : j < y.length) (s : ℝ) (i : Nat) :
    pointDiff x (y.set j s) i = if i = j then x.getD i 0 - s else pointDiff x y i := by
  unfold pointDiff
  split
  · next h => subst h; simp [List.getD, hj]
  · next h => simp [List.getD, Ne.symm h]

theorem pointDist_deriv (hj : j < 3) (hy : y.length = 3) (h : pointDist x y ≠ 0) :
    HasDerivAt (fun s => pointDist x (y.set j s)) (-(pointDiff x y j / pointDist x y)) (y.getD j 0) := by
  have hy' : j < y.length := by omega
  have hd : ∀ i, HasDerivAt (fun s => pointDiff x (y.set j s) i) (if i = j then -1 else 0) (y.getD j 0) := by
    intro i
    simp only [pointDiff_set hy']
    split
    · exact (hasDerivAt_id' (y.getD j 0)).const_sub _
    · exact hasDerivAt_const _ _
  have he : ∀ i, pointDiff x (y.set j (y.getD j 0)) i = pointDiff x y i := by
    intro i
    rw [pointDiff_set hy']
    split
    · next e => subst e; rfl
    · rfl
  have hs := (((hd 0).pow 2).add ((hd 1).pow 2)).add ((hd 2).pow 2)
  have hpos : pointDiff x y 0 ^ 2 + pointDiff x y 1 ^ 2 + pointDiff x y 2 ^ 2 ≠ 0 := fun e => h (by
    unfold pointDist; rw [e, Real.sqrt_zero])
  have key := hs.sqrt (by simpa only [Pi.add_apply, Pi.pow_apply, he] using hpos)
  refine (key.congr_deriv ?_)
  simp only [Pi.add_apply, Pi.pow_apply, he]
  change _ / (2 * pointDist x y) = _
  interval_cases j <;> simp <;> field_simp

/-- The components 1 to 3 of `laplaceGreen` are the derivatives of component 0 with respect to the coordinates of the
second point. -/
theorem laplaceGreen_gradient (hj : j < 3) (hy : y.length = 3) (h : pointDist x y ≠ 0) :
    HasDerivAt (fun s => laplaceGreen x (y.set j s) 0) (laplaceGreen x y (j + 1)) (y.getD j 0) := by
  have he : y.set j (y.getD j 0) = y := by
    rw [List.getD_eq_getElem _ _ (by omega)]; simp
  have := (hasDerivAt_const (y.getD j 0) (1 : ℝ)).div ((pointDist_deriv hj hy h).const_mul (4 * Real.pi))
    (by rw [he]; exact mul_ne_zero (mul_ne_zero (by norm_num) Real.pi_ne_zero) h)
  refine this.congr_deriv ?_
  rw [he]
  simp only [laplaceGreen]
  have := Real.pi_ne_zero
  field_simp
  ring

/-- The same for `helmholtzGreen`. -/
theorem helmholtzGreen_gradient (k : ℝ) (hj : j < 3) (hy : y.length = 3) (h : pointDist x y ≠ 0) :
    HasDerivAt (fun s => helmholtzGreen k x (y.set j s) 0) (helmholtzGreen k x y (j + 1)) (y.getD j 0) := by
  have he : y.set j (y.getD j 0) = y := by
    rw [List.getD_eq_getElem _ _ (by omega)]; simp
  have hc : HasDerivAt (fun s => (pointDist x (y.set j s) : ℂ)) (-(pointDiff x y j / pointDist x y : ℝ) : ℝ) (y.getD j 0) :=
    (pointDist_deriv hj hy h).ofReal_comp
  have hpi : (Real.pi : ℂ) ≠ 0 := by exact_mod_cast Real.pi_ne_zero
  have hr : (pointDist x y : ℂ) ≠ 0 := by exact_mod_cast h
  have := ((hc.const_mul (Complex.I * k)).cexp).div (hc.const_mul (4 * (Real.pi : ℂ)))
    (by rw [he]; exact mul_ne_zero (mul_ne_zero (by norm_num) hpi) hr)
  refine this.congr_deriv ?_
  rw [he]
  simp only [helmholtzGreen]
  push_cast
  field_simp
  ring

end
end Bempp
