import Verif.Proofs.Rounding
import Verif.Proofs.Adjacent
import Verif.Proofs.Operators
import Verif.Props.Dense
import Verif.Props.Conjugate
import Mathlib.Data.Int.Log
/-
Property C63: rounding errors of dense assembly.
-/
set_option linter.unusedSectionVars false

namespace Bempp

section
variable {𝕜 : Type} [NormedField 𝕜] [NormedAlgebra ℝ 𝕜] {u : ℝ} {A : Arith ℝ u} {B : Arith 𝕜 u}
  {env : Env (Fl A) (Fl B)} {asm : Assembler (Fl A) (Fl B)} {trial test : Space (Fl A) (Fl B)} {o : Options}
  {famT famR : CellType → ElementDofs} {F : MathIntegrand (Fl B)} {F' : MathIntegrand 𝕜} {W : MathIntegrand ℝ}
  {n N : Nat} {K : MathKernel ℝ 𝕜} {GT GR : Geometry ℝ} {BT BR : Basis ℝ 𝕜} {Q : Quadrature ℝ} {t : CellType}

theorem cellPairValue_apx (hu : 0 ≤ u)
    (h : SpacePair (R := Fl A) (T := Fl B) env o trial test famT famR GT GR BT BR Q t) (hF : Rounded A B F F' W n)
    (hGT : ∀ c ∈ test.fs.grid.entityIter 2, ∀ x, Q.Node t x → GT.jdet c.localIndex x ≠ 0)
    (hGR : ∀ c ∈ trial.fs.grid.entityIter 2, ∀ x, Q.Node t x → GR.jdet c.localIndex x ≠ 0)
    (hN : (Q.regular t).length * (Q.regular t).length ≤ N)
    (hN' : ∀ con, con.Possible t t → (Q.singular t t con).length ≤ N)
    {c c' : Entity} (hc : c ∈ test.fs.grid.entityIter 2) (hc' : c' ∈ trial.fs.grid.entityIter 2) (a b : Nat) :
    Apx B (n + 4 + N)
      (cellPairValue (R := Fl A) (T := Fl B) castFl F K GT GR BT BR Q test.fs trial.fs c c' a b)
      (cellPairValue (algebraMap ℝ 𝕜) F' K GT GR BT BR Q test.fs trial.fs c c' a b)
      (cellPairValue id W (fun x y i => ‖K x y i‖) GT.abs GR.abs (fun t a d x => ‖BT t a d x‖)
        (fun t a d x => ‖BR t a d x‖) Q.abs test.fs trial.fs c c' a b) := by
  have ht : c.entityType = t := by
    have := h.testSpace.wf.types c hc
    rw [h.testType] at this
    simpa using this
  have ht' : c'.entityType = t := by
    have := h.trialSpace.wf.types c' hc'
    rw [h.trialType] at this
    simpa using this
  unfold cellPairValue
  by_cases hs : test.fs.grid.addr = trial.fs.grid.addr ∧ c.Touches c'
  · rw [if_pos hs, if_pos hs, if_pos hs]
    obtain ⟨e, _, _, ⟨ev, ed, co⟩, _⟩ := h.same hs.1
    have hc'' := hc'
    rw [e] at hc''
    obtain ⟨h1, h2⟩ := sharedVertices_possible h.testSpace.wf ed co hc hc'' hs.2
    obtain ⟨_, h3⟩ := possiblePairs_possible (h.testSpace.wf.cell_types _ (h.testSpace.wf.types c hc)) h1
    rw [h2, ht, ht'] at h3
    rw [ht, ht']
    refine (singularValue_apx hu hF _ _ _ (fun p hp => hGT c hc _ (.inr ⟨_, h3, p, hp, .inl rfl⟩))
      (fun p hp => hGR c' hc' _ (.inr ⟨_, h3, p, hp, .inr rfl⟩)) a b).mono hu ?_
    have := hN' _ h3
    omega
  · rw [if_neg hs, if_neg hs, if_neg hs, ht, ht']
    refine (regularValue_apx hu hF _ _ (fun p hp => hGT c hc _ (.inl ⟨p, hp, rfl⟩))
      (fun p hp => hGR c' hc' _ (.inl ⟨p, hp, rfl⟩)) a b).mono hu ?_
    omega

/-- C63: let every addition, subtraction, multiplication and division return its exact result up to a relative error
of at most `u`. Then every operator can be assembled, the result is one matrix for all schedules, and entry `(i, j)`
differs from the value in exact arithmetic by at most `((1 + u)^k - 1) * S`: `S` is the sum of the absolute values of
all terms, and `k` is the number of roundings in the integrand (2 for the single layer operators, 5 for the double
layer operators and their adjoints, 10 and 11 for the hypersingular operators), plus 4 for the weights, plus the
number of quadrature terms of a pair of cells, plus the number of quadrature values that are added to the entry. -/
theorem C63_rounding (hu : 0 ≤ u)
    (h : SpacePair (R := Fl A) (T := Fl B) env o trial test famT famR GT GR BT BR Q t)
    (hcast : env.cast = castFl) (ho : OperatorWith env.cast o K asm F)
    (hF : Rounded A B F F' W n) (hb : 0 < o.batchSize)
    (hGT : ∀ c ∈ test.fs.grid.entityIter 2, ∀ x, Q.Node t x → GT.jdet c.localIndex x ≠ 0)
    (hGR : ∀ c ∈ trial.fs.grid.entityIter 2, ∀ x, Q.Node t x → GR.jdet c.localIndex x ≠ 0)
    (hN : (Q.regular t).length * (Q.regular t).length ≤ N)
    (hN' : ∀ con, con.Possible t t → (Q.singular t t con).length ≤ N) :
    ∃ M : List (Fl B), (∀ out, Assemble env asm trial test out ↔ out = some M) ∧
      M.length = test.fs.globalSize * trial.fs.globalSize ∧
      ∀ i j, i < test.fs.globalSize → j < trial.fs.globalSize →
        ∃ x, M[i + test.fs.globalSize * j]? = some x ∧
          ‖x.val - exactEntry K GT GR BT BR Q test.fs trial.fs i j F'‖ ≤
            ((1 + u) ^ (n + 4 + N + entryTerms test.fs trial.fs i j) - 1) *
              absEntry K GT GR BT BR Q test.fs trial.fs i j W := by
  obtain ⟨hc, ho⟩ := ho.computes
  have hd := h.dense ho hc
  obtain ⟨tcs, rcs, p1, p2, _, _, h1⟩ := hd.assemble (by rw [ho]; exact hb)
  refine ⟨applyOps (regularOps env.cast F K GT GR BT BR Q t (famT t).dim (famR t).dim trial.fs test.fs
        tcs rcs ++ singularOps env.cast F K GT BT BR Q famT famR trial.fs test.fs)
      (List.replicate (test.fs.globalSize * trial.fs.globalSize) 0), ?_, ?_, ?_⟩
  · intro out
    unfold Assemble
    rw [if_neg (by simp [h.testSpace.serial.1, h.trialSpace.serial.1])]
    simp only [h1 _ (List.length_replicate ..)]
    simp
  · rw [applyOps_length, List.length_replicate]
  · intro i j hi hj
    have z : Apx B 0 (0 : Fl B) (0 : 𝕜) 0 := by
      have := Apx.exact (B := B) (0 : 𝕜)
      rwa [norm_zero] at this
    refine ⟨_, by rw [applyOps_fold, List.getElem?_replicate, if_pos (addr_lt hi hj)]; rfl, ?_⟩
    have key := Apx.ops hu (regularOps env.cast F K GT GR BT BR Q t (famT t).dim (famR t).dim trial.fs test.fs
        tcs rcs ++ singularOps env.cast F K GT BT BR Q famT famR trial.fs test.fs) (i + test.fs.globalSize * j) z
    rw [hd.contribTo_eq _ p1 p2 hi, hd.contribTo_eq _ p1 p2 hi, hd.contribTo_eq _ p1 p2 hi] at key
    simp only [zero_add] at key
    obtain ⟨k1, _⟩ := key
    have hv := fun c hc c' hc' a b => cellPairValue_apx (K := K) hu h hF hGT hGR hN hN' (c := c) (c' := c') hc hc' a b
    rw [← hcast] at hv
    have hS : 0 ≤ absEntry K GT GR BT BR Q test.fs trial.fs i j W := by
      have := doubleSum_bound test.fs trial.fs (fun _ _ _ _ => (0 : ℝ)) (fun _ _ _ _ => 0) _
        (fun c hc c' hc' a b => by simpa using (hv c hc c' hc' a b).nonneg) i j
      exact (norm_nonneg _).trans this
    have e1 := doubleSum_bound test.fs trial.fs _ _ _ (fun c hc c' hc' a b => (hv c hc c' hc' a b).1) i j
    rw [doubleSum_const_mul] at e1
    have e2 := doubleSum_bound test.fs trial.fs
      (fun c c' a b => ‖(cellPairValue env.cast F K GT GR BT BR Q test.fs trial.fs c c' a b).val‖)
      (fun _ _ _ _ => (0 : ℝ)) (fun c c' a b => (1 + u) ^ (n + 4 + N) *
        cellPairValue id W (fun x y i => ‖K x y i‖) GT.abs GR.abs (fun t a d x => ‖BT t a d x‖)
          (fun t a d x => ‖BR t a d x‖) Q.abs test.fs trial.fs c c' a b) (fun c hc c' hc' a b => by
        rw [sub_zero, norm_norm]; exact (hv c hc c' hc' a b).size) i j
    rw [doubleSum_const_mul] at e2
    have e0 : doubleSum test.fs trial.fs (fun _ _ _ _ => (0 : ℝ)) i j = 0 := by simp [doubleSum]
    rw [e0, sub_zero] at e2
    have e3 := (le_abs_self _).trans e2
    have p := one_le_pow_u hu (entryTerms test.fs trial.fs i j)
    have e4 := mul_le_mul_of_nonneg_left e3 (sub_nonneg.mpr p)
    have e5 : ((1 + u) ^ (n + 4 + N + entryTerms test.fs trial.fs i j) - 1) *
          absEntry K GT GR BT BR Q test.fs trial.fs i j W =
        ((1 + u) ^ entryTerms test.fs trial.fs i j - 1) *
          ((1 + u) ^ (n + 4 + N) * absEntry K GT GR BT BR Q test.fs trial.fs i j W) +
        ((1 + u) ^ (n + 4 + N) - 1) * absEntry K GT GR BT BR Q test.fs trial.fs i j W := by
      rw [pow_add]; ring
    rw [e5]
    have tri : ∀ x y z : 𝕜, ‖x - z‖ ≤ ‖x - y‖ + ‖y - z‖ := fun x y z => by
      simpa using norm_add_le (x - y) (y - z)
    exact (tri _ _ _).trans (add_le_add (k1.trans e4) e1)

/-- C63 in the usual form: if `k * u < 1` then the bound is at most `k * u / (1 - k * u)` times the sum of the
absolute values. -/
theorem C63_gamma (hu : 0 ≤ u) (k : Nat) (hk : k * u < 1) : (1 + u) ^ k - 1 ≤ k * u / (1 - k * u) := by
  have key : ∀ k : Nat, (1 + u) ^ k * (1 - k * u) ≤ 1 := by
    intro k
    induction k with
    | zero => simp
    | succ k ih =>
      refine le_trans ?_ ih
      have p : 0 ≤ (1 + u) ^ k := by positivity
      have e : (1 + u) ^ (k + 1) * (1 - (k + 1 : Nat) * u) = (1 + u) ^ k * (1 - k * u - (k + 1) * u ^ 2) := by
        rw [pow_succ]; push_cast; ring
      rw [e]
      refine mul_le_mul_of_nonneg_left ?_ p
      have : 0 ≤ ((k : ℝ) + 1) * u ^ 2 := by positivity
      linarith
  have h0 : 0 < 1 - k * u := by linarith
  rw [le_div_iff₀ h0]
  have := key k
  linarith

end

/-! ### C63: the hypotheses can be met, with 53 binary digits -/

namespace Examples

/-- Rounding to the nearest number with 53 binary digits; the exponent is unbounded. -/
noncomputable def round53 (x : ℝ) : ℝ := round (x / 2 ^ (Int.log 2 |x| - 52)) * 2 ^ (Int.log 2 |x| - 52)

theorem round53_err (x : ℝ) : |round53 x - x| ≤ 2⁻¹ ^ 53 * |x| := by
  by_cases h : x = 0
  · subst h; simp [round53]
  · have hx : 0 < |x| := abs_pos.mpr h
    have p : (0 : ℝ) < 2 ^ (Int.log 2 |x| - 52) := by positivity
    have e : round53 x - x = -((x / 2 ^ (Int.log 2 |x| - 52) - round (x / 2 ^ (Int.log 2 |x| - 52))) *
        2 ^ (Int.log 2 |x| - 52)) := by
      unfold round53
      rw [sub_mul, div_mul_cancel₀ _ p.ne']
      ring
    rw [e, abs_neg, abs_mul, abs_of_pos p]
    have h1 := abs_sub_round (x / 2 ^ (Int.log 2 |x| - 52))
    have h2 : ((2 : ℕ) : ℝ) ^ Int.log 2 |x| ≤ |x| := Int.zpow_log_le_self (by norm_num) hx
    have h3 : (2 : ℝ) ^ (Int.log 2 |x| - 52) = 2 ^ Int.log 2 |x| * 2⁻¹ ^ 52 := by
      rw [zpow_sub₀ (by norm_num), div_eq_mul_inv, inv_pow]
      norm_cast
    calc _ ≤ 1 / 2 * 2 ^ (Int.log 2 |x| - 52) := mul_le_mul_of_nonneg_right h1 p.le
      _ = 2⁻¹ ^ 53 * 2 ^ Int.log 2 |x| := by rw [h3]; ring
      _ ≤ 2⁻¹ ^ 53 * |x| := mul_le_mul_of_nonneg_left (by exact_mod_cast h2) (by positivity)

/-- Arithmetic whose results are the exact results, rounded. -/
def Arith.ofRound {𝕜 : Type} [NormedField 𝕜] {u : ℝ} (f : 𝕜 → 𝕜) (h : ∀ x, ‖f x - x‖ ≤ u * ‖x‖) : Arith 𝕜 u :=
  { add := fun x y => f (x + y)
    sub := fun x y => f (x - y)
    mul := fun x y => f (x * y)
    div := fun x y => f (x / y)
    add_err := fun _ _ => h _
    sub_err := fun _ _ => h _
    mul_err := fun _ _ => h _
    div_err := fun _ _ _ => h _ }

noncomputable def real53 : Arith ℝ (2⁻¹ ^ 53) := Arith.ofRound round53 round53_err

/-- The sum of 1 and `2⁻¹ ^ 54` is 1 in this arithmetic: it is not the exact one. -/
theorem real53_absorbs : real53.add 1 (2⁻¹ ^ 54) = 1 := by
  show round53 (1 + 2⁻¹ ^ 54) = 1
  unfold round53
  have h : Int.log 2 |(1 : ℝ) + 2⁻¹ ^ 54| = 0 := by
    rw [abs_of_pos (by positivity), Int.log_of_one_le_right _ (by norm_num)]
    have : ⌊(1 : ℝ) + 2⁻¹ ^ 54⌋₊ = 1 := by
      rw [Nat.floor_eq_iff (by positivity)]
      norm_num
    rw [this]
    rfl
  rw [h]
  have : round (((1 : ℝ) + 2⁻¹ ^ 54) / 2 ^ ((0 : ℤ) - 52)) = 2 ^ 52 := by
    rw [round_eq, Int.floor_eq_iff]
    norm_num
  rw [this]
  norm_num

/-- Complex numbers whose parts are rounded. -/
noncomputable def complex53 : Arith ℂ (2⁻¹ ^ 53) := Arith.ofRound (fun z => ⟨round53 z.re, round53 z.im⟩) (by
  intro z
  rw [← sq_le_sq₀ (norm_nonneg _) (by positivity), mul_pow, Complex.sq_norm, Complex.sq_norm, Complex.normSq_apply,
    Complex.normSq_apply, Complex.sub_re, Complex.sub_im]
  have e : ∀ x : ℝ, (round53 x - x) * (round53 x - x) ≤ (2⁻¹ ^ 53) ^ 2 * (x * x) := by
    intro x
    have := mul_self_le_mul_self (abs_nonneg _) (round53_err x)
    rw [abs_mul_abs_self] at this
    refine this.trans (le_of_eq ?_)
    rw [← abs_mul_abs_self x]
    ring
  have := e z.re
  have := e z.im
  simp only at *
  linarith)

/-- The spaces and external functions of the examples in real and complex arithmetic. -/
noncomputable def env53 : Env (Fl real53) (Fl real53) := realEnv
noncomputable def space53 : Space (Fl real53) (Fl real53) := Examples.spaceOf octFs p1 realOct realP1
noncomputable def complexEnv53 : Env (Fl real53) (Fl complex53) := complexEnv
noncomputable def complexSpace53 : Space (Fl real53) (Fl complex53) := Examples.spaceOf octFs p1 realOct complexP1

/-- The Laplace hypersingular operator on the octahedron: 10 roundings in the integrand, 4 for the weights and 4
quadrature terms. -/
example : ∃ M : List (Fl real53), (∀ out, Assemble env53
      (Laplace.hypersingular (T := Fl real53) (R := Fl real53) (kernelOf laplaceGreen) smallOptions) space53 space53 out ↔
      out = some M) ∧
    M.length = octFs.globalSize * octFs.globalSize ∧
    ∀ i j, i < octFs.globalSize → j < octFs.globalSize →
      ∃ x, M[i + octFs.globalSize * j]? = some x ∧
        ‖x.val - exactEntry laplaceGreen realOct realOct realP1 realP1 realRules octFs octFs i j curlCurlF‖ ≤
          ((1 + 2⁻¹ ^ 53) ^ (10 + 4 + 4 + entryTerms octFs octFs i j) - 1) *
            absEntry laplaceGreen realOct realOct realP1 realP1 realRules octFs octFs i j curlCurlAbsF :=
  C63_rounding (A := real53) (B := real53) (env := env53) (test := space53) (trial := space53) (N := 4) (by positivity)
    (realPair octFs_space.1 realOct (Or.inl octFs_space.2)) rfl
    (.laplaceHypersingular (kernelOf_computes laplaceGreen _)) .hypersingular (by decide)
    (fun _ _ _ _ => (Real.sqrt_pos.mpr (by norm_num)).ne') (fun _ _ _ _ => (Real.sqrt_pos.mpr (by norm_num)).ne')
    (by simp [realRules]) (fun _ _ => by simp [realRules])

/-- The Helmholtz hypersingular operator with wavenumber 5. -/
example : ∃ M : List (Fl complex53), (∀ out, Assemble complexEnv53
      (Helmholtz.hypersingular (T := Fl complex53) (R := Fl real53) castFl (fun w => kernelOf (helmholtzGreen w)) (5 : ℝ)
        smallOptions) complexSpace53 complexSpace53 out ↔ out = some M) ∧
    M.length = octFs.globalSize * octFs.globalSize ∧
    ∀ i j, i < octFs.globalSize → j < octFs.globalSize →
      ∃ x, M[i + octFs.globalSize * j]? = some x ∧
        ‖x.val - exactEntry (helmholtzGreen 5) realOct realOct complexP1 complexP1 realRules octFs octFs i j
            (helmholtzHypF (algebraMap ℝ ℂ) 5)‖ ≤
          ((1 + 2⁻¹ ^ 53) ^ (11 + 4 + 4 + entryTerms octFs octFs i j) - 1) *
            absEntry (helmholtzGreen 5) realOct realOct complexP1 complexP1 realRules octFs octFs i j
              (helmholtzHypAbsF 5) :=
  C63_rounding (A := real53) (B := complex53) (env := complexEnv53) (test := complexSpace53) (trial := complexSpace53)
    (N := 4) (by positivity) complexPair rfl
    (.helmholtzHypersingular (kernelOf_computes (helmholtzGreen 5) _)) (.helmholtzHypersingular 5) (by decide)
    (fun _ _ _ _ => (Real.sqrt_pos.mpr (by norm_num)).ne') (fun _ _ _ _ => (Real.sqrt_pos.mpr (by norm_num)).ne')
    (by simp [realRules]) (fun _ _ => by simp [realRules])

/-- Every vertex of the octahedron lies on four cells: 16 quadrature values are added to each entry. -/
example : ∀ i < 6, ∀ j < 6, entryTerms octFs octFs i j = 16 := by decide +kernel

end Examples

end Bempp
