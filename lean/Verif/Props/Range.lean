import Verif.Proofs.Range
import Verif.Proofs.Moderate
import Verif.Proofs.ComplexRange
import Verif.Props.Inexact
import Verif.Props.Rounding
/-
Property C80: dense assembly with a bounded range of exponents.
-/
set_option linter.unusedSectionVars false

namespace Bempp
open NNReal

section
variable {𝕜 : Type} [NormedField 𝕜] [NormedAlgebra ℝ 𝕜] {u : ℝ} {m : ℝ≥0} {Ω : ℝ} {A : Ranged ℝ u m Ω}
  {B : Ranged 𝕜 u m Ω} {env : Env (Rg A) (Rg B)} {asm : Assembler (Rg A) (Rg B)}
  {trial test : Space (Rg A) (Rg B)} {o : Options} {famT famR : CellType → ElementDofs} {F : MathIntegrand (Rg B)}
  {F' : MathIntegrand 𝕜} {W : MathIntegrand (Scale m)} {n N : Nat} {K : MathKernel ℝ 𝕜} {GT GR : Geometry ℝ}
  {BT BR : Basis ℝ 𝕜} {Q : Quadrature ℝ} {t : CellType}

theorem cellPairValue_near (hu : 0 ≤ u)
    (h : SpacePair (R := Rg A) (T := Rg B) env o trial test famT famR GT GR BT BR Q t) (hF : InRange A B F F' W n)
    (hGT : ∀ c ∈ test.fs.grid.entityIter 2, ∀ x, Q.Node t x → B.divides (algebraMap ℝ 𝕜 (GT.jdet c.localIndex x)))
    (hGR : ∀ c ∈ trial.fs.grid.entityIter 2, ∀ x, Q.Node t x → B.divides (algebraMap ℝ 𝕜 (GR.jdet c.localIndex x)))
    (hN : (Q.regular t).length * (Q.regular t).length ≤ N)
    (hN' : ∀ con, con.Possible t t → (Q.singular t t con).length ≤ N)
    {c c' : Entity} (hc : c ∈ test.fs.grid.entityIter 2) (hc' : c' ∈ trial.fs.grid.entityIter 2) (a b : Nat) :
    InNear B (n + 4 + N)
      (cellPairValue (R := Rg A) (T := Rg B) castRg F K GT GR BT BR Q test.fs trial.fs c c' a b)
      (cellPairValue (algebraMap ℝ 𝕜) F' K GT GR BT BR Q test.fs trial.fs c c' a b)
      (pairScale m K GT GR BT BR Q test.fs trial.fs W c c' a b) := by
  have ht : c.entityType = t := by
    have := h.testSpace.wf.types c hc
    rw [h.testType] at this
    simpa using this
  have ht' : c'.entityType = t := by
    have := h.trialSpace.wf.types c' hc'
    rw [h.trialType] at this
    simpa using this
  unfold cellPairValue pairScale
  by_cases hs : test.fs.grid.addr = trial.fs.grid.addr ∧ c.Touches c'
  · rw [if_pos hs, if_pos hs, if_pos hs]
    obtain ⟨e, _, _, ⟨ev, ed, co⟩, _⟩ := h.same hs.1
    have hc'' := hc'
    rw [e] at hc''
    obtain ⟨h1, h2⟩ := sharedVertices_possible h.testSpace.wf ed co hc hc'' hs.2
    obtain ⟨_, h3⟩ := possiblePairs_possible (h.testSpace.wf.cell_types _ (h.testSpace.wf.types c hc)) h1
    rw [h2, ht, ht'] at h3
    rw [ht, ht']
    refine (singularValue_near hu hF _ _ _ (fun p hp => hGT c hc _ (.inr ⟨_, h3, p, hp, .inl rfl⟩))
      (fun p hp => hGR c' hc' _ (.inr ⟨_, h3, p, hp, .inr rfl⟩)) a b).mono hu ?_
    have := hN' _ h3
    omega
  · rw [if_neg hs, if_neg hs, if_neg hs, ht, ht']
    refine (regularValue_near hu hF _ _ (fun p hp => hGT c hc _ (.inl ⟨p, hp, rfl⟩))
      (fun p hp => hGR c' hc' _ (.inl ⟨p, hp, rfl⟩)) a b).mono hu ?_
    omega

/-- C80: let the arithmetic have a bounded range, as IEEE 754 arithmetic has: results above `Ω` are lost, and products
and quotients below `m` are rounded to a multiple of `u * m`. Then every operator can be assembled, the result is one
matrix for all schedules, and for each entry whose intermediate results stay below `Ω`, the entry differs from the value
in exact arithmetic by at most `((1 + u)^k - 1) * S`, where `k` is the number of roundings as in C63 and `S` is the sum
of the absolute values of all terms, with `m` added to each product and each quotient. -/
theorem C80_range (hu : 0 ≤ u)
    (h : SpacePair (R := Rg A) (T := Rg B) env o trial test famT famR GT GR BT BR Q t)
    (hcast : env.cast = castRg) (ho : OperatorWith env.cast o K asm F)
    (hF : InRange A B F F' W n) (hb : 0 < o.batchSize)
    (hGT : ∀ c ∈ test.fs.grid.entityIter 2, ∀ x, Q.Node t x → B.divides (algebraMap ℝ 𝕜 (GT.jdet c.localIndex x)))
    (hGR : ∀ c ∈ trial.fs.grid.entityIter 2, ∀ x, Q.Node t x → B.divides (algebraMap ℝ 𝕜 (GR.jdet c.localIndex x)))
    (hN : (Q.regular t).length * (Q.regular t).length ≤ N)
    (hN' : ∀ con, con.Possible t t → (Q.singular t t con).length ≤ N) :
    ∃ M : List (Rg B), (∀ out, Assemble env asm trial test out ↔ out = some M) ∧
      M.length = test.fs.globalSize * trial.fs.globalSize ∧
      ∀ i j, i < test.fs.globalSize → j < trial.fs.globalSize →
        ∃ x, M[i + test.fs.globalSize * j]? = some x ∧
          ((1 + u) ^ (n + 4 + N + entryTerms test.fs trial.fs i j) *
              (entryScale m K GT GR BT BR Q test.fs trial.fs W i j).top ≤ Ω →
            ‖x.val - exactEntry K GT GR BT BR Q test.fs trial.fs i j F'‖ ≤
              ((1 + u) ^ (n + 4 + N + entryTerms test.fs trial.fs i j) - 1) *
                (entryScale m K GT GR BT BR Q test.fs trial.fs W i j).size) := by
  obtain ⟨hc, ho⟩ := ho.computes
  have hd := h.dense ho hc
  obtain ⟨tcs, rcs, p1, p2, _, _, h1⟩ := hd.assemble (by rw [ho]; exact hb)
  refine ⟨applyOps (regularOps env.cast F K GT GR BT BR Q t (famT t).dim (famR t).dim trial.fs test.fs
        tcs rcs ++ singularOps env.cast F K GT BT BR Q famT famR trial.fs test.fs)
      (List.replicate (test.fs.globalSize * trial.fs.globalSize) 0), ?_, ?_, ?_⟩
  · intro out
    unfold Assemble
    rw [if_neg (by simp [h.testSpace.serial.1, h.trialSpace.serial.1])]
    simp only [h1 _ (List.length_replicate ..)]
    simp
  · rw [applyOps_length, List.length_replicate]
  · intro i j hi hj
    refine ⟨_, by rw [applyOps_fold, List.getElem?_replicate, if_pos (addr_lt hi hj)]; rfl, fun hf => ?_⟩
    have key := InNear.ops hu (regularOps env.cast F K GT GR BT BR Q t (famT t).dim (famR t).dim trial.fs test.fs
        tcs rcs ++ singularOps env.cast F K GT BT BR Q famT famR trial.fs test.fs) (i + test.fs.globalSize * j)
        (InNear.zero (B := B))
    rw [hd.contribTo_eq _ p1 p2 hi, hd.contribTo_eq _ p1 p2 hi, hd.contribTo_eq _ p1 p2 hi] at key
    simp only [zero_add] at key
    obtain ⟨_, k1⟩ := key
    have hv := fun c hc c' hc' a b => cellPairValue_near (K := K) hu h hF hGT hGR hN hN' (c := c) (c' := c') hc hc' a b
    rw [← hcast] at hv
    -- nothing overflows in the terms
    have hv' : ∀ c c' a b, IsTerm test.fs trial.fs i j c c' a b →
        (1 + u) ^ (n + 4 + N) * (pairScale m K GT GR BT BR Q test.fs trial.fs W c c' a b).top ≤ Ω := fun c c' a b ht =>
      fits hu hf (by omega) (doubleSum_top _ ht)
    have e1 := doubleSum_bound_terms _ _ _ (fun c c' a b ht => (hv c ht.1 c' ht.2.1 a b).2 (hv' c c' a b ht))
    rw [doubleSum_const_mul, ← doubleSum_size] at e1
    have e2 := doubleSum_bound_terms
      (fun c c' a b => ‖(cellPairValue env.cast F K GT GR BT BR Q test.fs trial.fs c c' a b).val‖)
      (fun _ _ _ _ => (0 : ℝ)) (fun c c' a b => (1 + u) ^ (n + 4 + N) *
        ((pairScale m K GT GR BT BR Q test.fs trial.fs W c c' a b).size : ℝ)) (fun c c' a b ht => by
        rw [sub_zero, norm_norm]; exact (hv c ht.1 c' ht.2.1 a b).size (hv' c c' a b ht)) (i := i) (j := j)
    rw [doubleSum_const_mul, ← doubleSum_size] at e2
    have e0 : doubleSum test.fs trial.fs (fun _ _ _ _ => (0 : ℝ)) i j = 0 := by simp [doubleSum]
    rw [e0, sub_zero] at e2
    have e3 := (le_abs_self _).trans e2
    have e6 : ((doubleSum test.fs trial.fs (fun c c' a b =>
        (Scale.of (cellPairValue env.cast F K GT GR BT BR Q test.fs trial.fs c c' a b).val : Scale m)) i j).size : ℝ) =
        doubleSum test.fs trial.fs (fun c c' a b =>
          ‖(cellPairValue env.cast F K GT GR BT BR Q test.fs trial.fs c c' a b).val‖) i j := doubleSum_size _ i j
    have e7 := doubleSum_of_peak (m := m) (test := test.fs) (trial := trial.fs) (fun c c' a b =>
        (cellPairValue env.cast F K GT GR BT BR Q test.fs trial.fs c c' a b).val) i j
    have p := one_le_pow_u hu (entryTerms test.fs trial.fs i j)
    rw [← e6] at e3
    have k2 := k1 (by
      rw [Scale.top, e7, max_eq_left zero_le]
      refine le_trans (mul_le_mul_of_nonneg_left e3 (by positivity)) (le_trans (le_of_eq ?_) (fits_size hu hf))
      rw [pow_add (1 + u) (n + 4 + N)]
      exact (fun a b x => by ring : ∀ a b x : ℝ, a * (b * x) = b * a * x) _ _ _)
    have e4 := mul_le_mul_of_nonneg_left e3 (sub_nonneg.mpr p)
    have e5 : ((1 + u) ^ (n + 4 + N + entryTerms test.fs trial.fs i j) - 1) *
          (entryScale m K GT GR BT BR Q test.fs trial.fs W i j).size =
        ((1 + u) ^ entryTerms test.fs trial.fs i j - 1) *
          ((1 + u) ^ (n + 4 + N) * (entryScale m K GT GR BT BR Q test.fs trial.fs W i j).size) +
        ((1 + u) ^ (n + 4 + N) - 1) * (entryScale m K GT GR BT BR Q test.fs trial.fs W i j).size := by
      rw [pow_add]; ring
    rw [e5]
    have tri : ∀ x y z : 𝕜, ‖x - z‖ ≤ ‖x - y‖ + ‖y - z‖ := fun x y z => by
      simpa using norm_add_le (x - y) (y - z)
    exact (tri _ _ _).trans (add_le_add (k2.trans e4) e1)

/-- C80 for data that are neither too large nor too small: if all values of kernel, geometry, basis functions, weights and
wavenumber are at most `C` and the integration elements are at least `1 / C`, then nothing overflows as long as
`16384 * N * entryTerms * C ^ 11` is far enough from `Ω`, and the error bound holds for all entries. -/
theorem C80_moderate {C : ℝ≥0} (hu : 0 ≤ u) (hm : m ≤ 1)
    (h : SpacePair (R := Rg A) (T := Rg B) env o trial test famT famR GT GR BT BR Q t)
    (hcast : env.cast = castRg) (ho : OperatorWith env.cast o K asm F)
    (hF : InRange A B F F' W n) (hb : 0 < o.batchSize)
    (hM : Moderate K GT GR BT BR Q test.fs trial.fs C t (famT t).dim (famR t).dim) (hW : ModerateFormula C W)
    (hdiv : ∀ r : ℝ, 1 / C ≤ |r| → |r| ≤ C → B.divides (algebraMap ℝ 𝕜 r))
    (hN : (Q.regular t).length * (Q.regular t).length ≤ N)
    (hN' : ∀ con, con.Possible t t → (Q.singular t t con).length ≤ N)
    (hΩ : ∀ i j, i < test.fs.globalSize → j < trial.fs.globalSize →
      (1 + u) ^ (n + 4 + N + entryTerms test.fs trial.fs i j) *
        (16384 * N * entryTerms test.fs trial.fs i j * C ^ 11) ≤ Ω) :
    ∃ M : List (Rg B), (∀ out, Assemble env asm trial test out ↔ out = some M) ∧
      M.length = test.fs.globalSize * trial.fs.globalSize ∧
      ∀ i j, i < test.fs.globalSize → j < trial.fs.globalSize →
        ∃ x, M[i + test.fs.globalSize * j]? = some x ∧
          ‖x.val - exactEntry K GT GR BT BR Q test.fs trial.fs i j F'‖ ≤
            ((1 + u) ^ (n + 4 + N + entryTerms test.fs trial.fs i j) - 1) *
              (entryScale m K GT GR BT BR Q test.fs trial.fs W i j).size ∧
          (entryScale m K GT GR BT BR Q test.fs trial.fs W i j).size ≤
            16384 * N * entryTerms test.fs trial.fs i j * C ^ 11 := by
  obtain ⟨M, h1, h2, h3⟩ := C80_range hu h hcast ho hF hb
    (fun c hc x hx => hdiv _ (hM.testGeometry c hc x hx).2.2.2 (hM.testGeometry c hc x hx).2.2.1)
    (fun c hc x hx => hdiv _ (hM.trialGeometry c hc x hx).2.2.2 (hM.trialGeometry c hc x hx).2.2.1) hN hN'
  refine ⟨M, h1, h2, fun i j hi hj => ?_⟩
  obtain ⟨x, hx, hx'⟩ := h3 i j hi hj
  have top : ((entryScale m K GT GR BT BR Q test.fs trial.fs W i j).top : ℝ) ≤
      16384 * N * entryTerms test.fs trial.fs i j * C ^ 11 := by
    have := doubleSum_top_le (m := m) (test := test.fs) (trial := trial.fs) (i := i) (j := j)
      (f := pairScale m K GT GR BT BR Q test.fs trial.fs W) (b := N * (16384 * C ^ 11)) (fun c c' a b ht => by
        obtain ⟨t1, t2, t3, t4⟩ := ht
        have e1 : c.entityType = t := by
          have := h.testSpace.wf.types c t1
          rw [h.testType] at this
          simpa using this
        have e2 : c'.entityType = t := by
          have := h.trialSpace.wf.types c' t2
          rw [h.trialType] at this
          simpa using this
        refine pairScale_tame hm hM hW hN hN' t1 t2 e1 e2 (fun hs => h.connectivity_possible t1 t2 hs.1 hs.2) ?_ ?_
        · obtain ⟨cd, k1, k2, k3, _⟩ := h.testSpace.cell t1
          have e : ((test.fs.cellDofs c.localIndex).getD []) = cd := by rw [cellDofs_eq]; exact k2
          rw [e] at t3
          have := (List.mem_zipIdx' t3).1
          rw [← e1, ← k3]
          exact this
        · obtain ⟨cd, k1, k2, k3, _⟩ := h.trialSpace.cell t2
          have e : ((trial.fs.cellDofs c'.localIndex).getD []) = cd := by rw [cellDofs_eq]; exact k2
          rw [e] at t4
          have := (List.mem_zipIdx' t4).1
          rw [← e2, ← k3]
          exact this)
    have := NNReal.coe_le_coe.mpr this
    push_cast at this
    refine this.trans_eq ?_
    ring
  refine ⟨x, hx, hx' (le_trans (mul_le_mul_of_nonneg_left top (by positivity)) (hΩ i j hi hj)), le_trans ?_ top⟩
  exact_mod_cast Scale.size_le_top _

end

/-- C80 for complex numbers: if the real arithmetic has accuracy `u` in the range between `m` and `Ω`, then the complex
operations that are made of it have accuracy `44 * u` in a smaller range, if one divides by real numbers between `lo`
and `hi`. So `C80_range` and `C80_moderate` hold for the Helmholtz operators. -/
theorem C80_complex {u : ℝ} {m : ℝ≥0} {Ω : ℝ} (A : Ranged ℝ u m Ω) (h0 : 0 ≤ u) (h1 : 20 * u ≤ 1)
    (hA : ∀ y, y ≠ 0 → A.divides y) (lo : ℝ≥0) (hi Ω' : ℝ) (hlo : 0 < lo) (hlo1 : lo ≤ 1) (hm : m ≤ lo ^ 2)
    (hhi : 1 ≤ hi) (hΩ0 : 0 ≤ Ω') (hΩ : 8 * hi ^ 2 * Ω' + 8 * (m / lo ^ 2 : ℝ≥0) ≤ Ω) (hΩ2 : 4 * hi ^ 2 ≤ Ω) :
    (∃ A' : Ranged ℝ (44 * u) (m / lo ^ 2) Ω',
      A'.add = A.add ∧ A'.sub = A.sub ∧ A'.mul = A.mul ∧ A'.div = A.div) ∧
    ∃ B : Ranged ℂ (44 * u) (m / lo ^ 2) Ω', B.add = complexAdd A ∧ B.sub = complexSub A ∧ B.mul = complexMul A ∧
      B.div = complexDiv A ∧ ∀ r : ℝ, lo ≤ |r| → |r| ≤ hi → B.divides r := by
  refine ⟨⟨A.weaken h0 (by linarith) ?_ ?_, rfl, rfl, rfl, rfl⟩,
    A.complex h0 h1 hA lo hi Ω' hlo hlo1 hm hhi hΩ0 hΩ hΩ2, rfl, rfl, rfl, rfl, fun r hr hr' => ⟨rfl, hr, hr'⟩⟩
  · rw [le_div_iff₀ (by positivity)]
    exact mul_le_of_le_one_right zero_le (pow_le_one₀ zero_le hlo1)
  · have h2 : (0 : ℝ) ≤ (m / lo ^ 2 : ℝ≥0) := NNReal.coe_nonneg _
    have h3 : 1 ≤ hi ^ 2 := one_le_pow₀ hhi
    nlinarith

/-! ### C80: the hypotheses can be met, with double precision -/

namespace Examples

/-- The largest double precision number. -/
noncomputable def maxDouble : ℝ := 2 ^ 1024 - 2 ^ 971

/-- Rounding of products and quotients: to the nearest number with 53 binary digits, or to the nearest multiple of
`2 ^ -1074` if the number is small. What overflows is replaced by 0. -/
noncomputable def roundDouble (x : ℝ) : ℝ :=
  if maxDouble < |x| then 0 else if 2⁻¹ ^ 1022 ≤ |x| then round53 x else round (x * 2 ^ 1074) * 2⁻¹ ^ 1074

/-- Rounding of sums and differences: small sums of double precision numbers have at most 53 binary digits. -/
noncomputable def roundDoubleSum (x : ℝ) : ℝ := if maxDouble < |x| then 0 else round53 x

theorem roundDouble_err (x : ℝ) (h : |x| ≤ maxDouble) :
    |roundDouble x - x| ≤ 2⁻¹ ^ 53 * (|x| + ((2⁻¹ ^ 1022 : ℝ≥0) : ℝ)) := by
  have n := abs_nonneg x
  unfold roundDouble
  rw [if_neg (not_lt.mpr h)]
  by_cases hs : 2⁻¹ ^ 1022 ≤ |x|
  · rw [if_pos hs]
    refine (round53_err x).trans (mul_le_mul_of_nonneg_left ?_ (by positivity))
    have : (0 : ℝ) ≤ ((2⁻¹ ^ 1022 : ℝ≥0) : ℝ) := NNReal.coe_nonneg _
    linarith
  · rw [if_neg hs]
    have p : (0 : ℝ) < 2⁻¹ ^ 1074 := by positivity
    have e : (round (x * 2 ^ 1074) : ℝ) * 2⁻¹ ^ 1074 - x = -((x * 2 ^ 1074 - round (x * 2 ^ 1074)) * 2⁻¹ ^ 1074) := by
      have : x * 2 ^ 1074 * 2⁻¹ ^ 1074 = x := by
        rw [mul_assoc, ← mul_pow, mul_inv_cancel₀ (two_ne_zero), one_pow, mul_one]
      rw [sub_mul, this]
      ring
    rw [e, abs_neg, abs_mul, abs_of_pos p]
    have h1 := abs_sub_round (x * 2 ^ 1074)
    calc |x * 2 ^ 1074 - round (x * 2 ^ 1074)| * 2⁻¹ ^ 1074 ≤ 1 / 2 * 2⁻¹ ^ 1074 :=
          mul_le_mul_of_nonneg_right h1 p.le
      _ = 2⁻¹ ^ 53 * 2⁻¹ ^ 1022 := by
          rw [← pow_add, one_div, ← pow_succ']
      _ ≤ _ := by
          push_cast
          have : (0 : ℝ) ≤ 2⁻¹ ^ 53 := by positivity
          exact mul_le_mul_of_nonneg_left (by linarith) this

theorem roundDoubleSum_err (x : ℝ) (h : |x| ≤ maxDouble) : |roundDoubleSum x - x| ≤ 2⁻¹ ^ 53 * |x| := by
  unfold roundDoubleSum
  rw [if_neg (not_lt.mpr h)]
  exact round53_err x

/-- Double precision. -/
noncomputable def double : Ranged ℝ (2⁻¹ ^ 53) (2⁻¹ ^ 1022) maxDouble :=
  { add := fun x y => roundDoubleSum (x + y)
    sub := fun x y => roundDoubleSum (x - y)
    mul := fun x y => roundDouble (x * y)
    div := fun x y => roundDouble (x / y)
    divides := fun y => y ≠ 0
    divides_ne := fun _ h => h
    add_err := fun _ _ h => roundDoubleSum_err _ h
    sub_err := fun _ _ h => roundDoubleSum_err _ h
    mul_err := fun _ _ h => roundDouble_err _ h
    div_err := fun _ _ _ h => roundDouble_err _ h }

/-- The square of a small number is 0 in this arithmetic, and the square of a large number is lost. -/
theorem double_underflow : double.mul (2⁻¹ ^ 538) (2⁻¹ ^ 538) = 0 := by
  show roundDouble (2⁻¹ ^ 538 * 2⁻¹ ^ 538) = 0
  have e : (2⁻¹ : ℝ) ^ 538 * 2⁻¹ ^ 538 = 2⁻¹ ^ 1076 := by rw [← pow_add]
  have p : (0 : ℝ) < 2⁻¹ ^ 1076 := by positivity
  unfold roundDouble
  rw [e, abs_of_pos p]
  split
  · rfl
  · have h1 : ¬ (2⁻¹ : ℝ) ^ 1022 ≤ 2⁻¹ ^ 1076 := by
      rw [not_le]
      exact pow_lt_pow_right_of_lt_one₀ (by norm_num) (by norm_num) (by omega)
    rw [if_neg h1]
    have h2 : (2⁻¹ : ℝ) ^ 1076 * 2 ^ 1074 = 1 / 4 := by
      rw [show 1076 = 2 + 1074 from rfl, pow_add, mul_assoc, ← mul_pow, inv_mul_cancel₀ two_ne_zero, one_pow]
      norm_num
    rw [h2]
    have : round (1 / 4 : ℝ) = 0 := by
      rw [round_eq, Int.floor_eq_iff]
      norm_num
    rw [this]
    simp

theorem double_overflow : double.mul (2 ^ 600) (2 ^ 600) = 0 := by
  show roundDouble (2 ^ 600 * 2 ^ 600) = 0
  unfold roundDouble
  rw [if_pos]
  rw [← pow_add, abs_of_pos (by positivity)]
  have h1 : (2 : ℝ) ^ 1024 < 2 ^ (600 + 600) := pow_lt_pow_right₀ (by norm_num) (by omega)
  have h2 : (0 : ℝ) < 2 ^ 971 := by positivity
  unfold maxDouble
  exact (sub_le_self _ h2.le).trans_lt h1

theorem maxDouble_large : (2 : ℝ) ^ 1023 ≤ maxDouble := by
  unfold maxDouble
  have h2 : (2 : ℝ) ^ 971 ≤ 2 ^ 1023 := pow_le_pow_right₀ (by norm_num) (by omega)
  rw [le_sub_iff_add_le, pow_succ _ 1023, mul_two]
  exact add_le_add_right h2 _

/-- The squares of the distances of the quadrature points on the octahedron. -/
theorem oct_distances : ∀ c < 8, ∀ c' < 8,
    ∀ x ∈ [[1/3, 1/3], [1/2, 1/4], [1/4, 1/2]], ∀ y ∈ [[1/3, 1/3], [1/2, 1/4], [1/4, 1/2]],
      let d := (octGeometry.point c' y 0 - octGeometry.point c x 0) ^ 2 +
        (octGeometry.point c' y 1 - octGeometry.point c x 1) ^ 2 +
        (octGeometry.point c' y 2 - octGeometry.point c x 2) ^ 2
      d = 0 ∨ (1 / 1024 ≤ d ∧ d ≤ 16) := by decide +kernel

/-- The quadrature points. -/
def octNodes : List (List Rat) := [[1/3, 1/3], [1/2, 1/4], [1/4, 1/2]]

theorem realRules_node {x : List ℝ} (h : realRules.Node .triangle x) : ∃ q ∈ octNodes, x = q.map (↑) := by
  rcases h with ⟨p, hp, rfl⟩ | ⟨con, _, p, hp, rfl | rfl⟩
  · simp only [realRules, List.mem_cons, List.not_mem_nil, or_false] at hp
    rcases hp with rfl | rfl
    · exact ⟨[1/3, 1/3], by simp [octNodes], by simp⟩
    · exact ⟨[1/2, 1/4], by simp [octNodes], by simp⟩
  · simp only [realRules, List.mem_cons, List.not_mem_nil, or_false] at hp
    rcases hp with rfl | rfl
    · exact ⟨[1/3, 1/3], by simp [octNodes], by simp⟩
    · exact ⟨[1/4, 1/2], by simp [octNodes], by simp⟩
  · simp only [realRules, List.mem_cons, List.not_mem_nil, or_false] at hp
    rcases hp with rfl | rfl
    · exact ⟨[1/4, 1/2], by simp [octNodes], by simp⟩
    · exact ⟨[1/3, 1/3], by simp [octNodes], by simp⟩

theorem realRules_pair {c c' : Entity} {x y : List ℝ} (h : realRules.Pair octFs octFs c c' x y) :
    ∃ q ∈ octNodes, ∃ r ∈ octNodes, x = q.map (↑) ∧ y = r.map (↑) := by
  unfold Quadrature.Pair at h
  split at h
  · obtain ⟨p, hp, rfl, rfl⟩ := h
    simp only [realRules, List.mem_cons, List.not_mem_nil, or_false] at hp
    rcases hp with rfl | rfl
    · exact ⟨[1/3, 1/3], by simp [octNodes], [1/4, 1/2], by simp [octNodes], by simp, by simp⟩
    · exact ⟨[1/4, 1/2], by simp [octNodes], [1/3, 1/3], by simp [octNodes], by simp, by simp⟩
  · obtain ⟨⟨p, hp, rfl⟩, q, hq, rfl⟩ := h
    obtain ⟨a, ha, ea⟩ := realRules_node (.inl ⟨p, hp, rfl⟩)
    obtain ⟨b, hb, eb⟩ := realRules_node (.inl ⟨q, hq, rfl⟩)
    exact ⟨a, ha, b, hb, ea, eb⟩

theorem realOct_point (c : Nat) (q : List Rat) (i : Nat) :
    realOct.point c (q.map (↑)) i = (octGeometry.point c q i : ℝ) := by
  have e : ∀ k, (q.map ((↑) : Rat → ℝ)).getD k 0 = ((q.getD k 0 : Rat) : ℝ) := by
    intro k
    simp only [List.getD_eq_getElem?_getD, List.getElem?_map]
    cases q[k]? <;> simp
  show (octVertex (octCell c 0) i : ℝ) + _ * _ + _ * _ = _
  rw [e, e]
  simp only [octGeometry]
  push_cast
  ring

/-- The distances of the points at which the kernel is evaluated. -/
theorem oct_pointDist {c c' : Entity} (hc : c ∈ octFs.grid.entityIter 2) (hc' : c' ∈ octFs.grid.entityIter 2)
    {x y : List ℝ} (h : realRules.Pair octFs octFs c c' x y) :
    pointDist (realOct.coords c.localIndex x) (realOct.coords c'.localIndex y) = 0 ∨
      (1 / 32 ≤ pointDist (realOct.coords c.localIndex x) (realOct.coords c'.localIndex y) ∧
        pointDist (realOct.coords c.localIndex x) (realOct.coords c'.localIndex y) ≤ 4) := by
  obtain ⟨q, hq, r, hr, rfl, rfl⟩ := realRules_pair h
  have hlt : ∀ c ∈ octFs.grid.entityIter 2, c.localIndex < 8 := by decide +kernel
  have d := oct_distances _ (hlt c hc) _ (hlt c' hc') q hq r hr
  have e : ∀ i < 3, pointDiff (realOct.coords c.localIndex (q.map (↑))) (realOct.coords c'.localIndex (r.map (↑))) i ^ 2 =
      ((octGeometry.point c'.localIndex r i - octGeometry.point c.localIndex q i : Rat) : ℝ) ^ 2 := by
    intro i hi
    rw [Rat.cast_sub, ← realOct_point, ← realOct_point, sub_sq_comm]
    unfold pointDiff Geometry.coords
    rcases i with _ | _ | _ | i
    · rfl
    · rfl
    · rfl
    · omega
  unfold pointDist
  rw [e 0 (by omega), e 1 (by omega), e 2 (by omega)]
  simp only at d
  generalize octGeometry.point c'.localIndex r 0 - octGeometry.point c.localIndex q 0 = d0 at *
  generalize octGeometry.point c'.localIndex r 1 - octGeometry.point c.localIndex q 1 = d1 at *
  generalize octGeometry.point c'.localIndex r 2 - octGeometry.point c.localIndex q 2 = d2 at *
  have e' : ((d0 : ℝ) ^ 2 + (d1 : ℝ) ^ 2 + (d2 : ℝ) ^ 2) = ((d0 ^ 2 + d1 ^ 2 + d2 ^ 2 : Rat) : ℝ) := by push_cast; ring
  rw [e']
  generalize d0 ^ 2 + d1 ^ 2 + d2 ^ 2 = s at *
  rcases d with rfl | ⟨h1, h2⟩
  · left; simp
  · right
    constructor
    · apply Real.le_sqrt_of_sq_le
      have : ((1 / 1024 : Rat) : ℝ) ≤ s := by exact_mod_cast h1
      refine le_trans (by norm_num) this
    · rw [Real.sqrt_le_left (by norm_num)]
      have : (s : ℝ) ≤ ((16 : Rat) : ℝ) := by exact_mod_cast h2
      refine le_trans this (by norm_num)

theorem pointDiff_le {x y : List ℝ} {i : Nat} (hi : i < 3) : |pointDiff x y i| ≤ pointDist x y := by
  refine Real.abs_le_sqrt ?_
  have h0 := sq_nonneg (pointDiff x y 0)
  have h1 := sq_nonneg (pointDiff x y 1)
  have h2 := sq_nonneg (pointDiff x y 2)
  interval_cases i <;> linarith

/-- The kernel of the Helmholtz equation with wavenumber 5. -/
theorem helmholtzGreen_le {x y : List ℝ} (h : pointDist x y = 0 ∨ (1 / 32 ≤ pointDist x y ∧ pointDist x y ≤ 4)) {i : Nat}
    (hi : i < 4) : ‖helmholtzGreen 5 x y i‖ ≤ ((2000 : ℝ≥0) : ℝ) := by
  have hpi := Real.pi_gt_three
  push_cast
  rcases h with h | ⟨h1, h2⟩
  · unfold helmholtzGreen
    simp only [h]
    rcases i with _ | i <;> simp
  · have hd : 0 < pointDist x y := by linarith
    have he : ‖Complex.exp (Complex.I * (5 : ℝ) * (pointDist x y : ℂ))‖ = 1 := by
      have : Complex.I * (5 : ℝ) * (pointDist x y : ℂ) = ((5 * pointDist x y : ℝ) : ℂ) * Complex.I := by push_cast; ring
      rw [this, Complex.norm_exp_ofReal_mul_I]
    unfold helmholtzGreen
    rcases i with _ | i
    · simp only
      rw [norm_div, he, norm_mul, norm_mul, Complex.norm_real, Complex.norm_real, Real.norm_eq_abs, Real.norm_eq_abs,
        abs_of_pos Real.pi_pos, abs_of_pos hd, div_le_iff₀ (by simp; positivity)]
      simp only [Complex.norm_ofNat]
      nlinarith
    · simp only
      have h3 : ‖(1 : ℂ) - Complex.I * (5 : ℝ) * (pointDist x y : ℂ)‖ ≤ 21 := by
        refine (norm_sub_le _ _).trans ?_
        rw [norm_mul, norm_mul, Complex.norm_real, Complex.norm_real, Complex.norm_I, norm_one, Real.norm_eq_abs,
          Real.norm_eq_abs, abs_of_pos hd]
        norm_num
        linarith
      rw [norm_div, norm_mul, norm_mul, he, norm_mul, norm_mul, norm_pow, Complex.norm_real, Complex.norm_real,
        Complex.norm_real, Real.norm_eq_abs, Real.norm_eq_abs, Real.norm_eq_abs, abs_of_pos Real.pi_pos, abs_of_pos hd,
        div_le_iff₀ (by simp; positivity), mul_one]
      simp only [Complex.norm_ofNat]
      have h4 := mul_le_mul h3 (pointDiff_le (x := x) (y := y) (by omega : i < 3)) (abs_nonneg _) (by norm_num)
      refine h4.trans ?_
      have h5 : (1 / 32) ^ 2 ≤ pointDist x y ^ 2 := pow_le_pow_left₀ (by norm_num) h1 2
      have h6 : (3 : ℝ) * (1 / 32) ^ 2 ≤ Real.pi * pointDist x y ^ 2 :=
        mul_le_mul hpi.le h5 (by positivity) (by positivity)
      have h7 := mul_le_mul_of_nonneg_right h6 hd.le
      have : 2000 * (4 * Real.pi * pointDist x y ^ 3) = 8000 * (Real.pi * pointDist x y ^ 2 * pointDist x y) := by ring
      rw [this]
      nlinarith

theorem sqrt3_bounds : (1 : ℝ) ≤ Real.sqrt 3 ∧ Real.sqrt 3 ≤ 2 := by
  constructor
  · exact Real.le_sqrt_of_sq_le (by norm_num)
  · rw [Real.sqrt_le_left (by norm_num)]; norm_num

theorem oct_moderate : Moderate (helmholtzGreen 5) realOct realOct complexP1 complexP1 realRules octFs octFs 2000
    .triangle 3 3 := by
  have g : ∀ c ∈ octFs.grid.entityIter 2, ∀ x, realRules.Node .triangle x →
    (∀ i < 3, |realOct.normal c.localIndex x i| ≤ ((2000 : ℝ≥0) : ℝ)) ∧
      (∀ i < 6, |realOct.jacobian c.localIndex x i| ≤ ((2000 : ℝ≥0) : ℝ)) ∧
      |realOct.jdet c.localIndex x| ≤ ((2000 : ℝ≥0) : ℝ) ∧ 1 / ((2000 : ℝ≥0) : ℝ) ≤ |realOct.jdet c.localIndex x| := by
    intro c hc x _
    have s := sqrt3_bounds
    have n : ∀ c ∈ octFs.grid.entityIter 2, ∀ i < 3, |octVertex (octCell c.localIndex 0) i +
        octVertex (octCell c.localIndex 1) i + octVertex (octCell c.localIndex 2) i| ≤ 2000 := by decide +kernel
    have j : ∀ c ∈ octFs.grid.entityIter 2, ∀ i < 6, |octVertex (octCell c.localIndex (i / 3 + 1)) (i % 3) -
        octVertex (octCell c.localIndex 0) (i % 3)| ≤ 2000 := by decide +kernel
    refine ⟨fun i hi => ?_, fun i hi => ?_, ?_, ?_⟩
    · have : |((octVertex (octCell c.localIndex 0) i + octVertex (octCell c.localIndex 1) i +
          octVertex (octCell c.localIndex 2) i : Rat) : ℝ)| ≤ 2000 := by exact_mod_cast n c hc i hi
      show |_ / Real.sqrt 3| ≤ _
      rw [abs_div, abs_of_pos (lt_of_lt_of_le one_pos s.1), div_le_iff₀ (lt_of_lt_of_le one_pos s.1)]
      refine this.trans ?_
      push_cast
      linarith
    · have : |((octVertex (octCell c.localIndex (i / 3 + 1)) (i % 3) - octVertex (octCell c.localIndex 0) (i % 3) : Rat) :
          ℝ)| ≤ 2000 := by exact_mod_cast j c hc i hi
      refine le_trans (le_of_eq ?_) this
      rfl
    · show |Real.sqrt 3| ≤ _
      rw [abs_of_pos (by linarith)]
      push_cast
      linarith
    · show _ ≤ |Real.sqrt 3|
      rw [abs_of_pos (by linarith)]
      push_cast
      linarith
  have b : ∀ x, realRules.Node .triangle x → ∀ a i, a < 3 → i < 3 → ‖complexP1 .triangle a i x‖ ≤ ((2000 : ℝ≥0) : ℝ) := by
    intro x hx a i ha hi
    obtain ⟨q, hq, rfl⟩ := realRules_node hx
    have : ‖realP1 .triangle a i (q.map (↑))‖ ≤ 2000 := by
      simp only [octNodes, List.mem_cons, List.not_mem_nil, or_false] at hq
      rcases hq with rfl | rfl | rfl <;> interval_cases a <;> interval_cases i <;> norm_num [realP1, abs_le]
    push_cast
    refine le_trans (le_of_eq ?_) this
    simp [complexP1]
  refine ⟨?_, g, g, b, b, fun c hc c' hc' x y h i hi => helmholtzGreen_le (oct_pointDist hc hc' h) hi, ?_, ?_⟩
  · norm_num
  · intro p hp
    simp only [realRules, List.mem_cons, List.not_mem_nil, or_false] at hp
    rcases hp with rfl | rfl <;> · push_cast; norm_num [abs_le]
  · intro con hcon p hp
    simp only [realRules, List.mem_cons, List.not_mem_nil, or_false] at hp
    have hd : con.connectivityDimension ≤ 2 := by cases hcon <;> simp
    have : (con.connectivityDimension : ℝ) ≤ 2 := by exact_mod_cast hd
    have h0 : (0 : ℝ) ≤ con.connectivityDimension := by positivity
    rcases hp with rfl | rfl <;> · push_cast; rw [abs_of_nonneg (by positivity)]; linarith

theorem small53 : (2⁻¹ : ℝ) ^ 53 ≤ 1 / 1000 := by norm_num

theorem double_min : (2⁻¹ ^ 1022 : ℝ≥0) / (1 / 2000) ^ 2 ≤ 1 := by
  rw [div_le_one (by positivity)]
  refine (pow_le_pow_of_le_one (by positivity) (by norm_num) (show 30 ≤ 1022 by omega)).trans ?_
  rw [← NNReal.coe_le_coe]
  push_cast
  norm_num

theorem double_max : 8 * (2000 : ℝ) ^ 2 * 2 ^ 990 + 8 ≤ maxDouble := by
  have h1 : (8 : ℝ) ≤ 2 ^ 990 := le_trans (by norm_num) (pow_le_pow_right₀ (by norm_num) (show 3 ≤ 990 by omega))
  calc 8 * (2000 : ℝ) ^ 2 * 2 ^ 990 + 8 ≤ 8 * (2000 : ℝ) ^ 2 * 2 ^ 990 + 2 ^ 990 := add_le_add_right h1 _
    _ = (8 * (2000 : ℝ) ^ 2 + 1) * 2 ^ 990 := by rw [add_mul, one_mul]
    _ ≤ 2 ^ 33 * 2 ^ 990 := mul_le_mul_of_nonneg_right (by norm_num) (by positivity)
    _ = 2 ^ 1023 := by rw [← pow_add]
    _ ≤ maxDouble := maxDouble_large

/-- Double precision with the constants of the complex arithmetic. -/
noncomputable def doubleReal : Ranged ℝ (44 * 2⁻¹ ^ 53) (2⁻¹ ^ 1022 / (1 / 2000) ^ 2) (2 ^ 990) :=
  double.weaken (by positivity) (by have : (0 : ℝ) ≤ 2⁻¹ ^ 53 := by positivity
                                    linarith)
    (by
      rw [le_div_iff₀ (by positivity)]
      exact mul_le_of_le_one_right zero_le (pow_le_one₀ zero_le (by rw [← NNReal.coe_le_coe]; push_cast; norm_num)))
    ((pow_le_pow_right₀ (by norm_num) (by omega)).trans maxDouble_large)

/-- Complex double precision. -/
noncomputable def doubleComplex : Ranged ℂ (44 * 2⁻¹ ^ 53) (2⁻¹ ^ 1022 / (1 / 2000) ^ 2) (2 ^ 990) :=
  double.complex (by positivity) (by have := small53; linarith) (fun _ h => h) (1 / 2000) 2000 (2 ^ 990) (by positivity)
    (by rw [← NNReal.coe_le_coe]; push_cast; norm_num)
    (by have := double_min; rwa [div_le_one (by positivity)] at this) (by norm_num) (by positivity)
    (by
      refine le_trans (add_le_add_right ?_ _) double_max
      have : (((2⁻¹ ^ 1022 : ℝ≥0) / (1 / 2000) ^ 2 : ℝ≥0) : ℝ) ≤ 1 := by exact_mod_cast double_min
      linarith)
    (le_trans (by
      have h : (1 : ℝ) ≤ 2 ^ 990 := one_le_pow₀ (by norm_num)
      have := mul_le_mul_of_nonneg_left h (by positivity : (0 : ℝ) ≤ 8 * 2000 ^ 2)
      refine le_trans (le_trans ?_ this) (le_add_of_nonneg_right (by norm_num))
      norm_num) double_max)

noncomputable def doubleEnv : Env (Rg doubleReal) (Rg doubleComplex) := complexEnv
noncomputable def doubleSpace : Space (Rg doubleReal) (Rg doubleComplex) := Examples.spaceOf octFs p1 realOct complexP1

/-- The Helmholtz hypersingular operator with wavenumber 5 on the octahedron in double precision: nothing overflows. -/
example : ∃ M : List (Rg doubleComplex), (∀ out, Assemble doubleEnv
      (Helmholtz.hypersingular (T := Rg doubleComplex) (R := Rg doubleReal) castRg (fun w => kernelOf (helmholtzGreen w))
        (5 : ℝ) smallOptions) doubleSpace doubleSpace out ↔ out = some M) ∧
    M.length = octFs.globalSize * octFs.globalSize ∧
    ∀ i j, i < octFs.globalSize → j < octFs.globalSize →
      ∃ x, M[i + octFs.globalSize * j]? = some x ∧
        ‖x.val - exactEntry (helmholtzGreen 5) realOct realOct complexP1 complexP1 realRules octFs octFs i j
            (helmholtzHypF (algebraMap ℝ ℂ) 5)‖ ≤
          ((1 + 44 * 2⁻¹ ^ 53) ^ (11 + 4 + 4 + entryTerms octFs octFs i j) - 1) *
            (entryScale (2⁻¹ ^ 1022 / (1 / 2000) ^ 2) (helmholtzGreen 5) realOct realOct complexP1 complexP1 realRules octFs
              octFs (helmholtzHypF (R := Scale _) id (.of (5 : ℝ))) i j).size ∧
        (entryScale (2⁻¹ ^ 1022 / (1 / 2000) ^ 2) (helmholtzGreen 5) realOct realOct complexP1 complexP1 realRules octFs
            octFs (helmholtzHypF (R := Scale _) id (.of (5 : ℝ))) i j).size ≤
          (16384 * (4 : ℕ) * entryTerms octFs octFs i j * (2000 : ℝ≥0) ^ 11 : ℝ) :=
  C80_moderate (A := doubleReal) (B := doubleComplex) (env := doubleEnv) (test := doubleSpace) (trial := doubleSpace)
    (N := 4) (C := 2000) (by positivity) double_min complexPair rfl
    (.helmholtzHypersingular (kernelOf_computes (helmholtzGreen 5) _)) (.helmholtzHypersingular 5) (by decide)
    oct_moderate (.helmholtzHypersingular 5 (by push_cast; norm_num))
    (fun r h1 h2 => ⟨rfl, by push_cast at *; exact h1, by push_cast at *; exact h2⟩)
    (by simp [realRules]) (fun _ _ => by simp [realRules])
    (fun i j hi hj => by
      have e : ∀ i < octFs.globalSize, ∀ j < octFs.globalSize, entryTerms octFs octFs i j = 16 := by decide +kernel
      have e' : entryTerms doubleSpace.fs doubleSpace.fs i j = 16 := e i hi j hj
      rw [e']
      have h1 : (1 + 44 * 2⁻¹ ^ 53 : ℝ) ^ (11 + 4 + 4 + 16) ≤ 2 ^ (11 + 4 + 4 + 16) :=
        pow_le_pow_left₀ (by positivity) (by have := small53; linarith) _
      refine (mul_le_mul_of_nonneg_right h1 (by positivity)).trans ?_
      have h2 : (2 : ℝ) ^ 200 ≤ 2 ^ 990 := pow_le_pow_right₀ (by norm_num) (by omega)
      refine le_trans ?_ h2
      push_cast
      norm_num)

end Examples
end Bempp
