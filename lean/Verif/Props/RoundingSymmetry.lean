import Verif.Props.Rounding
import Verif.Props.Symmetry
/-
Property C72: what remains of symmetry, transposition and zero row sums in floating point arithmetic.
-/
set_option linter.unusedSectionVars false

namespace Bempp

section
variable {𝕜 : Type} [NormedField 𝕜] [NormedAlgebra ℝ 𝕜] {u : ℝ} {A : Arith ℝ u} {B : Arith 𝕜 u}
  {env : Env (Fl A) (Fl B)} {asm asm' : Assembler (Fl A) (Fl B)} {trial test : Space (Fl A) (Fl B)} {o : Options}
  {famT famR : CellType → ElementDofs} {F G : MathIntegrand (Fl B)} {F' G' : MathIntegrand 𝕜} {W W' : MathIntegrand ℝ}
  {n N : Nat} {K : MathKernel ℝ 𝕜} {GT GR : Geometry ℝ} {BT BR : Basis ℝ 𝕜} {Q : Quadrature ℝ} {t : CellType}

theorem Quadrature.Symmetric.abs (h : Q.Symmetric) : Q.abs.Symmetric := by
  intro tt rt con con' hm
  have := (h tt rt con con' hm).map fun p => (p.1, p.2.1, |p.2.2|)
  simp only [Quadrature.abs, List.map_map] at this ⊢
  exact this

theorem exactEntry_transpose (hF : Transposes F' K G' K) (hQ : Q.Symmetric) (fs gs : FunctionSpace) (i j : Nat) :
    exactEntry K GT GR BT BR Q fs gs i j F' = exactEntry K GR GT BR BT Q gs fs j i G' := by
  unfold exactEntry
  rw [doubleSum_swap]
  congr 1
  funext c c' a b
  exact cellPairValue_transpose hF hQ ..

theorem absEntry_transpose (hW : Transposes W (fun x y i => ‖K x y i‖) W' (fun x y i => ‖K x y i‖))
    (hQ : Q.Symmetric) (fs gs : FunctionSpace) (i j : Nat) :
    absEntry K GT GR BT BR Q fs gs i j W = absEntry K GR GT BR BT Q gs fs j i W' := by
  unfold absEntry
  rw [doubleSum_swap]
  congr 1
  funext c c' a b
  exact cellPairValue_transpose hW hQ.abs ..

theorem entryTerms_transpose (fs gs : FunctionSpace) (i j : Nat) : entryTerms fs gs i j = entryTerms gs fs j i := by
  unfold entryTerms
  rw [doubleSum_swap]

/-- Two operators whose formulas are the transposes of each other. -/
theorem rounded_transpose (hu : 0 ≤ u)
    (h : SpacePair (R := Fl A) (T := Fl B) env o trial test famT famR GT GR BT BR Q t)
    (hcast : env.cast = castFl) (ho : OperatorWith env.cast o K asm F) (ho' : OperatorWith env.cast o K asm' G)
    (hF : Rounded A B F F' W n) (hG : Rounded A B G G' W' n) (hb : 0 < o.batchSize)
    (hGT : ∀ c ∈ test.fs.grid.entityIter 2, ∀ x, Q.Node t x → GT.jdet c.localIndex x ≠ 0)
    (hGR : ∀ c ∈ trial.fs.grid.entityIter 2, ∀ x, Q.Node t x → GR.jdet c.localIndex x ≠ 0)
    (hN : (Q.regular t).length * (Q.regular t).length ≤ N)
    (hN' : ∀ con, con.Possible t t → (Q.singular t t con).length ≤ N)
    (hT : Transposes F' K G' K) (hW : Transposes W (fun x y i => ‖K x y i‖) W' (fun x y i => ‖K x y i‖))
    (hQ : Q.Symmetric) :
    ∃ M M' : List (Fl B), (∀ out, Assemble env asm trial test out ↔ out = some M) ∧
      (∀ out, Assemble env asm' test trial out ↔ out = some M') ∧
      M.length = test.fs.globalSize * trial.fs.globalSize ∧ M'.length = test.fs.globalSize * trial.fs.globalSize ∧
      ∀ i j, i < test.fs.globalSize → j < trial.fs.globalSize →
        ∃ x y, M[i + test.fs.globalSize * j]? = some x ∧ M'[j + trial.fs.globalSize * i]? = some y ∧
          ‖x.val - y.val‖ ≤ 2 * ((1 + u) ^ (n + 4 + N + entryTerms test.fs trial.fs i j) - 1) *
            absEntry K GT GR BT BR Q test.fs trial.fs i j W := by
  obtain ⟨M, m1, m2, m3⟩ := C63_rounding hu h hcast ho hF hb hGT hGR hN hN'
  obtain ⟨M', n1, n2, n3⟩ := C63_rounding hu h.exchange hcast ho' hG hb hGR hGT hN hN'
  refine ⟨M, M', m1, n1, m2, by rw [n2, Nat.mul_comm], fun i j hi hj => ?_⟩
  obtain ⟨x, x1, x2⟩ := m3 i j hi hj
  obtain ⟨y, y1, y2⟩ := n3 j i hj hi
  refine ⟨x, y, x1, y1, ?_⟩
  rw [← exactEntry_transpose hT hQ, ← absEntry_transpose hW hQ, ← entryTerms_transpose, norm_sub_rev] at y2
  have tri : ∀ x y z : 𝕜, ‖x - z‖ ≤ ‖x - y‖ + ‖y - z‖ := fun x y z => by
    simpa using norm_add_le (x - y) (y - z)
  refine (tri _ _ _).trans ((add_le_add x2 y2).trans (le_of_eq ?_))
  ring

/-- C72, double layer and adjoint: in any arithmetic whose operations have a relative error of at most `u`, the entries
of the matrix of the double layer operator, Laplace or Helmholtz, and of the transposed matrix of its adjoint differ by
at most `2 * ((1 + u) ^ k - 1)` times the sum of the absolute values of the terms of the entry. -/
theorem C72_adjoint (hu : 0 ≤ u)
    (h : SpacePair (R := Fl A) (T := Fl B) env o trial test famT famR GT GR BT BR Q t)
    (hcast : env.cast = castFl) (ho : OperatorWith env.cast o K asm dlF) (ho' : OperatorWith env.cast o K asm' adlF)
    (hb : 0 < o.batchSize)
    (hGT : ∀ c ∈ test.fs.grid.entityIter 2, ∀ x, Q.Node t x → GT.jdet c.localIndex x ≠ 0)
    (hGR : ∀ c ∈ trial.fs.grid.entityIter 2, ∀ x, Q.Node t x → GR.jdet c.localIndex x ≠ 0)
    (hN : (Q.regular t).length * (Q.regular t).length ≤ N)
    (hN' : ∀ con, con.Possible t t → (Q.singular t t con).length ≤ N)
    (hK : OddGradient K) (hQ : Q.Symmetric) :
    ∃ M M' : List (Fl B), (∀ out, Assemble env asm trial test out ↔ out = some M) ∧
      (∀ out, Assemble env asm' test trial out ↔ out = some M') ∧
      M.length = test.fs.globalSize * trial.fs.globalSize ∧ M'.length = test.fs.globalSize * trial.fs.globalSize ∧
      ∀ i j, i < test.fs.globalSize → j < trial.fs.globalSize →
        ∃ x y, M[i + test.fs.globalSize * j]? = some x ∧ M'[j + trial.fs.globalSize * i]? = some y ∧
          ‖x.val - y.val‖ ≤ 2 * ((1 + u) ^ (5 + 4 + N + entryTerms test.fs trial.fs i j) - 1) *
            absEntry K GT GR BT BR Q test.fs trial.fs i j dlF := by
  refine rounded_transpose hu h hcast ho ho' .doubleLayer .adjointDoubleLayer hb hGT hGR hN hN' (dl_transposes hK) ?_ hQ
  intro x y U V TG RG
  unfold dlF adlAbsF
  simp only
  rw [hK x y 1, hK x y 2, hK x y 3, norm_neg, norm_neg, norm_neg] <;> first | omega | ring

/-- The formulas of the operators that are symmetric on one space. -/
inductive SymmetricFormula (A : Arith ℝ u) (B : Arith 𝕜 u) : MathIntegrand (Fl B) → MathIntegrand ℝ → Nat → Prop
  | singleLayer : SymmetricFormula A B slF slF 2
  | hypersingular : SymmetricFormula A B curlCurlF curlCurlAbsF 10
  | helmholtzHypersingular (w : ℝ) : SymmetricFormula A B (helmholtzHypF (R := Fl A) castFl w) (helmholtzHypAbsF w) 11

theorem curlCurlAbsF_swap (Ks U V : Nat → ℝ) (TG RG : PointData ℝ) :
    curlCurlAbsF Ks U V TG RG = curlCurlAbsF Ks V U RG TG := by
  unfold curlCurlAbsF
  ring

variable {sp : Space (Fl A) (Fl B)} {fam : CellType → ElementDofs} {Ge : Geometry ℝ} {Ba : Basis ℝ 𝕜}

/-- C72, symmetry: on one space the entries `(i, j)` and `(j, i)` of the matrices of the single layer and hypersingular
operators, Laplace or Helmholtz, differ by at most `2 * ((1 + u) ^ k - 1)` times the sum of the absolute values of the
terms of the entry. -/
theorem C72_symmetric (hu : 0 ≤ u)
    (h : SpacePair (R := Fl A) (T := Fl B) env o sp sp fam fam Ge Ge Ba Ba Q t)
    (hcast : env.cast = castFl) (ho : OperatorWith env.cast o K asm F) (hF : SymmetricFormula A B F W n)
    (hb : 0 < o.batchSize) (hGe : ∀ c ∈ sp.fs.grid.entityIter 2, ∀ x, Q.Node t x → Ge.jdet c.localIndex x ≠ 0)
    (hN : (Q.regular t).length * (Q.regular t).length ≤ N)
    (hN' : ∀ con, con.Possible t t → (Q.singular t t con).length ≤ N)
    (hK : SymmetricKernel K) (hQ : Q.Symmetric) :
    ∃ M : List (Fl B), (∀ out, Assemble env asm sp sp out ↔ out = some M) ∧
      M.length = sp.fs.globalSize * sp.fs.globalSize ∧
      ∀ i j, i < sp.fs.globalSize → j < sp.fs.globalSize →
        ∃ x y, M[i + sp.fs.globalSize * j]? = some x ∧ M[j + sp.fs.globalSize * i]? = some y ∧
          ‖x.val - y.val‖ ≤ 2 * ((1 + u) ^ (n + 4 + N + entryTerms sp.fs sp.fs i j) - 1) *
            absEntry K Ge Ge Ba Ba Q sp.fs sp.fs i j W := by
  have key : ∃ F' : MathIntegrand 𝕜, Rounded A B F F' W n ∧ Transposes F' K F' K ∧
      Transposes W (fun x y i => ‖K x y i‖) W (fun x y i => ‖K x y i‖) := by
    cases hF with
    | singleLayer =>
      refine ⟨slF, .singleLayer, sl_transposes hK, sl_transposes fun x y => ?_⟩
      show ‖K x y 0‖ = _
      rw [hK x y]
    | hypersingular =>
      refine ⟨curlCurlF, .hypersingular, fun x y U V TG RG => ?_, fun x y U V TG RG => ?_⟩
      · rw [curlCurlF_swap]
        unfold curlCurlF
        rw [hK x y]
      · rw [curlCurlAbsF_swap]
        unfold curlCurlAbsF
        simp only
        rw [hK x y]
    | helmholtzHypersingular w =>
      refine ⟨_, .helmholtzHypersingular w, fun x y U V TG RG => ?_, fun x y U V TG RG => ?_⟩
      · unfold helmholtzHypF
        rw [curlCurlF_swap]
        unfold curlCurlF normalNormalF
        rw [hK x y]
        ring
      · unfold helmholtzHypAbsF
        rw [curlCurlAbsF_swap]
        unfold curlCurlAbsF normalNormalF
        simp only
        rw [hK x y]
        ring
  obtain ⟨F', k1, k2, k3⟩ := key
  obtain ⟨M, M', h1, h2, h3, _, h5⟩ := rounded_transpose hu h hcast ho ho k1 k1 hb hGe hGe hN hN' k2 k3 hQ
  have e : M' = M := Option.some_inj.mp ((h1 _).mp ((h2 _).mpr rfl))
  rw [e] at h5
  exact ⟨M, h1, h3, h5⟩

/-- C72, constants: if the derivatives of the basis functions add up to zero, the exact sum of the computed entries in
every row and column of the Laplace hypersingular matrix is at most the sum of `(1 + u) ^ k - 1` times the sums of the
absolute values of the terms of the entries. -/
theorem C72_constants (hu : 0 ≤ u)
    (h : SpacePair (R := Fl A) (T := Fl B) env o trial test famT famR GT GR BT BR Q t)
    (hcast : env.cast = castFl) (ho : OperatorWith env.cast o K asm curlCurlF) (hb : 0 < o.batchSize)
    (hGT : ∀ c ∈ test.fs.grid.entityIter 2, ∀ x, Q.Node t x → GT.jdet c.localIndex x ≠ 0)
    (hGR : ∀ c ∈ trial.fs.grid.entityIter 2, ∀ x, Q.Node t x → GR.jdet c.localIndex x ≠ 0)
    (hN : (Q.regular t).length * (Q.regular t).length ≤ N)
    (hN' : ∀ con, con.Possible t t → (Q.singular t t con).length ≤ N)
    (hT : DerivativesSumZero BT t (famT t).dim) (hR : DerivativesSumZero BR t (famR t).dim) :
    ∃ M : List (Fl B), (∀ out, Assemble env asm trial test out ↔ out = some M) ∧
      M.length = test.fs.globalSize * trial.fs.globalSize ∧
      (∀ i, i < test.fs.globalSize →
        ‖((List.range trial.fs.globalSize).map fun j => (M.getD (i + test.fs.globalSize * j) 0).val).sum‖ ≤
          ((List.range trial.fs.globalSize).map fun j =>
            ((1 + u) ^ (10 + 4 + N + entryTerms test.fs trial.fs i j) - 1) *
              absEntry K GT GR BT BR Q test.fs trial.fs i j curlCurlAbsF).sum) ∧
      ∀ j, j < trial.fs.globalSize →
        ‖((List.range test.fs.globalSize).map fun i => (M.getD (i + test.fs.globalSize * j) 0).val).sum‖ ≤
          ((List.range test.fs.globalSize).map fun i =>
            ((1 + u) ^ (10 + 4 + N + entryTerms test.fs trial.fs i j) - 1) *
              absEntry K GT GR BT BR Q test.fs trial.fs i j curlCurlAbsF).sum := by
  obtain ⟨M, m1, m2, m3⟩ := C63_rounding hu h hcast ho .hypersingular hb hGT hGR hN hN'
  have key : ∀ i j, i < test.fs.globalSize → j < trial.fs.globalSize →
      ‖(M.getD (i + test.fs.globalSize * j) 0).val - exactEntry K GT GR BT BR Q test.fs trial.fs i j curlCurlF‖ ≤
        ((1 + u) ^ (10 + 4 + N + entryTerms test.fs trial.fs i j) - 1) *
          absEntry K GT GR BT BR Q test.fs trial.fs i j curlCurlAbsF := by
    intro i j hi hj
    obtain ⟨x, x1, x2⟩ := m3 i j hi hj
    rw [List.getD_eq_getElem?_getD, x1]
    exact x2
  refine ⟨M, m1, m2, fun i hi => ?_, fun j hj => ?_⟩
  · have e := list_sum_bound (List.range trial.fs.globalSize) _ _ _ fun j hj => key i j hi (List.mem_range.mp hj)
    have z := curl_rows_zero (R := ℝ) (T := 𝕜) (K := K) (GT := GT) (GR := GR) (BT := BT) (BR := BR) (Q := Q)
      (trial := trial) (test := test) (algebraMap ℝ 𝕜) h.trialSpace h.trialType hR i
    unfold exactEntry at e
    rw [z, sub_zero] at e
    exact e
  · have e := list_sum_bound (List.range test.fs.globalSize) _ _ _ fun i hi => key i j (List.mem_range.mp hi) hj
    have z := curl_columns_zero (R := ℝ) (T := 𝕜) (K := K) (GT := GT) (GR := GR) (BT := BT) (BR := BR) (Q := Q)
      (trial := trial) (test := test) (algebraMap ℝ 𝕜) h.testSpace h.testType hT j
    unfold exactEntry at e
    rw [z, sub_zero] at e
    exact e

end

/-! ### C72: the hypotheses can be met, with 53 binary digits -/

namespace Examples

theorem realRules_symmetric : realRules.Symmetric := by
  intro tt rt con con' h
  unfold realRules
  simp only [h.1, List.map_cons, List.map_nil]
  exact List.Perm.swap _ _ _

theorem realP1_derivatives (t : CellType) : DerivativesSumZero realP1 t 3 := by
  intro x
  simp [List.range_succ, realP1]

/-- The double layer operators of Helmholtz's equation with wavenumber 5. -/
example : ∃ M M' : List (Fl complex53),
    (∀ out, Assemble complexEnv53 (Helmholtz.doubleLayer (T := Fl complex53) (R := Fl real53)
      (fun w => kernelOf (helmholtzGreen w)) (5 : ℝ) smallOptions) complexSpace53 complexSpace53 out ↔ out = some M) ∧
    (∀ out, Assemble complexEnv53 (Helmholtz.adjointDoubleLayer (T := Fl complex53) (R := Fl real53)
      (fun w => kernelOf (helmholtzGreen w)) (5 : ℝ) smallOptions) complexSpace53 complexSpace53 out ↔ out = some M') ∧
    M.length = octFs.globalSize * octFs.globalSize ∧ M'.length = octFs.globalSize * octFs.globalSize ∧
    ∀ i j, i < octFs.globalSize → j < octFs.globalSize →
      ∃ x y, M[i + octFs.globalSize * j]? = some x ∧ M'[j + octFs.globalSize * i]? = some y ∧
        ‖x.val - y.val‖ ≤ 2 * ((1 + 2⁻¹ ^ 53) ^ (5 + 4 + 4 + entryTerms octFs octFs i j) - 1) *
          absEntry (helmholtzGreen 5) realOct realOct complexP1 complexP1 realRules octFs octFs i j dlF :=
  C72_adjoint (A := real53) (B := complex53) (env := complexEnv53) (test := complexSpace53) (trial := complexSpace53)
    (N := 4) (by positivity) complexPair rfl
    (.helmholtzDoubleLayer (kernelOf_computes (helmholtzGreen 5) _))
    (.helmholtzAdjoint (kernelOf_computes (helmholtzGreen 5) _)) (by decide)
    (fun _ _ _ _ => (Real.sqrt_pos.mpr (by norm_num)).ne') (fun _ _ _ _ => (Real.sqrt_pos.mpr (by norm_num)).ne')
    (by simp [realRules]) (fun _ _ => by simp [realRules]) (helmholtzGreen_odd 5) realRules_symmetric

/-- The hypersingular operator of Helmholtz's equation with wavenumber 5. -/
example : ∃ M : List (Fl complex53), (∀ out, Assemble complexEnv53
      (Helmholtz.hypersingular (T := Fl complex53) (R := Fl real53) castFl (fun w => kernelOf (helmholtzGreen w)) (5 : ℝ)
        smallOptions) complexSpace53 complexSpace53 out ↔ out = some M) ∧
    M.length = octFs.globalSize * octFs.globalSize ∧
    ∀ i j, i < octFs.globalSize → j < octFs.globalSize →
      ∃ x y, M[i + octFs.globalSize * j]? = some x ∧ M[j + octFs.globalSize * i]? = some y ∧
        ‖x.val - y.val‖ ≤ 2 * ((1 + 2⁻¹ ^ 53) ^ (11 + 4 + 4 + entryTerms octFs octFs i j) - 1) *
          absEntry (helmholtzGreen 5) realOct realOct complexP1 complexP1 realRules octFs octFs i j
            (helmholtzHypAbsF 5) :=
  C72_symmetric (A := real53) (B := complex53) (env := complexEnv53) (sp := complexSpace53)
    (N := 4) (by positivity) complexPair rfl
    (.helmholtzHypersingular (kernelOf_computes (helmholtzGreen 5) _)) (.helmholtzHypersingular 5) (by decide)
    (fun _ _ _ _ => (Real.sqrt_pos.mpr (by norm_num)).ne')
    (by simp [realRules]) (fun _ _ => by simp [realRules]) (helmholtzGreen_symmetric 5) realRules_symmetric

/-- Rows of the hypersingular operator of Laplace's equation. -/
example : ∃ M : List (Fl real53), (∀ out, Assemble env53
      (Laplace.hypersingular (T := Fl real53) (R := Fl real53) (kernelOf laplaceGreen) smallOptions) space53 space53 out ↔
      out = some M) ∧
    ∀ i, i < octFs.globalSize →
      ‖((List.range octFs.globalSize).map fun j => (M.getD (i + octFs.globalSize * j) 0).val).sum‖ ≤
        ((List.range octFs.globalSize).map fun j =>
          ((1 + 2⁻¹ ^ 53) ^ (10 + 4 + 4 + entryTerms octFs octFs i j) - 1) *
            absEntry laplaceGreen realOct realOct realP1 realP1 realRules octFs octFs i j curlCurlAbsF).sum := by
  obtain ⟨M, h1, -, h3, -⟩ := C72_constants (A := real53) (B := real53) (env := env53) (test := space53)
    (trial := space53) (N := 4) (by positivity)
    (realPair octFs_space.1 realOct (Or.inl octFs_space.2)) rfl
    (.laplaceHypersingular (kernelOf_computes laplaceGreen _)) (by decide)
    (fun _ _ _ _ => (Real.sqrt_pos.mpr (by norm_num)).ne') (fun _ _ _ _ => (Real.sqrt_pos.mpr (by norm_num)).ne')
    (by simp [realRules]) (fun _ _ => by simp [realRules]) (realP1_derivatives _) (realP1_derivatives _)
  exact ⟨M, h1, h3⟩

end Examples

end Bempp
