import Verif.Props.RoundingSparse
import Verif.Props.Partition
/-
Property C92: distributed assembly of the singular part in floating point arithmetic.
-/
set_option linter.unusedSectionVars false

namespace Bempp

theorem list_sum_near {ι 𝕜 : Type} [SeminormedAddCommGroup 𝕜] (l : List ι) (f g : ι → 𝕜) (e : ι → ℝ)
    (h : ∀ x ∈ l, ‖f x - g x‖ ≤ e x) : ‖(l.map f).sum - (l.map g).sum‖ ≤ (l.map e).sum := by
  induction l with
  | nil => simp
  | cons a l ih =>
    simp only [List.map_cons, List.sum_cons]
    rw [add_sub_add_comm]
    exact (norm_add_le _ _).trans (add_le_add (h a (by simp)) (ih fun x hx => h x (by simp [hx])))

/-- More roundings, a larger bound. -/
theorem rounding_mono {u x : ℝ} (hu : 0 ≤ u) {a b : Nat} (ha : 0 < a) (hab : a ≤ b) (h : 0 ≤ ((1 + u) ^ a - 1) * x) :
    ((1 + u) ^ a - 1) * x ≤ ((1 + u) ^ b - 1) * x := by
  rcases hu.eq_or_lt with rfl | hu
  · simp
  · have h1 : 0 < (1 + u) ^ a - 1 := sub_pos.mpr (one_lt_pow₀ (by linarith) (by omega))
    have hx : 0 ≤ x := nonneg_of_mul_nonneg_right h h1
    exact mul_le_mul_of_nonneg_right (sub_le_sub_right (pow_le_pow_right₀ (by linarith) hab) 1) hx

section
variable {𝕜 : Type} [NormedField 𝕜] [NormedAlgebra ℝ 𝕜] {u : ℝ} {A : Arith ℝ u} {B : Arith 𝕜 u}
  {n : Nat} {G : Nat → Grid} {S : Grid} {num : Nat → Nat → Nat → Nat}
  {env : Env (Fl A) (Fl B)} {asm : Assembler (Fl A) (Fl B)} {trial test : Nat → Space (Fl A) (Fl B)}
  {trialS testS : Space (Fl A) (Fl B)} {famT famR : CellType → ElementDofs} {F : MathIntegrand (Fl B)}
  {F' : MathIntegrand 𝕜} {W : MathIntegrand ℝ} {K : MathKernel ℝ 𝕜} {geo : Nat → Geometry ℝ}
  {geoS : Geometry ℝ} {BT BR : Basis ℝ 𝕜} {Q : Quadrature ℝ} {pT pR : Nat → Nat} {m N : Nat}

/-- The values in exact arithmetic, those with absolute values and the numbers of terms of the processes add up. -/
theorem PartSetting.exact_sums
    (h : PartSetting (R := Fl A) (T := Fl B) env asm n G S num trial test trialS testS famT famR F K geo geoS
      BT BR Q)
    (hT : Renumbers n G num (fun r => (test r).fs) testS.fs pT)
    (hR : Renumbers n G num (fun r => (trial r).fs) trialS.fs pR) (F' : MathIntegrand 𝕜) (W : MathIntegrand ℝ) {i j : Nat}
    (hi : i < testS.fs.globalSize) (hj : j < trialS.fs.globalSize) :
    ((List.range n).map fun r => exactSingular K (geo r) BT BR Q (test r).fs (trial r).fs i j F').sum =
      exactSingular K geoS BT BR Q testS.fs trialS.fs (pT i) (pR j) F' ∧
    ((List.range n).map fun r => absSingular K (geo r) BT BR Q (test r).fs (trial r).fs i j W).sum =
      absSingular K geoS BT BR Q testS.fs trialS.fs (pT i) (pR j) W ∧
    ((List.range n).map fun r => singularTerms (test r).fs (trial r).fs i j).sum =
      singularTerms testS.fs trialS.fs (pT i) (pR j) := by
  refine ⟨?_, ?_, ?_⟩
  · exact h.touchingSum_of hT hR hi hj
      (f := fun r => singularPairValue (algebraMap ℝ 𝕜) F' K (geo r : Geometry ℝ) BT BR Q)
      fun r hr _ hc _ hc' _ h0 _ h1 e0 e1 =>
        h.part.value (R := ℝ) (T := 𝕜) (algebraMap ℝ 𝕜) F' K BT BR Q hr (h.geometry r hr) hc hc' h0 h1 e0 e1
  · refine h.touchingSum_of hT hR hi hj
      (f := fun r => singularPairValue id W (fun x y i => ‖K x y i‖) (Geometry.abs (geo r))
        (fun t a d x => ‖BT t a d x‖) (fun t a d x => ‖BR t a d x‖) (Quadrature.abs Q))
      fun r hr _ hc _ hc' _ h0 _ h1 e0 e1 =>
        h.part.value (R := ℝ) (T := ℝ) id W _ _ _ _ hr (fun c hc => ?_) hc hc' h0 h1 e0 e1
    have g := h.geometry r hr c hc
    refine ⟨g.point, ?_, ?_, ?_⟩
    · funext x k; exact congrArg (fun f : List ℝ → Nat → ℝ => |f x k|) g.normal
    · funext x k; exact congrArg (fun f : List ℝ → Nat → ℝ => |f x k|) g.jacobian
    · funext x; exact congrArg (fun f : List ℝ → ℝ => |f x|) g.jdet
  · exact h.touchingSum_of hT hR hi hj (f := fun _ _ _ _ _ => 1) fun _ _ _ _ _ _ _ _ _ _ _ _ _ _ => rfl

/-- The Jacobian determinants of the parts are those of the whole grid. -/
theorem PartSetting.jdet_ne
    (h : PartSetting (R := Fl A) (T := Fl B) env asm n G S num trial test trialS testS famT famR F K geo geoS
      BT BR Q)
    (hG : ∀ c ∈ S.entityIter 2, ∀ c' ∈ S.entityIter 2, ∀ con : Connectivity,
      con.Possible c.entityType c'.entityType → ∀ p ∈ Q.singular c.entityType c'.entityType con,
        geoS.jdet c.localIndex p.1 ≠ 0 ∧ geoS.jdet c'.localIndex p.2.1 ≠ 0) {r : Nat} (hr : r < n) :
    ∀ c ∈ (G r).entityIter 2, ∀ c' ∈ (G r).entityIter 2, ∀ con : Connectivity,
      con.Possible c.entityType c'.entityType → ∀ p ∈ Q.singular c.entityType c'.entityType con,
        (geo r).jdet c.localIndex p.1 ≠ 0 ∧ (geo r).jdet c'.localIndex p.2.1 ≠ 0 := by
  intro c hc c' hc' con hcon p hp
  obtain ⟨d0, q0, q1, q2, -⟩ := h.part.cell r hr c hc
  obtain ⟨d1, w0, w1, w2, -⟩ := h.part.cell r hr c' hc'
  rw [← q2, ← w2] at hcon hp
  have := hG d0 q0 d1 w0 con hcon p hp
  rw [q1, w1] at this
  have g0 := (h.geometry r hr c hc).jdet
  have g1 := (h.geometry r hr c' hc').jdet
  rw [← g0, ← g1] at this
  exact this

/-- **C92**, triplets: in any arithmetic whose operations have a relative error of at most `u`, the exact sum over all
processes of the triplets of an entry differs from the value on the whole grid in exact arithmetic by at most
`(1 + u) ^ k - 1` times the sum of the absolute values of all terms, where `k` does not depend on the number of processes and
the distribution of the grid. -/
theorem C92_triplets (hu : 0 ≤ u)
    (h : PartSetting (R := Fl A) (T := Fl B) env asm n G S num trial test trialS testS famT famR F K geo geoS
      BT BR Q)
    (hcast : env.cast = castFl) (hF : Rounded A B F F' W m) (hb : 0 < asm.options.batchSize)
    (hG : ∀ c ∈ S.entityIter 2, ∀ c' ∈ S.entityIter 2, ∀ con : Connectivity,
      con.Possible c.entityType c'.entityType → ∀ p ∈ Q.singular c.entityType c'.entityType con,
        geoS.jdet c.localIndex p.1 ≠ 0 ∧ geoS.jdet c'.localIndex p.2.1 ≠ 0)
    (hN : ∀ tt rt con, Connectivity.Possible tt rt con → (Q.singular tt rt con).length ≤ N)
    (hT : Renumbers n G num (fun r => (test r).fs) testS.fs pT)
    (hR : Renumbers n G num (fun r => (trial r).fs) trialS.fs pR) :
    ∃ P : Nat → Sparse (Fl B),
      (∀ r, r < n → ∀ out, AssembleSingularPart env asm ((test r).fs.globalSize, (trial r).fs.globalSize) (trial r)
        (test r) out ↔ out = some (P r)) ∧
      ∀ i j, i < testS.fs.globalSize → j < trialS.fs.globalSize →
        ((List.range n).map fun r => ((P r).rows.zip (P r).cols).count (i, j)).sum =
          singularTerms testS.fs trialS.fs (pT i) (pR j) ∧
        ‖((List.range n).map fun r => tripletSum (P r).rows (P r).cols ((P r).data.map Fl.val) i j).sum -
            exactSingular K geoS BT BR Q testS.fs trialS.fs (pT i) (pR j) F'‖ ≤
          ((1 + u) ^ (m + 3 + N) - 1) * absSingular K geoS BT BR Q testS.fs trialS.fs (pT i) (pR j) W := by
  obtain ⟨-, -, -, -, hP, -⟩ := h.bounds
  have hex : ∀ r, ∃ P : Sparse (Fl B), r < n →
      (∀ out, AssembleSingularPart env asm ((test r).fs.globalSize, (trial r).fs.globalSize) (trial r)
        (test r) out ↔ out = some P) ∧
      ∀ i j, (P.rows.zip P.cols).count (i, j) = singularTerms (test r).fs (trial r).fs i j ∧
        ‖tripletSum P.rows P.cols (P.data.map Fl.val) i j -
            exactSingular K (geo r) BT BR Q (test r).fs (trial r).fs i j F'‖ ≤
          ((1 + u) ^ (m + 3 + N) - 1) * absSingular K (geo r) BT BR Q (test r).fs (trial r).fs i j W := by
    intro r
    by_cases hr : r < n
    · obtain ⟨P, h1, h2⟩ := C73_triplets hu (h.onParts r hr) hcast hF hb (by
        rw [(hP r hr).1]
        exact h.jdet_ne hG hr) (fun tt _ rt _ con hc => hN tt rt con hc)
      exact ⟨P, fun _ => ⟨h1, h2⟩⟩
    · exact ⟨⟨[], [], [], (0, 0)⟩, fun hr' => absurd hr' hr⟩
  choose P hP using hex
  refine ⟨P, fun r hr => (hP r hr).1, fun i j hi hj => ?_⟩
  obtain ⟨s1, s2, s3⟩ := h.exact_sums hT hR F' W hi hj
  constructor
  · rw [← s3]
    congr 1
    exact List.map_congr_left fun r hr => ((hP r (List.mem_range.mp hr)).2 i j).1
  · rw [← s1, ← s2, ← List.sum_map_mul_left]
    exact list_sum_near _ _ _ _ fun r hr => ((hP r (List.mem_range.mp hr)).2 i j).2

/-- **C92**: the matrices that `assemble_singular` returns on the processes add up to the matrix on the whole grid, up to
rounding errors and to values that are cut off. Both are near the value in exact arithmetic. -/
theorem C92_matrices (hu : 0 ≤ u)
    (h : PartSetting (R := Fl A) (T := Fl B) env asm n G S num trial test trialS testS famT famR F K geo geoS
      BT BR Q)
    (hcast : env.cast = castFl) (hF : Rounded A B F F' W m) (hb : 0 < asm.options.batchSize)
    (hG : ∀ c ∈ S.entityIter 2, ∀ c' ∈ S.entityIter 2, ∀ con : Connectivity,
      con.Possible c.entityType c'.entityType → ∀ p ∈ Q.singular c.entityType c'.entityType con,
        geoS.jdet c.localIndex p.1 ≠ 0 ∧ geoS.jdet c'.localIndex p.2.1 ≠ 0)
    (hN : ∀ tt rt con, Connectivity.Possible tt rt con → (Q.singular tt rt con).length ≤ N)
    (hf : FromAijRounded env) {δ : ℝ} (hδ : 0 ≤ δ) (hsmall : ∀ x, env.isBig x = false → ‖x.val‖ ≤ δ) :
    ∃ (P : Nat → Csr (Fl B)) (M : Csr (Fl B)) (pT pR : Nat → Nat),
      Renumbers n G num (fun r => (test r).fs) testS.fs pT ∧
      Renumbers n G num (fun r => (trial r).fs) trialS.fs pR ∧
      (∀ r, r < n → ∀ out, AssembleSingular env asm (trial r) (test r) out ↔ out = some (P r)) ∧
      (∀ out, AssembleSingular env asm trialS testS out ↔ out = some M) ∧
      ∀ i j, i < testS.fs.globalSize → j < trialS.fs.globalSize →
        let terms := singularTerms testS.fs trialS.fs (pT i) (pR j)
        let exact := exactSingular K geoS BT BR Q testS.fs trialS.fs (pT i) (pR j) F'
        let error := ((1 + u) ^ (m + 3 + N + terms) - 1) *
          absSingular K geoS BT BR Q testS.fs trialS.fs (pT i) (pR j) W + terms * δ
        ‖((List.range n).map fun r => (P r).val.entry i j).sum - exact‖ ≤ error ∧
        ‖M.val.entry (pT i) (pR j) - exact‖ ≤ error ∧
        ‖((List.range n).map fun r => (P r).val.entry i j).sum - M.val.entry (pT i) (pR j)‖ ≤ 2 * error := by
  obtain ⟨pT, pR, hT, hR, hP, hg, bT, bR⟩ := h.bounds
  have hex : ∀ r, ∃ P : Csr (Fl B), r < n →
      (∀ out, AssembleSingular env asm (trial r) (test r) out ↔ out = some P) ∧
      ∀ i j, i < (test r).fs.globalSize →
        ‖P.val.entry i j - exactSingular K (geo r) BT BR Q (test r).fs (trial r).fs i j F'‖ ≤
          ((1 + u) ^ (m + 3 + N + singularTerms (test r).fs (trial r).fs i j) - 1) *
            absSingular K (geo r) BT BR Q (test r).fs (trial r).fs i j W +
          singularTerms (test r).fs (trial r).fs i j * δ := by
    intro r
    by_cases hr : r < n
    · obtain ⟨P, h1, -, -, -, h5⟩ := C73_matrix hu (h.onParts r hr) hcast hF hb (by
        rw [(hP r hr).1]
        exact h.jdet_ne hG hr) (fun tt _ rt _ con hc => hN tt rt con hc) (hP r hr).2.1 (hP r hr).2.2 hf hδ hsmall
      exact ⟨P, fun _ => ⟨h1, h5⟩⟩
    · exact ⟨⟨(0, 0), [], [], []⟩, fun hr' => absurd hr' hr⟩
  choose P hPr using hex
  obtain ⟨M, m1, -, -, -, m5⟩ := C73_matrix hu h.onWhole hcast hF hb (by rw [hg]; exact hG)
    (fun tt _ rt _ con hc => hN tt rt con hc) bT bR hf hδ hsmall
  refine ⟨P, M, pT, pR, hT, hR, fun r hr => (hPr r hr).1, m1, fun i j hi hj => ?_⟩
  obtain ⟨s1, s2, s3⟩ := h.exact_sums hT hR F' W hi hj
  intro terms exact error
  have e2 : ‖M.val.entry (pT i) (pR j) - exact‖ ≤ error := m5 _ _ (hT.lt i hi)
  have e1 : ‖((List.range n).map fun r => (P r).val.entry i j).sum - exact‖ ≤ error := by
    have hle : ∀ r, r < n → singularTerms (test r).fs (trial r).fs i j ≤ terms := by
      intro r hr
      show _ ≤ singularTerms testS.fs trialS.fs (pT i) (pR j)
      rw [← s3]
      exact List.le_sum_of_mem (List.mem_map.mpr ⟨r, List.mem_range.mpr hr, rfl⟩)
    have habs : ∀ r, r < n → 0 ≤ ((1 + u) ^ (m + 3 + N) - 1) *
        absSingular K (geo r) BT BR Q (test r).fs (trial r).fs i j W := by
      intro r hr
      obtain ⟨Z, -, z2⟩ := C73_triplets hu (h.onParts r hr) hcast hF hb (by
        rw [(hP r hr).1]
        exact h.jdet_ne hG hr) (fun tt _ rt _ con hc => hN tt rt con hc)
      exact (norm_nonneg _).trans (z2 i j).2
    show _ ≤ ((1 + u) ^ (m + 3 + N + terms) - 1) *
      absSingular K geoS BT BR Q testS.fs trialS.fs (pT i) (pR j) W + terms * δ
    show ‖_ - exactSingular K geoS BT BR Q testS.fs trialS.fs (pT i) (pR j) F'‖ ≤ _
    rw [← s1, ← s2, ← List.sum_map_mul_left]
    have et : (terms : ℝ) * δ = ((List.range n).map fun r =>
        (singularTerms (test r).fs (trial r).fs i j : ℝ) * δ).sum := by
      rw [List.sum_map_mul_right]
      congr 1
      show ((singularTerms testS.fs trialS.fs (pT i) (pR j) : Nat) : ℝ) = _
      rw [← s3, Nat.cast_list_sum, List.map_map]
      rfl
    rw [et, ← List.sum_map_add]
    refine list_sum_near _ _ _ _ fun r hr => ?_
    have hr := List.mem_range.mp hr
    refine ((hPr r hr).2 i j (by rw [hT.size r hr]; exact hi)).trans (add_le_add ?_ le_rfl)
    have hx := hle r hr
    have key : ∀ {x : ℝ} {a b c : Nat}, 0 < a → a ≤ b → b ≤ c → 0 ≤ ((1 + u) ^ a - 1) * x →
        ((1 + u) ^ b - 1) * x ≤ ((1 + u) ^ c - 1) * x := fun ha hab hbc h0 =>
      rounding_mono hu (by omega) hbc (h0.trans (rounding_mono hu ha hab h0))
    exact key (a := m + 3 + N) (by omega) (by omega) (by omega) (habs r hr)
  refine ⟨e1, e2, ?_⟩
  have := norm_sub_le_norm_sub_add_norm_sub (((List.range n).map fun r => (P r).val.entry i j).sum) exact
    (M.val.entry (pT i) (pR j))
  rw [norm_sub_rev exact] at this
  linarith

end

/-! ### The hypotheses can be met -/

namespace Examples

/-- Two faces of the octahedron. -/
noncomputable def realTwo : Geometry ℝ :=
  let col (c j i : Nat) : ℝ := ((octVertex (twoCell c (j + 1)) i - octVertex (twoCell c 0) i : Rat) : ℝ)
  { point := fun c x i => ((octVertex (twoCell c 0) i : Rat) : ℝ) + x.getD 0 0 * col c 0 i + x.getD 1 0 * col c 1 i
    normal := fun c _ i =>
      ((octVertex (twoCell c 0) i + octVertex (twoCell c 1) i + octVertex (twoCell c 2) i : Rat) : ℝ) / Real.sqrt 3
    jacobian := fun c _ j => col c (j / 3) (j % 3)
    jdet := fun _ _ => Real.sqrt 3 }

/-- The Laplace hypersingular operator on two triangles on two processes, with 53 binary digits and the cut-off of the
code: the two matrices add up to the serial one. -/
example : ∃ (trial : Nat → Space (Fl real53) (Fl real53)) (trialS : Space (Fl real53) (Fl real53))
    (P : Nat → Csr (Fl real53)) (M : Csr (Fl real53)) (pT pR : Nat → Nat),
    let asm := Laplace.hypersingular (T := Fl real53) (R := Fl real53) (kernelOf laplaceGreen) smallOptions
    (∀ r, r < 2 → AssembleSingular env53 asm (trial r) (trial r) (some (P r))) ∧
    AssembleSingular env53 asm trialS trialS (some M) ∧
    ∀ i j, i < trialS.fs.globalSize → j < trialS.fs.globalSize →
      let terms := singularTerms trialS.fs trialS.fs (pT i) (pR j)
      ‖(P 0).val.entry i j + (P 1).val.entry i j - M.val.entry (pT i) (pR j)‖ ≤
        2 * (((1 + 2⁻¹ ^ 53) ^ (10 + 3 + 2 + terms) - 1) *
          absSingular laplaceGreen realTwo realP1 realP1 realRules trialS.fs trialS.fs (pT i) (pR j) curlCurlAbsF +
          terms * (1/10000000000)) := by
  obtain ⟨trial, trialS, h, -⟩ := twoSetting_of (R := Fl real53) (T := Fl real53) (env := env53)
    (asm := Laplace.hypersingular (kernelOf laplaceGreen) smallOptions) realP1 (F := curlCurlF) (K := laplaceGreen)
    (Q := realRules) (OperatorWith.laplaceHypersingular (cast := castFl) (kernelOf_computes laplaceGreen _)).computes.1
    realEnv_singular realTwo
  obtain ⟨P, M, pT, pR, -, -, h1, h2, h3⟩ := C92_matrices (A := real53) (B := real53) (N := 2) (δ := 1/10000000000)
    (by positivity) h rfl .hypersingular (by decide)
    (fun _ _ _ _ _ _ _ _ => ⟨(Real.sqrt_pos.mpr (by norm_num)).ne', (Real.sqrt_pos.mpr (by norm_num)).ne'⟩)
    (fun _ _ _ _ => by simp [realRules]) env53_fromAij (by norm_num) (fun x hx => by
      have : ¬ (1/10000000000 < |x.val|) := of_decide_eq_false hx
      rw [Real.norm_eq_abs]
      exact not_lt.mp this)
  refine ⟨trial, trialS, P, M, pT, pR, fun r hr => (h1 r hr _).mpr rfl, (h2 _).mpr rfl, fun i j hi hj => ?_⟩
  have := (h3 i j hi hj).2.2
  simpa [List.range_succ] using this

end Examples
end Bempp
