import Verif.Props.Convergence
import Verif.Props.Rounding
/-
C77: with enough quadrature points and enough digits, the computed matrix is as close to the Galerkin matrix as the
user wants.
-/
namespace Bempp
open Filter Topology

/-- There are only finitely many ways in which two cells can touch each other. -/
theorem possible_finite (t t' : CellType) : {con : Connectivity | con.Possible t t'}.Finite := by
  let V := Finset.range (refCount t 0) ×ˢ Finset.range (refCount t' 0)
  have h1 : Set.Finite ((fun p : Nat × Nat => (⟨0, [p]⟩ : Connectivity)) '' (V : Set (Nat × Nat))) :=
    V.finite_toSet.image _
  have h2 : Set.Finite ((fun p : (Nat × Nat) × (Nat × Nat) =>
      (⟨1, [(p.1.1, p.2.1), (p.1.2, p.2.2)]⟩ : Connectivity)) ''
      {p | (p.1 ∈ refEdges t ∨ (p.1.2, p.1.1) ∈ refEdges t) ∧ p.2 ∈ refEdges t'}) := by
    apply Set.Finite.image
    have a : {q | q ∈ refEdges t}.Finite := (refEdges t).finite_toSet
    have b : {q | q ∈ refEdges t'}.Finite := (refEdges t').finite_toSet
    refine ((a.union (a.image Prod.swap)).prod b).subset ?_
    rintro ⟨p, q⟩ ⟨hp, hq⟩
    refine ⟨?_, hq⟩
    rcases hp with hp | hp
    · exact .inl hp
    · exact .inr ⟨_, hp, rfl⟩
  refine ((h1.union h2).union
    (Set.finite_singleton ⟨2, (List.range (refCount t 0)).map fun i => (i, i)⟩)).subset ?_
  intro con hcon
  cases hcon with
  | vertex hi hj => exact .inl (.inl ⟨_, by simp [V, hi, hj], rfl⟩)
  | @edge a b c d hab hcd => exact .inl (.inr ⟨((a, b), (c, d)), ⟨hab, hcd⟩, rfl⟩)
  | same => exact .inr rfl

/-- For small `u`, `(1 + u) ^ k` is close to 1. -/
theorem small_roundoff (k : Nat) (S : ℝ) {ε : ℝ} (hε : 0 < ε) :
    ∃ u₀ > 0, ∀ u, 0 ≤ u → u ≤ u₀ → ((1 + u) ^ k - 1) * S ≤ ε := by
  have h : Tendsto (fun u : ℝ => ((1 + u) ^ k - 1) * S) (𝓝 0) (𝓝 (((1 + 0) ^ k - 1) * S)) :=
    Continuous.tendsto (by fun_prop) 0
  rw [show ((1 + (0 : ℝ)) ^ k - 1) * S = 0 by simp] at h
  obtain ⟨d, hd, hb⟩ := Metric.eventually_nhds_iff.mp (h.eventually (gt_mem_nhds hε))
  refine ⟨d / 2, by positivity, fun u h0 h1 => (hb ?_).le⟩
  rw [dist_zero_right, Real.norm_eq_abs, abs_of_nonneg h0]
  linarith

/-- The same for finitely many pairs at once. -/
theorem small_roundoffs (m n : Nat) (k : Nat → Nat → Nat) (S : Nat → Nat → ℝ) {ε : ℝ} (hε : 0 < ε) :
    ∃ u₀ > 0, ∀ u, 0 ≤ u → u ≤ u₀ → ∀ i j, i < m → j < n → ((1 + u) ^ k i j - 1) * S i j ≤ ε := by
  choose f hf hb using fun p : Nat × Nat => small_roundoff (k p.1 p.2) (S p.1 p.2) hε
  let D := (Finset.range m ×ˢ Finset.range n).image f ∪ {1}
  have hD : D.Nonempty := ⟨1, by simp [D]⟩
  refine ⟨D.min' hD, ?_, fun u h0 h1 i j hi hj => hb (i, j) u h0 (h1.trans (D.min'_le _ ?_))⟩
  · rw [gt_iff_lt, Finset.lt_min'_iff]
    intro y hy
    simp only [D, Finset.mem_union, Finset.mem_image, Finset.mem_singleton] at hy
    rcases hy with ⟨p, _, rfl⟩ | rfl
    · exact hf p
    · exact one_pos
  · simp only [D, Finset.mem_union, Finset.mem_image, Finset.mem_product, Finset.mem_range]
    exact .inl ⟨(i, j), ⟨hi, hj⟩, rfl⟩

/-- **C77.** For every tolerance there is a number of quadrature points from which on every arithmetic with enough
digits gives a matrix whose entries are all within the tolerance of the Galerkin matrix, for all schedules. -/
theorem C77_accuracy {T : Type} [RCLike T] {test trial : FunctionSpace} {famT famR : CellType → ElementDofs}
    {F' : MathIntegrand T} {W : MathIntegrand ℝ} {k : Nat} {K : MathKernel ℝ T} {GT GR : Geometry ℝ} {BT BR : Basis ℝ T}
    {Q : Nat → Quadrature ℝ} {t : CellType}
    (hsT : SerialSpace test famT) (hsR : SerialSpace trial famR)
    (htT : test.grid.entityTypes 2 = [t]) (htR : trial.grid.entityTypes 2 = [t])
    (hF : OperatorFormula F') (hK : ContinuousKernel K)
    (hT : ∀ c ∈ test.grid.entityIter 2, ContinuousCell GT t c.localIndex)
    (hR : ∀ c ∈ trial.grid.entityIter 2, ContinuousCell GR t c.localIndex)
    (hBT : ContinuousBasis BT t (famT t).dim) (hBR : ContinuousBasis BR t (famR t).dim)
    (hd : ∀ c ∈ test.grid.entityIter 2, ∀ c' ∈ trial.grid.entityIter 2,
      ¬ (test.grid.addr = trial.grid.addr ∧ c.Touches c') → DisjointCells GT GR t c.localIndex c'.localIndex)
    (hreg : RulesConverge (refCell t) fun n => (Q n).regular t)
    (hsing : ∀ c ∈ test.grid.entityIter 2, ∀ c' ∈ trial.grid.entityIter 2,
      test.grid.addr = trial.grid.addr → c.Touches c' → ∀ a b, a < (famT t).dim → b < (famR t).dim →
      PairRulesConverge (refCell t) (fun n => (Q n).singular t t (connectivity c c'))
        (pairIntegrand F' K GT GR BT BR t c.localIndex c'.localIndex a b))
    (hnodes : ∀ n (con : Connectivity), con.Possible t t → ∀ p ∈ (Q n).singular t t con,
      (∃ z ∈ refCell t, p.1 = pointList z) ∧ ∃ z ∈ refCell t, p.2.1 = pointList z)
    {ε : ℝ} (hε : 0 < ε) :
    ∃ n₀, ∀ n ≥ n₀, ∃ u₀ > 0, ∀ u, 0 ≤ u → u ≤ u₀ → ∀ (A : Arith ℝ u) (B : Arith T u) (env : Env (Fl A) (Fl B))
      (o : Options) (asm : Assembler (Fl A) (Fl B)) (trialS testS : Space (Fl A) (Fl B)) (F : MathIntegrand (Fl B)),
      env.cast = castFl → trialS.fs = trial → testS.fs = test →
      SpacePair (R := Fl A) (T := Fl B) env o trialS testS famT famR GT GR BT BR (Q n) t →
      OperatorWith env.cast o K asm F → Rounded A B F F' W k → 0 < o.batchSize →
      ∃ M : List (Fl B), (∀ out, Assemble env asm trialS testS out ↔ out = some M) ∧
        M.length = test.globalSize * trial.globalSize ∧
        ∀ i j, i < test.globalSize → j < trial.globalSize → ∃ x, M[i + test.globalSize * j]? = some x ∧
          ‖x.val - doubleSum test trial (pairIntegral F' K GT GR BT BR t) i j‖ ≤ ε := by
  have hlim : ∀ i j, ∀ᶠ n in atTop, ‖exactEntry K GT GR BT BR (Q n) test trial i j F' -
      doubleSum test trial (pairIntegral F' K GT GR BT BR t) i j‖ < ε / 2 := by
    intro i j
    have := doubleSum_tendsto (cast := algebraMap ℝ T) (Q := Q) (fun _ => rfl) hsT hsR htT htR hF hK hT hR hBT hBR hd
      hreg hsing i j
    have := (Metric.tendsto_nhds.mp this) (ε / 2) (by positivity)
    simpa only [dist_eq_norm, exactEntry] using this
  have hall : ∀ᶠ n in atTop, ∀ p ∈ Finset.range test.globalSize ×ˢ Finset.range trial.globalSize,
      ‖exactEntry K GT GR BT BR (Q n) test trial p.1 p.2 F' -
        doubleSum test trial (pairIntegral F' K GT GR BT BR t) p.1 p.2‖ < ε / 2 :=
    (Finset.eventually_all _).mpr fun p _ => hlim p.1 p.2
  obtain ⟨n₀, hn₀⟩ := eventually_atTop.mp hall
  refine ⟨n₀, fun n hn => ?_⟩
  obtain ⟨N₁, hN₁⟩ : ∃ N, ∀ con, con.Possible t t → ((Q n).singular t t con).length ≤ N := by
    obtain ⟨N, hN⟩ := ((possible_finite t t).image fun con => ((Q n).singular t t con).length).bddAbove
    exact ⟨N, fun con h => hN ⟨con, h, rfl⟩⟩
  let N := max (((Q n).regular t).length * ((Q n).regular t).length) N₁
  obtain ⟨u₀, hu₀, hb⟩ := small_roundoffs test.globalSize trial.globalSize
    (fun i j => k + 4 + N + entryTerms test trial i j)
    (fun i j => absEntry K GT GR BT BR (Q n) test trial i j W) (half_pos hε)
  have node : ∀ x, (Q n).Node t x → ∃ z ∈ refCell t, x = pointList z := by
    rintro x (⟨p, hp, rfl⟩ | ⟨con, hcon, p, hp, rfl | rfl⟩)
    · exact hreg.nodes n p hp
    · exact (hnodes n con hcon p hp).1
    · exact (hnodes n con hcon p hp).2
  have hT' : ∀ c ∈ test.grid.entityIter 2, ∀ x, (Q n).Node t x → GT.jdet c.localIndex x ≠ 0 := by
    intro c hc x hx
    obtain ⟨z, hz, rfl⟩ := node x hx
    exact (hT c hc).jdet_ne z hz
  have hR' : ∀ c ∈ trial.grid.entityIter 2, ∀ x, (Q n).Node t x → GR.jdet c.localIndex x ≠ 0 := by
    intro c hc x hx
    obtain ⟨z, hz, rfl⟩ := node x hx
    exact (hR c hc).jdet_ne z hz
  refine ⟨u₀, hu₀, ?_⟩
  rintro u h0 h1 A B env o asm trialS testS F hcast rfl rfl hp ho hr hbs
  obtain ⟨M, m1, m2, m3⟩ := C63_rounding h0 hp hcast ho hr hbs hT' hR' (le_max_left _ N₁)
    (fun con h => (hN₁ con h).trans (le_max_right _ _))
  refine ⟨M, m1, m2, fun i j hi hj => ?_⟩
  obtain ⟨x, e, hx⟩ := m3 i j hi hj
  refine ⟨x, e, ?_⟩
  have h3 := hn₀ n hn (i, j) (by simp [hi, hj])
  have h4 := hb u h0 h1 i j hi hj
  calc _ ≤ ‖x.val - exactEntry K GT GR BT BR (Q n) testS.fs trialS.fs i j F'‖ +
        ‖exactEntry K GT GR BT BR (Q n) testS.fs trialS.fs i j F' -
          doubleSum testS.fs trialS.fs (pairIntegral F' K GT GR BT BR t) i j‖ := norm_sub_le_norm_sub_add_norm_sub _ _ _
    _ ≤ ε / 2 + ε / 2 := add_le_add (hx.trans h4) h3.le
    _ = ε := add_halves ε

/-! ### C77: the hypotheses can be met, with any number of digits -/

namespace Examples

/-- Rounding to the nearest number with `p + 1` binary digits; the exponent is unbounded. -/
noncomputable def roundTo (p : Nat) (x : ℝ) : ℝ := round (x / 2 ^ (Int.log 2 |x| - p)) * 2 ^ (Int.log 2 |x| - p)

theorem roundTo_err (p : Nat) (x : ℝ) : ‖roundTo p x - x‖ ≤ 2⁻¹ ^ (p + 1) * ‖x‖ := by
  rw [Real.norm_eq_abs, Real.norm_eq_abs]
  by_cases h : x = 0
  · subst h; simp [roundTo]
  · have hx : 0 < |x| := abs_pos.mpr h
    have pos : (0 : ℝ) < 2 ^ (Int.log 2 |x| - p) := by positivity
    have e : roundTo p x - x = -((x / 2 ^ (Int.log 2 |x| - p) - round (x / 2 ^ (Int.log 2 |x| - p))) *
        2 ^ (Int.log 2 |x| - p)) := by
      unfold roundTo
      rw [sub_mul, div_mul_cancel₀ _ pos.ne']
      ring
    rw [e, abs_neg, abs_mul, abs_of_pos pos]
    have h1 := abs_sub_round (x / 2 ^ (Int.log 2 |x| - p))
    have h2 : ((2 : ℕ) : ℝ) ^ Int.log 2 |x| ≤ |x| := Int.zpow_log_le_self (by norm_num) hx
    have h3 : (2 : ℝ) ^ (Int.log 2 |x| - p) = 2 ^ Int.log 2 |x| * 2⁻¹ ^ p := by
      rw [zpow_sub₀ (by norm_num), div_eq_mul_inv, inv_pow]
      norm_cast
    calc _ ≤ 1 / 2 * 2 ^ (Int.log 2 |x| - p) := mul_le_mul_of_nonneg_right h1 pos.le
      _ = 2⁻¹ ^ (p + 1) * 2 ^ Int.log 2 |x| := by rw [h3]; ring
      _ ≤ 2⁻¹ ^ (p + 1) * |x| := mul_le_mul_of_nonneg_left (by exact_mod_cast h2) (by positivity)

/-- Arithmetic with `p + 1` binary digits. -/
noncomputable def digits (p : Nat) : Arith ℝ (2⁻¹ ^ (p + 1)) := Arith.ofRound (roundTo p) (roundTo_err p)

noncomputable def digitsEnv (p : Nat) : Env (Fl (digits p)) (Fl (digits p)) := latticeEnv

noncomputable def digitsSpace (p : Nat) (fs : FunctionSpace) (v : Nat → Nat → Nat → ℝ) :
    Space (Fl (digits p)) (Fl (digits p)) := Examples.spaceOf fs p1 (vertexGeometry triangleFunctions v) realP1

/-- C77: the Laplace double layer matrix for two octahedra can be computed with any accuracy. -/
example : ∃ fs fs', SerialSpace fs p1 ∧ SerialSpace fs' p1 ∧ fs.grid = octahedron ∧ fs'.grid = octahedron' ∧
    ∀ ε > 0, ∃ n₀, ∀ n ≥ n₀, ∃ p₀, ∀ p ≥ p₀, ∃ M : List (Fl (digits p)),
      (∀ out, Assemble (digitsEnv p) (Laplace.doubleLayer (T := Fl (digits p)) (R := Fl (digits p))
        (kernelOf laplaceGreen) (latticeOptions n)) (digitsSpace p fs octVertices)
        (digitsSpace p fs' shiftedVertices) out ↔ out = some M) ∧
      M.length = fs'.globalSize * fs.globalSize ∧
      ∀ i j, i < fs'.globalSize → j < fs.globalSize → ∃ x, M[i + fs'.globalSize * j]? = some x ∧
        ‖x.val - doubleSum fs' fs (pairIntegral dlF laplaceGreen (vertexGeometry triangleFunctions shiftedVertices)
            (vertexGeometry triangleFunctions octVertices) realP1 realP1 .triangle) i j‖ ≤ ε := by
  obtain ⟨fs, h, hg⟩ := octSpace
  obtain ⟨fs', h', hg'⟩ := octSpace'
  have hne : fs'.grid.addr ≠ fs.grid.addr := by rw [hg, hg']; decide
  refine ⟨fs, fs', h, h', hg, hg', fun ε hε => ?_⟩
  obtain ⟨n₀, hn₀⟩ := C77_accuracy (F' := dlF) (W := dlF) (k := 5) (K := laplaceGreen) (Q := latticeRules)
    (GT := vertexGeometry triangleFunctions shiftedVertices) (GR := vertexGeometry triangleFunctions octVertices)
    h' h (by rw [hg']; decide) (by rw [hg]; decide) .doubleLayer laplaceGreen_continuous
    (fun c hc => continuousCell_vertices triangleFunctions_continuous _ _ _ fun z _ => shifted_jdet (hg' ▸ hc) z)
    (fun c hc => continuousCell_vertices triangleFunctions_continuous _ _ _ fun z _ => unshifted_jdet (hg ▸ hc) z)
    (realP1_continuous _) (realP1_continuous _) (fun c hc c' hc' _ => shifted_disjoint (hg' ▸ hc) (hg ▸ hc'))
    triangleRule_converges (fun c _ c' _ e => absurd e hne)
    (fun n con _ p hp => by
      simp only [latticeRules, List.mem_flatMap, List.mem_map] at hp
      obtain ⟨a, ha, b, hb, rfl⟩ := hp
      exact ⟨triangleRule_converges.nodes n a ha, triangleRule_converges.nodes n b hb⟩) hε
  refine ⟨n₀, fun n hn => ?_⟩
  obtain ⟨u₀, hu₀, hb⟩ := hn₀ n hn
  obtain ⟨p₀, hp₀⟩ := exists_pow_lt_of_lt_one hu₀ (show (2⁻¹ : ℝ) < 1 by norm_num)
  refine ⟨p₀, fun p hp => hb _ (by positivity) ?_ (digits p) (digits p) (digitsEnv p) (latticeOptions n) _ _ _ dlF rfl
    rfl rfl (lattice_pair h h' hg hg' n)
    (.laplaceDoubleLayer (R := Fl (digits p)) (T := Fl (digits p)) (kernelOf_computes laplaceGreen _)) .doubleLayer
    (by show 0 < 128; decide)⟩
  exact (pow_le_pow_of_le_one (by norm_num) (by norm_num) (by omega)).trans hp₀.le

end Examples

end Bempp
