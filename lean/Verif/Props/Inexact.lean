import Verif.Proofs.Inexact
import Verif.Props.Accuracy
/-
C78: the values of the kernel, the geometry and the basis functions, and the nodes and weights of the quadrature rules have
errors as well.
-/
namespace Bempp
open Filter Topology

section
variable {𝕜 : Type} [NormedField 𝕜] [NormedAlgebra ℝ 𝕜] {e : ℝ} {D D' : OperatorData 𝕜} {S : OperatorData ℝ}
  {Q Q' : Quadrature ℝ} {t : CellType} {famT famR : CellType → ElementDofs} {F' : MathIntegrand 𝕜} {W : MathIntegrand ℝ}
  {n m N : Nat}

/-- The entries in exact arithmetic for inexact data, and the sums of absolute values. -/
theorem dataEntry_within {test trial : FunctionSpace} (hsT : SerialSpace test famT) (hsR : SerialSpace trial famR)
    (htT : test.grid.entityTypes 2 = [t]) (htR : trial.grid.entityTypes 2 = [t])
    (hcon : ∀ c ∈ test.grid.entityIter 2, ∀ c' ∈ trial.grid.entityIter 2, test.grid.addr = trial.grid.addr →
      c.Touches c' → (connectivity c c').Possible t t)
    (hF : Factors F' W m) (he : 0 ≤ e) (h : D.Within e D' S Q Q' test trial t (famT t).dim (famR t).dim) (i j : Nat) :
    ‖dataEntry D Q test trial i j F' - dataEntry D' Q' test trial i j F'‖ ≤
      ((1 + e) ^ m - 1) * scaleEntry S Q' test trial i j W ∧
    absEntry D.kernel D.testGeometry D.trialGeometry D.testBasis D.trialBasis Q test trial i j W ≤
      (1 + e) ^ m * scaleEntry S Q' test trial i j W := by
  have key := fun c (hc : c ∈ test.grid.entityIter 2) c' (hc' : c' ∈ trial.grid.entityIter 2) a b
      (ha : a < ((test.cellDofs c.localIndex).getD []).length)
      (hb : b < ((trial.cellDofs c'.localIndex).getD []).length) => by
    have ht : c.entityType = t := by
      have := hsT.wf.types c hc
      rw [htT] at this
      simpa using this
    have ht' : c'.entityType = t := by
      have := hsR.wf.types c' hc'
      rw [htR] at this
      simpa using this
    refine h.value (a := a) (b := b) hF he hc hc' ht ht' (hcon c hc c' hc') ?_ ?_
    · obtain ⟨cd, k1, k2, k3, _⟩ := hsT.cell hc
      rw [← ht, ← k3]
      have e : ((test.cellDofs c.localIndex).getD []) = cd := by rw [cellDofs_eq]; exact k2
      rwa [e] at ha
    · obtain ⟨cd, k1, k2, k3, _⟩ := hsR.cell hc'
      rw [← ht', ← k3]
      have e : ((trial.cellDofs c'.localIndex).getD []) = cd := by rw [cellDofs_eq]; exact k2
      rwa [e] at hb
  constructor
  · have := doubleSum_bound_dofs (test := test) (trial := trial) _ _ _
      (fun c hc c' hc' a b ha hb => (key c hc c' hc' a b ha hb).1.1) i j
    rw [doubleSum_const_mul] at this
    exact this
  · have := doubleSum_bound_dofs (𝕜 := ℝ) (test := test) (trial := trial) _ (fun _ _ _ _ => 0) _
      (fun c hc c' hc' a b ha hb => (le_of_eq (by rw [sub_zero, Real.norm_eq_abs])).trans
        (key c hc c' hc' a b ha hb).2) i j
    rw [doubleSum_const_mul] at this
    have e0 : doubleSum test trial (fun _ _ _ _ => (0 : ℝ)) i j = 0 := by simp [doubleSum]
    rw [e0, sub_zero] at this
    exact (le_abs_self _).trans this

variable {u : ℝ} {A : Arith ℝ u} {B : Arith 𝕜 u} {env : Env (Fl A) (Fl B)} {asm : Assembler (Fl A) (Fl B)}
  {trial test : Space (Fl A) (Fl B)} {o : Options} {F : MathIntegrand (Fl B)}

/-- The connectivities of touching cells. -/
theorem SpacePair.connectivity_possible {R T : Type} [Zero R] [Add R] [Mul R] [Zero T] [Add T] [Mul T] {env : Env R T}
    {o : Options} {trial test : Space R T} {GT GR : Geometry R} {BT BR : Basis R T} {Q : Quadrature R}
    (h : SpacePair env o trial test famT famR GT GR BT BR Q t) {c c' : Entity} (hc : c ∈ test.fs.grid.entityIter 2)
    (hc' : c' ∈ trial.fs.grid.entityIter 2) (hs : test.fs.grid.addr = trial.fs.grid.addr) (ht : c.Touches c') :
    (connectivity c c').Possible t t := by
  obtain ⟨e, _, _, ⟨ev, ed, co⟩, _⟩ := h.same hs
  have t1 : c.entityType = t := by
    have := h.testSpace.wf.types c hc
    rw [h.testType] at this
    simpa using this
  have t2 : c'.entityType = t := by
    have := h.trialSpace.wf.types c' hc'
    rw [h.trialType] at this
    simpa using this
  rw [e] at hc'
  obtain ⟨h1, h2⟩ := sharedVertices_possible h.testSpace.wf ed co hc hc' ht
  obtain ⟨_, h3⟩ := possiblePairs_possible (h.testSpace.wf.cell_types _ (h.testSpace.wf.types c hc)) h1
  rwa [h2, t1, t2] at h3

theorem zip_of_mem {α β : Type} {R : α → β → Prop} {l : List α} {l' : List β} (h : List.Forall₂ R l l') {p : α}
    (hp : p ∈ l) : ∃ q, (p, q) ∈ l.zip l' := by
  induction h with
  | nil => simp at hp
  | @cons a b l l' _ _ ih =>
    rcases List.mem_cons.mp hp with rfl | hp
    · exact ⟨b, by simp⟩
    · obtain ⟨q, hq⟩ := ih hp
      exact ⟨q, by simp [hq]⟩

/-- Every node has a node at the same place in the other rules. -/
theorem Quadrature.Within.nodes (h : Q.Within e Q' t) {x : List ℝ} (hx : Q.Node t x) : ∃ x', Q.Nodes Q' t x x' := by
  rcases hx with ⟨p, hp, rfl⟩ | ⟨con, hc, p, hp, hx⟩
  · obtain ⟨q, hq⟩ := zip_of_mem h.regular hp
    exact ⟨q.1, .inl ⟨_, hq, rfl, rfl⟩⟩
  · obtain ⟨q, hq⟩ := zip_of_mem (h.singular con hc) hp
    rcases hx with rfl | rfl
    · exact ⟨q.1, .inr ⟨con, hc, _, hq, .inl ⟨rfl, rfl⟩⟩⟩
    · exact ⟨q.2.1, .inr ⟨con, hc, _, hq, .inr ⟨rfl, rfl⟩⟩⟩

/-- **C78.** The libraries return kernel values, geometry, basis functions `D` and quadrature rules `Q` that are the exact
ones `D'` and `Q'` up to `e` times the scales in `S`, and every operation has a relative error of at most `u`. Then entry
`(i, j)` differs from the entry in exact arithmetic for the exact data and rules by at most
`((1 + u) ^ k * (1 + e) ^ m - 1) * S`: `k` is the number of roundings as in C63, `m` is the number of inexact factors in a
product (7 for single layer, 8 for double layer and adjoint, 11 for hypersingular operators), and `S` is the sum of the
scales of all terms. -/
theorem C78_inexact (hu : 0 ≤ u) (he : 0 ≤ e)
    (h : SpacePair (R := Fl A) (T := Fl B) env o trial test famT famR D.testGeometry D.trialGeometry D.testBasis
      D.trialBasis Q t)
    (hcast : env.cast = castFl) (ho : OperatorWith env.cast o D.kernel asm F)
    (hF : Rounded A B F F' W n) (hF' : Factors F' W m) (hb : 0 < o.batchSize)
    (hD : D.Within e D' S Q Q' test.fs trial.fs t (famT t).dim (famR t).dim)
    (hN : (Q'.regular t).length * (Q'.regular t).length ≤ N)
    (hN' : ∀ con, con.Possible t t → (Q'.singular t t con).length ≤ N) :
    ∃ M : List (Fl B), (∀ out, Assemble env asm trial test out ↔ out = some M) ∧
      M.length = test.fs.globalSize * trial.fs.globalSize ∧
      ∀ i j, i < test.fs.globalSize → j < trial.fs.globalSize →
        ∃ x, M[i + test.fs.globalSize * j]? = some x ∧
          ‖x.val - dataEntry D' Q' test.fs trial.fs i j F'‖ ≤
            ((1 + u) ^ (n + 4 + N + entryTerms test.fs trial.fs i j) * (1 + e) ^ m - 1) *
              scaleEntry S Q' test.fs trial.fs i j W := by
  obtain ⟨M, m1, m2, m3⟩ := C63_rounding (N := N) hu h hcast ho hF hb
    (fun c hc x hx => by
      obtain ⟨x', hx'⟩ := hD.weights.nodes hx
      exact (hD.testGeometry c hc x x' hx').ne)
    (fun c hc x hx => by
      obtain ⟨x', hx'⟩ := hD.weights.nodes hx
      exact (hD.trialGeometry c hc x x' hx').ne)
    (by rw [hD.weights.regular.length_eq]; exact hN)
    (fun con hc => by rw [(hD.weights.singular con hc).length_eq]; exact hN' con hc)
  refine ⟨M, m1, m2, fun i j hi hj => ?_⟩
  obtain ⟨x, x1, x2⟩ := m3 i j hi hj
  refine ⟨x, x1, ?_⟩
  obtain ⟨d1, d2⟩ := dataEntry_within h.testSpace h.trialSpace h.testType h.trialType
    (fun c hc c' hc' hs ht => h.connectivity_possible hc hc' hs ht) hF' he hD i j
  have p := sub_nonneg.mpr (one_le_pow_u hu (n + 4 + N + entryTerms test.fs trial.fs i j))
  have d3 := mul_le_mul_of_nonneg_left d2 p
  calc _ ≤ ‖x.val - dataEntry D Q test.fs trial.fs i j F'‖ +
        ‖dataEntry D Q test.fs trial.fs i j F' - dataEntry D' Q' test.fs trial.fs i j F'‖ :=
      norm_sub_le_norm_sub_add_norm_sub _ _ _
    _ ≤ _ := add_le_add (x2.trans d3) d1
    _ = _ := by ring

end

/-- **C78.** For every tolerance there is a number of quadrature points from which on all entries are within the
tolerance of the Galerkin matrix of the exact data, if the arithmetic, the values and the quadrature rules that the
libraries return are accurate enough. -/
theorem C78_accuracy {T : Type} [RCLike T] {test trial : FunctionSpace} {famT famR : CellType → ElementDofs}
    {F' : MathIntegrand T} {W : MathIntegrand ℝ} {k m : Nat} {D' : OperatorData T} {S : OperatorData ℝ}
    {Q : Nat → Quadrature ℝ} {t : CellType}
    (hsT : SerialSpace test famT) (hsR : SerialSpace trial famR)
    (htT : test.grid.entityTypes 2 = [t]) (htR : trial.grid.entityTypes 2 = [t])
    (hF : OperatorFormula F') (hF' : Factors F' W m) (hK : ContinuousKernel D'.kernel)
    (hT : ∀ c ∈ test.grid.entityIter 2, ContinuousCell D'.testGeometry t c.localIndex)
    (hR : ∀ c ∈ trial.grid.entityIter 2, ContinuousCell D'.trialGeometry t c.localIndex)
    (hBT : ContinuousBasis D'.testBasis t (famT t).dim) (hBR : ContinuousBasis D'.trialBasis t (famR t).dim)
    (hd : ∀ c ∈ test.grid.entityIter 2, ∀ c' ∈ trial.grid.entityIter 2,
      ¬ (test.grid.addr = trial.grid.addr ∧ c.Touches c') →
        DisjointCells D'.testGeometry D'.trialGeometry t c.localIndex c'.localIndex)
    (hreg : RulesConverge (refCell t) fun n => (Q n).regular t)
    (hsing : ∀ c ∈ test.grid.entityIter 2, ∀ c' ∈ trial.grid.entityIter 2,
      test.grid.addr = trial.grid.addr → c.Touches c' → ∀ a b, a < (famT t).dim → b < (famR t).dim →
      PairRulesConverge (refCell t) (fun n => (Q n).singular t t (connectivity c c'))
        (pairIntegrand F' D'.kernel D'.testGeometry D'.trialGeometry D'.testBasis D'.trialBasis t c.localIndex
          c'.localIndex a b))
    {ε : ℝ} (hε : 0 < ε) :
    ∃ n₀, ∀ n ≥ n₀, ∃ δ > 0, ∀ u e, 0 ≤ u → u ≤ δ → 0 ≤ e → e ≤ δ →
      ∀ (A : Arith ℝ u) (B : Arith T u) (env : Env (Fl A) (Fl B)) (o : Options) (asm : Assembler (Fl A) (Fl B))
        (trialS testS : Space (Fl A) (Fl B)) (F : MathIntegrand (Fl B)) (D : OperatorData T) (Q' : Quadrature ℝ),
      env.cast = castFl → trialS.fs = trial → testS.fs = test →
      SpacePair (R := Fl A) (T := Fl B) env o trialS testS famT famR D.testGeometry D.trialGeometry D.testBasis
        D.trialBasis Q' t →
      OperatorWith env.cast o D.kernel asm F → Rounded A B F F' W k → 0 < o.batchSize →
      D.Within e D' S Q' (Q n) test trial t (famT t).dim (famR t).dim →
      ∃ M : List (Fl B), (∀ out, Assemble env asm trialS testS out ↔ out = some M) ∧
        M.length = test.globalSize * trial.globalSize ∧
        ∀ i j, i < test.globalSize → j < trial.globalSize → ∃ x, M[i + test.globalSize * j]? = some x ∧
          ‖x.val - doubleSum test trial (pairIntegral F' D'.kernel D'.testGeometry D'.trialGeometry D'.testBasis
            D'.trialBasis t) i j‖ ≤ ε := by
  have hlim : ∀ i j, ∀ᶠ n in atTop, ‖dataEntry D' (Q n) test trial i j F' - doubleSum test trial (pairIntegral F'
      D'.kernel D'.testGeometry D'.trialGeometry D'.testBasis D'.trialBasis t) i j‖ < ε / 2 := by
    intro i j
    have := doubleSum_tendsto (cast := algebraMap ℝ T) (Q := Q) (fun _ => rfl) hsT hsR htT htR hF hK hT hR hBT hBR hd
      hreg hsing i j
    have := (Metric.tendsto_nhds.mp this) (ε / 2) (by positivity)
    simpa only [dist_eq_norm, dataEntry, exactEntry] using this
  have hall : ∀ᶠ n in atTop, ∀ p ∈ Finset.range test.globalSize ×ˢ Finset.range trial.globalSize,
      ‖dataEntry D' (Q n) test trial p.1 p.2 F' - doubleSum test trial (pairIntegral F'
        D'.kernel D'.testGeometry D'.trialGeometry D'.testBasis D'.trialBasis t) p.1 p.2‖ < ε / 2 :=
    (Finset.eventually_all _).mpr fun p _ => hlim p.1 p.2
  obtain ⟨n₀, hn₀⟩ := eventually_atTop.mp hall
  refine ⟨n₀, fun n hn => ?_⟩
  obtain ⟨N₁, hN₁⟩ : ∃ N, ∀ con, con.Possible t t → ((Q n).singular t t con).length ≤ N := by
    obtain ⟨N, hN⟩ := ((possible_finite t t).image fun con => ((Q n).singular t t con).length).bddAbove
    exact ⟨N, fun con h => hN ⟨con, h, rfl⟩⟩
  let N := max (((Q n).regular t).length * ((Q n).regular t).length) N₁
  obtain ⟨δ, hδ, hb⟩ := small_roundoffs test.globalSize trial.globalSize
    (fun i j => k + 4 + N + entryTerms test trial i j + m)
    (fun i j => |scaleEntry S (Q n) test trial i j W|) (half_pos hε)
  refine ⟨δ, hδ, ?_⟩
  rintro u e u0 u1 e0 e1 A B env o asm trialS testS F D Q' hcast rfl rfl hp ho hr hbs hD
  obtain ⟨M, m1, m2, m3⟩ := C78_inexact u0 e0 hp hcast ho hr hF' hbs hD (le_max_left _ N₁)
    (fun con h => (hN₁ con h).trans (le_max_right _ _))
  refine ⟨M, m1, m2, fun i j hi hj => ?_⟩
  obtain ⟨x, x1, hx⟩ := m3 i j hi hj
  refine ⟨x, x1, ?_⟩
  have h3 := hn₀ n hn (i, j) (by simp [hi, hj])
  have h4 := hb δ hδ.le le_rfl i j hi hj
  have h5 : ((1 + u) ^ (k + 4 + N + entryTerms testS.fs trialS.fs i j) * (1 + e) ^ m - 1) *
      scaleEntry S (Q n) testS.fs trialS.fs i j W ≤ ε / 2 := by
    refine le_trans ?_ h4
    rw [pow_add (1 + δ) _ m]
    have a1 : (1 + u) ^ (k + 4 + N + entryTerms testS.fs trialS.fs i j) ≤
        (1 + δ) ^ (k + 4 + N + entryTerms testS.fs trialS.fs i j) :=
      pow_le_pow_left₀ (by linarith) (by linarith) _
    have a2 : (1 + e) ^ m ≤ (1 + δ) ^ m := pow_le_pow_left₀ (by linarith) (by linarith) _
    have a3 := mul_le_mul a1 a2 (by positivity) (by positivity)
    have b1 := one_le_pow_u u0 (k + 4 + N + entryTerms testS.fs trialS.fs i j)
    have b2 := one_le_pow_u e0 m
    have b3 : 1 ≤ (1 + u) ^ (k + 4 + N + entryTerms testS.fs trialS.fs i j) * (1 + e) ^ m := by nlinarith
    calc _ ≤ ((1 + u) ^ (k + 4 + N + entryTerms testS.fs trialS.fs i j) * (1 + e) ^ m - 1) *
          |scaleEntry S (Q n) testS.fs trialS.fs i j W| :=
        mul_le_mul_of_nonneg_left (le_abs_self _) (by linarith)
      _ ≤ _ := mul_le_mul_of_nonneg_right (by linarith) (abs_nonneg _)
  calc _ ≤ ‖x.val - dataEntry D' (Q n) testS.fs trialS.fs i j F'‖ +
        ‖dataEntry D' (Q n) testS.fs trialS.fs i j F' - doubleSum testS.fs trialS.fs (pairIntegral F' D'.kernel
          D'.testGeometry D'.trialGeometry D'.testBasis D'.trialBasis t) i j‖ := norm_sub_le_norm_sub_add_norm_sub _ _ _
    _ ≤ ε / 2 + ε / 2 := add_le_add (hx.trans h5) h3.le
    _ = ε := add_halves ε

/-! ### C78: the hypotheses can be met -/

namespace Examples

/-- The exact data of the two octahedra. -/
noncomputable def octData : OperatorData ℝ :=
  { kernel := laplaceGreen
    testGeometry := vertexGeometry triangleFunctions shiftedVertices
    trialGeometry := vertexGeometry triangleFunctions octVertices
    testBasis := realP1
    trialBasis := realP1 }

/-- The kernel with all values rounded to `p + 1` binary digits. -/
noncomputable def roundedGreen (p : Nat) : MathKernel ℝ ℝ := fun x y i => roundTo p (laplaceGreen x y i)

/-- Quadrature rules with weights that are rounded to `p + 1` binary digits. -/
noncomputable def roundedRules (p : Nat) (Q : Quadrature ℝ) : Quadrature ℝ :=
  { regular := fun t => (Q.regular t).map fun x => (x.1, roundTo p x.2)
    singular := fun t t' con => (Q.singular t t' con).map fun x => (x.1, x.2.1, roundTo p x.2.2) }

/-- Libraries that return such rules. -/
noncomputable def roundedEnv (p : Nat) (env : Env ℝ ℝ) : Env ℝ ℝ :=
  { env with
    simplexRule := fun t m => (env.simplexRule t m).map fun r => ⟨r.points, r.weights.map (roundTo p)⟩
    triangleDuffy := fun con m => (env.triangleDuffy con m).map fun r =>
      ⟨r.testPoints, r.trialPoints, r.weights.map (roundTo p)⟩ }

theorem rounded_regular {env : Env ℝ ℝ} {o : Options} {Q : Quadrature ℝ} {t : CellType} (h : RegularOk env o Q t) (p : Nat) :
    RegularOk (roundedEnv p env) o (roundedRules p Q) t where
  degree := by rw [h.degree]; simp [roundedRules]
  rule := by
    show (env.simplexRule t ((Q.regular t).map _).length).map _ = _
    rw [List.length_map, h.rule]
    simp [roundedRules, List.flatMap_map, Function.comp_def]
  points := fun q hq => by
    obtain ⟨x, hx, rfl⟩ := List.mem_map.mp hq
    exact h.points x hx

theorem rounded_singular {env : Env ℝ ℝ} {o : Options} {Q : Quadrature ℝ} (h : SingularOk env o Q .triangle .triangle)
    (p : Nat) : SingularOk (roundedEnv p env) o (roundedRules p Q) .triangle .triangle where
  degree := by
    obtain ⟨n, h1, h2⟩ := h.degree
    refine ⟨n, h1, fun con hc => ?_⟩
    have h3 : env.triangleDuffy con n = _ := h2 con hc
    show (env.triangleDuffy con n).map _ = _
    rw [h3]
    simp [roundedRules, List.flatMap_map, Function.comp_def]
  points := fun con hc q hq => by
    obtain ⟨x, hx, rfl⟩ := List.mem_map.mp hq
    exact h.points con hc x hx

theorem rounded_weights (p : Nat) (Q : Quadrature ℝ) (t : CellType) :
    (roundedRules p Q).Within (2⁻¹ ^ (p + 1)) Q t where
  regular := by
    refine List.forall₂_map_left_iff.mpr (List.forall₂_same.mpr fun x _ => ?_)
    simpa only [Real.norm_eq_abs] using roundTo_err p x.2
  singular := fun con _ => by
    refine List.forall₂_map_left_iff.mpr (List.forall₂_same.mpr fun x _ => ?_)
    simpa only [Real.norm_eq_abs] using roundTo_err p x.2.2

/-- The nodes are not changed. -/
theorem rounded_nodes {p : Nat} {Q : Quadrature ℝ} {t : CellType} {x x' : List ℝ}
    (h : (roundedRules p Q).Nodes Q t x x') : x = x' := by
  have key : ∀ {α β : Type} (f : α → β) (l : List α), ∀ z ∈ (l.map f).zip l, z.1 = f z.2 := by
    intro α β f l z hz
    rw [List.zip_map_left] at hz
    obtain ⟨w, hw, rfl⟩ := List.mem_map.mp hz
    have : w.1 = w.2 := by
      rw [List.zip_eq_zipWith, List.zipWith_self] at hw
      obtain ⟨v, _, rfl⟩ := List.mem_map.mp hw
      rfl
    simp [Prod.map, this]
  rcases h with ⟨z, hz, rfl, rfl⟩ | ⟨con, _, z, hz, ⟨rfl, rfl⟩ | ⟨rfl, rfl⟩⟩
  · rw [key _ _ z hz]
  · rw [key _ _ z hz]
  · rw [key _ _ z hz]

theorem rounded_pairs {p : Nat} {Q : Quadrature ℝ} {test trial : FunctionSpace} {c c' : Entity} {x y x' y' : List ℝ}
    (h : (roundedRules p Q).Pairs Q test trial c c' x y x' y') : x = x' ∧ y = y' := by
  have key : ∀ {α β : Type} (f : α → β) (l : List α), ∀ z ∈ (l.map f).zip l, z.1 = f z.2 := by
    intro α β f l z hz
    rw [List.zip_map_left] at hz
    obtain ⟨w, hw, rfl⟩ := List.mem_map.mp hz
    have : w.1 = w.2 := by
      rw [List.zip_eq_zipWith, List.zipWith_self] at hw
      obtain ⟨v, _, rfl⟩ := List.mem_map.mp hw
      rfl
    simp [Prod.map, this]
  unfold Quadrature.Pairs at h
  split at h
  · obtain ⟨z, hz, rfl, rfl, rfl, rfl⟩ := h
    constructor <;> rw [key _ _ z hz]
  · obtain ⟨⟨z, hz, rfl, rfl⟩, w, hw, rfl, rfl⟩ := h
    constructor
    · rw [key _ _ z hz]
    · rw [key _ _ w hw]

theorem withinAt_self {e : ℝ} (he : 0 ≤ e) (G : Geometry ℝ) (c : Nat) (x : List ℝ) (h : G.jdet c x ≠ 0) :
    Geometry.WithinAt e G G G.abs c x x where
  normal := fun i _ => ⟨by simp only [sub_self, norm_zero]; exact mul_nonneg he (abs_nonneg _), le_rfl⟩
  jacobian := fun i _ => ⟨by simp only [sub_self, norm_zero]; exact mul_nonneg he (abs_nonneg _), le_rfl⟩
  scale := rfl
  jdet := by simp only [sub_self, abs_zero]; exact mul_nonneg he (abs_nonneg _)
  jdet' := by simp only [sub_self, abs_zero]; exact mul_nonneg he (abs_nonneg _)
  pos := h

theorem rounded_within {fs fs' : FunctionSpace} (hg : fs.grid = octahedron) (hg' : fs'.grid = octahedron') (p n : Nat) :
    OperatorData.Within (2⁻¹ ^ (p + 1)) { octData with kernel := roundedGreen p } octData octData.abs
      (roundedRules p (latticeRules n)) (latticeRules n) fs' fs .triangle 3 3 where
  weights := rounded_weights p _ _
  testGeometry := fun c hc x x' hx => by
    obtain rfl := rounded_nodes hx
    refine withinAt_self (by positivity) _ _ _ ?_
    exact oct_jdet (fun i => if i = 0 then 5 else 0) (oct_cells c (by rw [hg'] at hc; exact hc)) _
  trialGeometry := fun c hc x x' hx => by
    obtain rfl := rounded_nodes hx
    refine withinAt_self (by positivity) _ _ _ ?_
    have := oct_jdet (fun _ => 0) (oct_cells c (by rw [hg] at hc; exact hc)) x
    simp only [add_zero] at this
    exact this
  testBasis := fun x x' hx a i _ _ => by
    obtain rfl := rounded_nodes hx
    exact ⟨by simp only [sub_self, norm_zero]; exact mul_nonneg (by positivity) (norm_nonneg _), le_rfl⟩
  trialBasis := fun x x' hx a i _ _ => by
    obtain rfl := rounded_nodes hx
    exact ⟨by simp only [sub_self, norm_zero]; exact mul_nonneg (by positivity) (norm_nonneg _), le_rfl⟩
  kernel := fun c _ c' _ x y x' y' hx i _ => by
    obtain ⟨rfl, rfl⟩ := rounded_pairs hx
    exact ⟨roundTo_err p _, le_rfl⟩

noncomputable def roundedDigitsEnv (p : Nat) : Env (Fl (digits p)) (Fl (digits p)) := roundedEnv p latticeEnv

/-- C78: the Laplace double layer matrix with a rounded kernel and rounded weights in arithmetic with the same number of
digits. -/
example : ∃ fs fs', SerialSpace fs p1 ∧ SerialSpace fs' p1 ∧ fs.grid = octahedron ∧ fs'.grid = octahedron' ∧
    ∀ ε > 0, ∃ n₀, ∀ n ≥ n₀, ∃ p₀, ∀ p ≥ p₀, ∃ M : List (Fl (digits p)),
      (∀ out, Assemble (roundedDigitsEnv p) (Laplace.doubleLayer (T := Fl (digits p)) (R := Fl (digits p))
        (kernelOf (roundedGreen p)) (latticeOptions n)) (digitsSpace p fs octVertices)
        (digitsSpace p fs' shiftedVertices) out ↔ out = some M) ∧
      M.length = fs'.globalSize * fs.globalSize ∧
      ∀ i j, i < fs'.globalSize → j < fs.globalSize → ∃ x, M[i + fs'.globalSize * j]? = some x ∧
        ‖x.val - doubleSum fs' fs (pairIntegral dlF laplaceGreen (vertexGeometry triangleFunctions shiftedVertices)
            (vertexGeometry triangleFunctions octVertices) realP1 realP1 .triangle) i j‖ ≤ ε := by
  obtain ⟨fs, h, hg⟩ := octSpace
  obtain ⟨fs', h', hg'⟩ := octSpace'
  have hne : fs'.grid.addr ≠ fs.grid.addr := by rw [hg, hg']; decide
  refine ⟨fs, fs', h, h', hg, hg', fun ε hε => ?_⟩
  obtain ⟨n₀, hn₀⟩ := C78_accuracy (F' := dlF) (W := dlF) (k := 5) (Q := latticeRules) (D' := octData) (S := octData.abs)
    h' h (by rw [hg']; decide) (by rw [hg]; decide) .doubleLayer .doubleLayer laplaceGreen_continuous
    (fun c hc => continuousCell_vertices triangleFunctions_continuous _ _ _ fun z _ => shifted_jdet (hg' ▸ hc) z)
    (fun c hc => continuousCell_vertices triangleFunctions_continuous _ _ _ fun z _ => unshifted_jdet (hg ▸ hc) z)
    (realP1_continuous _) (realP1_continuous _) (fun c hc c' hc' _ => shifted_disjoint (hg' ▸ hc) (hg ▸ hc'))
    triangleRule_converges (fun c _ c' _ e => absurd e hne) hε
  refine ⟨n₀, fun n hn => ?_⟩
  obtain ⟨δ, hδ, hb⟩ := hn₀ n hn
  obtain ⟨p₀, hp₀⟩ := exists_pow_lt_of_lt_one hδ (show (2⁻¹ : ℝ) < 1 by norm_num)
  have hle : ∀ p ≥ p₀, (2⁻¹ : ℝ) ^ (p + 1) ≤ δ := fun p hp =>
    (pow_le_pow_of_le_one (by norm_num) (by norm_num) (by omega)).trans hp₀.le
  refine ⟨p₀, fun p hp => hb _ _ (by positivity) (hle p hp) (by positivity) (hle p hp) (digits p) (digits p)
    (roundedDigitsEnv p) (latticeOptions n) _ _ _ dlF { octData with kernel := roundedGreen p }
    (roundedRules p (latticeRules n)) rfl rfl rfl
    (show SpacePair (roundedEnv p latticeEnv) _ _ _ _ _ _ _ _ _ _ _ from
      { lattice_pair h h' hg hg' n with
        rule := rounded_regular (lattice_regular n) p
        same := fun e => absurd e hne })
    (.laplaceDoubleLayer (R := Fl (digits p)) (T := Fl (digits p)) (kernelOf_computes (roundedGreen p) _)) .doubleLayer
    (by show 0 < 128; decide) (rounded_within hg hg' p n)⟩

end Examples

end Bempp
