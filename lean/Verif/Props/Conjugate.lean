import Verif.Props.Green
/-
C61: the sign of the wavenumber. C62: the size of the entries of single layer matrices.
-/
set_option linter.unusedSectionVars false

namespace Bempp
open Examples

variable {R T : Type}

theorem sum_hom [AddCommMonoid T] {S : Type} [AddCommMonoid S] (f : T → S) (f0 : f 0 = 0) (fa : ∀ x y, f (x + y) = f x + f y)
    {α : Type} (l : List α) (g : α → T) : f ((l.map g).sum) = (l.map fun x => f (g x)).sum := by
  induction l with
  | nil => exact f0
  | cons x l ih => simp [fa, ih]

theorem doubleSum_hom [AddCommMonoid T] {S : Type} [AddCommMonoid S] (f : T → S) (f0 : f 0 = 0)
    (fa : ∀ x y, f (x + y) = f x + f y) (test trial : FunctionSpace) (v : Entity → Entity → Nat → Nat → T) (i j : Nat) :
    f (doubleSum test trial v i j) = doubleSum test trial (fun c c' a b => f (v c c' a b)) i j := by
  unfold doubleSum
  simp only [sum_hom f f0 fa, apply_ite f, f0]

/-! ### C61 -/

/-- Two Helmholtz operators of the same kind, one with the wavenumber `w` and the other one with `-w`. -/
inductive OppositeWavenumbers (o : Options) (w : ℝ) : Assembler ℝ ℂ → Assembler ℝ ℂ → Prop
  | singleLayer {k k' : ℝ → Kernel ℝ ℂ} : (k w).Computes .value (helmholtzGreen w) →
      (k' (-w)).Computes .value (helmholtzGreen (-w)) →
      OppositeWavenumbers o w (Helmholtz.singleLayer k w o) (Helmholtz.singleLayer k' (-w) o)
  | doubleLayer {k k' : ℝ → Kernel ℝ ℂ} : (k w).Computes .valueDeriv (helmholtzGreen w) →
      (k' (-w)).Computes .valueDeriv (helmholtzGreen (-w)) →
      OppositeWavenumbers o w (Helmholtz.doubleLayer k w o) (Helmholtz.doubleLayer k' (-w) o)
  | adjoint {k k' : ℝ → Kernel ℝ ℂ} : (k w).Computes .valueDeriv (helmholtzGreen w) →
      (k' (-w)).Computes .valueDeriv (helmholtzGreen (-w)) →
      OppositeWavenumbers o w (Helmholtz.adjointDoubleLayer k w o) (Helmholtz.adjointDoubleLayer k' (-w) o)
  | hypersingular {k k' : ℝ → Kernel ℝ ℂ} : (k w).Computes .valueDeriv (helmholtzGreen w) →
      (k' (-w)).Computes .valueDeriv (helmholtzGreen (-w)) →
      OppositeWavenumbers o w (Helmholtz.hypersingular Complex.ofReal k w o)
        (Helmholtz.hypersingular Complex.ofReal k' (-w) o)

/-- The basis functions have real values. -/
def RealBasis (B : Basis ℝ ℂ) : Prop := ∀ t a d x, (starRingEnd ℂ) (B t a d x) = B t a d x

theorem helmholtzGreen_conj (w : ℝ) (x y : List ℝ) (i : Nat) :
    helmholtzGreen (-w) x y i = (starRingEnd ℂ) (helmholtzGreen w x y i) := by
  cases i <;>
  · simp only [helmholtzGreen, map_div₀, map_mul, map_sub, map_one, map_pow, ← Complex.exp_conj, Complex.conj_I,
      Complex.conj_ofReal, Complex.ofReal_neg, map_ofNat]
    ring_nf

section
variable {o : Options} {famT famR : CellType → ElementDofs} {env : Env ℝ ℂ} {asm asm' : Assembler ℝ ℂ}
  {trial test : Space ℝ ℂ} {GT GR : Geometry ℝ} {BT BR : Basis ℝ ℂ} {Q : Quadrature ℝ} {t : CellType} {w : ℝ}

/-- **C61.** The matrix of a Helmholtz operator with the wavenumber `-w` is the complex conjugate of the matrix with the
wavenumber `w`. -/
theorem C61_conjugate (h : SpacePair env o trial test famT famR GT GR BT BR Q t) (hφ : env.cast = Complex.ofReal)
    (ho : OppositeWavenumbers o w asm asm') (hb : 0 < o.batchSize) (rT : RealBasis BT) (rR : RealBasis BR) :
    ∃ M : List ℂ, (∀ out, Assemble env asm trial test out ↔ out = some M) ∧
      (∀ out, Assemble env asm' trial test out ↔ out = some (M.map (starRingEnd ℂ))) := by
  have key : ∃ F F', OperatorWith env.cast o (helmholtzGreen w) asm F ∧
      OperatorWith env.cast o (helmholtzGreen (-w)) asm' F' ∧
      ∀ (K U V : Nat → ℂ) (TG RG : PointData ℂ), (∀ i, (starRingEnd ℂ) (U i) = U i) → (∀ i, (starRingEnd ℂ) (V i) = V i) →
        (∀ i, (starRingEnd ℂ) (TG.normal i) = TG.normal i) → (∀ i, (starRingEnd ℂ) (RG.normal i) = RG.normal i) →
        (∀ i, (starRingEnd ℂ) (TG.jacobian i) = TG.jacobian i) → (∀ i, (starRingEnd ℂ) (RG.jacobian i) = RG.jacobian i) →
        (starRingEnd ℂ) TG.jdet = TG.jdet → (starRingEnd ℂ) RG.jdet = RG.jdet →
        (starRingEnd ℂ) (F K U V TG RG) = F' (fun i => (starRingEnd ℂ) (K i)) U V TG RG := by
    rw [hφ]
    cases ho with
    | singleLayer h1 h2 =>
      refine ⟨_, _, .helmholtzSingleLayer h1, .helmholtzSingleLayer h2, ?_⟩
      intro K U V TG RG hU hV a b c d e f
      simp only [slF, map_mul, hU, hV]
    | doubleLayer h1 h2 =>
      refine ⟨_, _, .helmholtzDoubleLayer h1, .helmholtzDoubleLayer h2, ?_⟩
      intro K U V TG RG hU hV a b c d e f
      simp only [dlF, map_mul, map_add, hU, hV, b]
    | adjoint h1 h2 =>
      refine ⟨_, _, .helmholtzAdjoint h1, .helmholtzAdjoint h2, ?_⟩
      intro K U V TG RG hU hV a b c d e f
      simp only [adlF, map_mul, map_add, map_neg, hU, hV, a]
    | hypersingular h1 h2 =>
      refine ⟨_, _, .helmholtzHypersingular h1, .helmholtzHypersingular h2, ?_⟩
      intro K U V TG RG hU hV a b c d e f
      simp only [helmholtzHypF, curlCurlF, normalNormalF, surfaceCurl, map_mul, map_add, map_sub, map_div₀, hU, hV,
        a, b, c, d, e, f, Complex.conj_ofReal]
      simp
  obtain ⟨F, F', k1, k2, k3⟩ := key
  obtain ⟨M, m1, m2, m3⟩ := C14_operators h k1 hb
  obtain ⟨N, n1, n2, n3⟩ := C14_operators h k2 hb
  have hF : ∀ x y (U V : Nat → ℂ) c x' c' y', (∀ i, (starRingEnd ℂ) (U i) = U i) → (∀ i, (starRingEnd ℂ) (V i) = V i) →
      F' (helmholtzGreen (-w) x y) U V (GT.data env.cast c x') (GR.data env.cast c' y') =
      (starRingEnd ℂ) (F (helmholtzGreen w x y) U V (GT.data env.cast c x') (GR.data env.cast c' y')) := by
    intro x y U V c x' c' y' hU hV
    rw [k3 _ U V _ _ hU hV (by simp [Geometry.data, hφ]) (by simp [Geometry.data, hφ]) (by simp [Geometry.data, hφ])
      (by simp [Geometry.data, hφ]) (by simp [Geometry.data, hφ]) (by simp [Geometry.data, hφ])]
    congr 1
    funext i
    exact helmholtzGreen_conj w x y i
  have : N = M.map (starRingEnd ℂ) := by
    refine matrix_ext n2 (by rw [List.length_map]; exact m2) fun i j hi hj => ?_
    rw [List.getElem?_map, m3 i j hi hj, n3 i j hi hj, Option.map_some, Option.some.injEq,
      doubleSum_hom _ (map_zero _) (map_add _)]
    apply doubleSum_congr
    intro c _ c' _ a b
    unfold cellPairValue
    split
    · rw [singularValue_eq, singularValue_eq, sum_hom _ (map_zero _) (map_add _)]
      congr 1
      apply List.map_congr_left
      intro p _
      unfold singularTerm
      rw [map_mul, hF _ _ _ _ _ _ _ _ (fun i => rT _ _ _ _) (fun i => rR _ _ _ _), hφ, Complex.conj_ofReal]
    · rw [regularValue_eq, regularValue_eq, sum_hom _ (map_zero _) (map_add _)]
      congr 1
      apply List.map_congr_left
      intro p _
      rw [sum_hom _ (map_zero _) (map_add _)]
      congr 1
      apply List.map_congr_left
      intro q _
      unfold regularTerm
      rw [map_mul, map_mul, hF _ _ _ _ _ _ _ _ (fun i => rT _ _ _ _) (fun i => rR _ _ _ _), hφ, Complex.conj_ofReal,
        Complex.conj_ofReal]
  exact ⟨M, m1, by rw [← this]; exact n1⟩

end

/-! ### C62 -/

/-- Quadrature weights and integration elements are not negative, nor are the basis functions at quadrature points. -/
structure NonnegativeRule (Q : Quadrature ℝ) (GT GR : Geometry ℝ) (BT BR : Basis ℝ ℝ) (t : CellType) : Prop where
  regular : ∀ p ∈ Q.regular t, 0 ≤ p.2 ∧ ∀ a, 0 ≤ BT t a 0 p.1 ∧ 0 ≤ BR t a 0 p.1
  singular : ∀ con, ∀ p ∈ Q.singular t t con, 0 ≤ p.2.2 ∧ ∀ a, 0 ≤ BT t a 0 p.1 ∧ 0 ≤ BR t a 0 p.2.1
  testElement : ∀ c x, 0 ≤ GT.jdet c x
  trialElement : ∀ c x, 0 ≤ GR.jdet c x

theorem norm_sum_le' {α : Type} (l : List α) (f : α → ℂ) (g : α → ℝ) (h : ∀ x ∈ l, ‖f x‖ ≤ g x) :
    ‖(l.map f).sum‖ ≤ (l.map g).sum := by
  induction l with
  | nil => simp
  | cons x l ih =>
    rw [List.map_cons, List.map_cons, List.sum_cons, List.sum_cons]
    exact (norm_add_le _ _).trans (add_le_add (h x List.mem_cons_self) (ih fun y hy => h y (List.mem_cons_of_mem _ hy)))

theorem doubleSum_norm_le {test trial : FunctionSpace} {v : Entity → Entity → Nat → Nat → ℂ}
    {v' : Entity → Entity → Nat → Nat → ℝ} (h : ∀ c ∈ test.grid.entityIter 2, ∀ c' ∈ trial.grid.entityIter 2, ∀ a b,
      ‖v c c' a b‖ ≤ v' c c' a b) (i j : Nat) : ‖doubleSum test trial v i j‖ ≤ doubleSum test trial v' i j := by
  unfold doubleSum
  refine norm_sum_le' _ _ _ fun c hc => norm_sum_le' _ _ _ fun c' hc' => norm_sum_le' _ _ _ fun x _ =>
    norm_sum_le' _ _ _ fun y _ => ?_
  split
  · exact h c hc c' hc' _ _
  · simp

theorem laplaceGreen_nonneg (x y : List ℝ) : 0 ≤ laplaceGreen x y 0 := by
  simp only [laplaceGreen]
  have := Real.pi_pos
  have : 0 ≤ pointDist x y := Real.sqrt_nonneg _
  positivity

theorem helmholtzGreen_norm (w : ℝ) (x y : List ℝ) : ‖helmholtzGreen w x y 0‖ = laplaceGreen x y 0 := by
  simp only [helmholtzGreen, laplaceGreen]
  have h1 : 0 ≤ pointDist x y := Real.sqrt_nonneg _
  rw [norm_div, show Complex.I * (w : ℂ) * (pointDist x y : ℂ) = ((w * pointDist x y : ℝ) : ℂ) * Complex.I by
    push_cast; ring, Complex.norm_exp_ofReal_mul_I, norm_mul, norm_mul, Complex.norm_real, Complex.norm_real,
    Real.norm_of_nonneg h1, Real.norm_of_nonneg Real.pi_pos.le]
  norm_num

section
variable {o : Options} {famT famR : CellType → ElementDofs} {env : Env ℝ ℝ} {envC : Env ℝ ℂ}
  {trial test : Space ℝ ℝ} {trialC testC : Space ℝ ℂ} {GT GR : Geometry ℝ} {BT BR : Basis ℝ ℝ} {Q : Quadrature ℝ}
  {t : CellType} {w : ℝ} {kernel : Kernel ℝ ℝ} {kernelC : ℝ → Kernel ℝ ℂ}

/-- **C62.** No entry of a Helmholtz single layer matrix is larger in absolute value than the entry of the Laplace single layer
matrix; the entries of the latter are not negative. -/
theorem C62_single_layer (h : SpacePair env o trial test famT famR GT GR BT BR Q t) (hφ : env.cast = id)
    (hC : SpacePair envC o trialC testC famT famR GT GR (fun t a d x => (BT t a d x : ℂ)) (fun t a d x => (BR t a d x : ℂ)) Q t)
    (hφC : envC.cast = Complex.ofReal) (eT : testC.fs = test.fs) (eR : trialC.fs = trial.fs)
    (hk : kernel.Computes .value laplaceGreen) (hkC : (kernelC w).Computes .value (helmholtzGreen w))
    (hb : 0 < o.batchSize) (hn : NonnegativeRule Q GT GR BT BR t) :
    ∃ (M : List ℝ) (N : List ℂ), (∀ out, Assemble env (Laplace.singleLayer kernel o) trial test out ↔ out = some M) ∧
      (∀ out, Assemble envC (Helmholtz.singleLayer kernelC w o) trialC testC out ↔ out = some N) ∧
      (∀ x ∈ M, 0 ≤ x) ∧
      ∀ i j, i < test.fs.globalSize → j < trial.fs.globalSize → ∃ x y, M[i + test.fs.globalSize * j]? = some x ∧
        N[i + test.fs.globalSize * j]? = some y ∧ ‖y‖ ≤ x := by
  have k1 : OperatorWith env.cast o laplaceGreen (Laplace.singleLayer kernel o) slF := .laplaceSingleLayer hk
  have k2 : OperatorWith envC.cast o (helmholtzGreen w) (Helmholtz.singleLayer kernelC w o) slF := .helmholtzSingleLayer hkC
  obtain ⟨M, m1, m2, m3⟩ := C14_operators h k1 hb
  obtain ⟨N, n1, n2, n3⟩ := C14_operators hC k2 hb
  rw [eT, eR] at n3
  have hle : ∀ i j, ‖doubleSum test.fs trial.fs (cellPairValue envC.cast slF (helmholtzGreen w) GT GR
      (fun t a d x => (BT t a d x : ℂ)) (fun t a d x => (BR t a d x : ℂ)) Q test.fs trial.fs) i j‖ ≤
      doubleSum test.fs trial.fs (cellPairValue env.cast slF laplaceGreen GT GR BT BR Q test.fs trial.fs) i j := by
    intro i j
    refine doubleSum_norm_le ?_ i j
    intro c hc c' hc' a b
    have ht : c.entityType = t := by
      have := h.testSpace.wf.types c hc
      rwa [h.testType, List.mem_singleton] at this
    have ht' : c'.entityType = t := by
      have := h.trialSpace.wf.types c' hc'
      rwa [h.trialType, List.mem_singleton] at this
    unfold cellPairValue
    rw [ht, ht']
    split
    · rw [singularValue_eq, singularValue_eq]
      refine norm_sum_le' _ _ _ fun p hp => ?_
      obtain ⟨q1, q2⟩ := hn.singular _ p hp
      unfold singularTerm slF
      rw [norm_mul, norm_mul, norm_mul, helmholtzGreen_norm, hφC, hφ, Complex.norm_real, Complex.norm_real, Complex.norm_real,
        Real.norm_of_nonneg (q2 a).1, Real.norm_of_nonneg (q2 b).2,
        Real.norm_of_nonneg (mul_nonneg q1 (mul_nonneg (hn.testElement _ _) (hn.trialElement _ _)))]
      rfl
    · rw [regularValue_eq, regularValue_eq]
      refine norm_sum_le' _ _ _ fun p hp => norm_sum_le' _ _ _ fun q hq => ?_
      obtain ⟨q1, q2⟩ := hn.regular p hp
      obtain ⟨r1, r2⟩ := hn.regular q hq
      unfold regularTerm slF
      rw [norm_mul, norm_mul, norm_mul, norm_mul, helmholtzGreen_norm, hφC, hφ, Complex.norm_real, Complex.norm_real,
        Complex.norm_real, Complex.norm_real, Real.norm_of_nonneg (q2 a).1, Real.norm_of_nonneg (r2 b).2,
        Real.norm_of_nonneg (mul_nonneg q1 (hn.testElement _ _)), Real.norm_of_nonneg (mul_nonneg r1 (hn.trialElement _ _))]
      rfl
  refine ⟨M, N, m1, n1, ?_, fun i j hi hj => ⟨_, _, m3 i j hi hj, n3 i j hi hj, hle i j⟩⟩
  intro x hx
  obtain ⟨k, hk⟩ := List.getElem?_of_mem hx
  have hkl : k < test.fs.globalSize * trial.fs.globalSize := by rw [← m2]; exact (List.getElem?_eq_some_iff.mp hk).1
  have hpos : 0 < test.fs.globalSize := by
    rcases Nat.eq_zero_or_pos test.fs.globalSize with h0 | h0
    · rw [h0, Nat.zero_mul] at hkl; omega
    · exact h0
  have := m3 (k % test.fs.globalSize) (k / test.fs.globalSize) (Nat.mod_lt _ hpos)
    (by rw [Nat.div_lt_iff_lt_mul hpos, Nat.mul_comm]; exact hkl)
  rw [Nat.mod_add_div, hk, Option.some.injEq] at this
  rw [this]
  exact (norm_nonneg _).trans (hle _ _)

end

/-! ### The hypotheses can be met -/

namespace Examples

open Classical in
noncomputable def complexEnv : Env ℝ ℂ :=
  envOf Complex.ofReal realRules (fun x => decide (1/10000000000 < ‖x‖))
    (fun shape rows cols data => some (csrOf shape rows cols data))

theorem complexEnv_regular : RegularOk complexEnv smallOptions realRules .triangle where
  degree := by simp only [realRules, List.length_cons, List.length_nil]; decide
  rule := rfl
  points := realEnv_regular.points

theorem complexEnv_singular : SingularOk complexEnv smallOptions realRules .triangle .triangle where
  degree := ⟨4, by decide, fun _ _ => rfl⟩
  points := realEnv_singular.points

noncomputable def complexP1 : Basis ℝ ℂ := fun t a d x => (realP1 t a d x : ℂ)

theorem complexPair : SpacePair complexEnv smallOptions (Examples.spaceOf octFs p1 realOct complexP1)
    (Examples.spaceOf octFs p1 realOct complexP1) p1 p1 realOct realOct complexP1 complexP1 realRules .triangle where
  testSpace := octFs_space.1
  trialSpace := octFs_space.1
  testType := by show octFs.grid.entityTypes 2 = _; rw [octFs_space.2]; decide
  trialType := by show octFs.grid.entityTypes 2 = _; rw [octFs_space.2]; decide
  testSurface := by show Surface octFs.grid; rw [octFs_space.2]; exact ⟨rfl, rfl⟩
  trialSurface := by show Surface octFs.grid; rw [octFs_space.2]; exact ⟨rfl, rfl⟩
  testGeometry := spaceOf_geometry octFs p1 realOct complexP1
  trialGeometry := spaceOf_geometry octFs p1 realOct complexP1
  testBasis := spaceOf_tabulate octFs p1 realOct complexP1
  trialBasis := spaceOf_tabulate octFs p1 realOct complexP1
  rule := complexEnv_regular
  same := fun _ => ⟨rfl, rfl, by show octFs.grid.Vertices; rw [octFs_space.2]; exact octahedron_vertices,
    by
      show ∃ ev, octFs.grid.Edges ev ∧ octFs.grid.Conforming ev
      rw [octFs_space.2]
      exact ⟨_, octahedron_edges, octahedron_conforming⟩, complexEnv_singular⟩

/-- C61 for the hypersingular operator with wavenumbers 3 and -3 on the octahedron. -/
example : ∃ M : List ℂ, (∀ out, Assemble complexEnv
      (Helmholtz.hypersingular Complex.ofReal (fun w => kernelOf (helmholtzGreen w)) 3 smallOptions)
      (Examples.spaceOf octFs p1 realOct complexP1) (Examples.spaceOf octFs p1 realOct complexP1) out ↔ out = some M) ∧
    (∀ out, Assemble complexEnv
      (Helmholtz.hypersingular Complex.ofReal (fun w => kernelOf (helmholtzGreen w)) (-3) smallOptions)
      (Examples.spaceOf octFs p1 realOct complexP1) (Examples.spaceOf octFs p1 realOct complexP1) out ↔
        out = some (M.map (starRingEnd ℂ))) :=
  C61_conjugate complexPair rfl (.hypersingular (k := fun w => kernelOf (helmholtzGreen w))
    (k' := fun w => kernelOf (helmholtzGreen w)) (kernelOf_computes _ _) (kernelOf_computes _ _)) (by decide)
    (fun _ _ _ _ => Complex.conj_ofReal _) (fun _ _ _ _ => Complex.conj_ofReal _)

theorem realRules_nonneg : NonnegativeRule realRules realOct realOct realP1 realP1 .triangle where
  regular := by
    intro p hp
    simp only [realRules, List.mem_cons, List.not_mem_nil, or_false] at hp
    rcases hp with rfl | rfl
    all_goals
      refine ⟨by norm_num, fun a => ?_⟩
      match a with
      | 0 => simp only [realP1, List.getD_cons_zero, List.getD_cons_succ]; norm_num
      | 1 => simp only [realP1, List.getD_cons_zero]; norm_num
      | 2 => simp only [realP1, List.getD_cons_zero, List.getD_cons_succ]; norm_num
      | _ + 3 => simp [realP1]
  singular := by
    intro con p hp
    simp only [realRules, List.mem_cons, List.not_mem_nil, or_false] at hp
    rcases hp with rfl | rfl
    all_goals
      refine ⟨by positivity, fun a => ?_⟩
      match a with
      | 0 => simp only [realP1, List.getD_cons_zero, List.getD_cons_succ]; norm_num
      | 1 => simp only [realP1, List.getD_cons_zero]; norm_num
      | 2 => simp only [realP1, List.getD_cons_zero, List.getD_cons_succ]; norm_num
      | _ + 3 => simp [realP1]
  testElement := fun _ _ => Real.sqrt_nonneg _
  trialElement := fun _ _ => Real.sqrt_nonneg _

/-- C62 on the octahedron. -/
example : ∃ (M : List ℝ) (N : List ℂ),
    (∀ out, Assemble realEnv (Laplace.singleLayer (kernelOf laplaceGreen) smallOptions)
      (Examples.spaceOf octFs p1 realOct realP1) (Examples.spaceOf octFs p1 realOct realP1) out ↔ out = some M) ∧
    (∀ out, Assemble complexEnv (Helmholtz.singleLayer (fun w => kernelOf (helmholtzGreen w)) 5 smallOptions)
      (Examples.spaceOf octFs p1 realOct complexP1) (Examples.spaceOf octFs p1 realOct complexP1) out ↔ out = some N) ∧
    (∀ x ∈ M, 0 ≤ x) ∧ ∃ x y, M[2]? = some x ∧ N[2]? = some y ∧ ‖y‖ ≤ x := by
  have hs : octFs.globalSize = 6 := by decide +kernel
  obtain ⟨M, N, h1, h2, h3, h4⟩ := C62_single_layer (w := 5) (kernelC := fun w => kernelOf (helmholtzGreen w))
    (realPair octFs_space.1 realOct (Or.inl octFs_space.2)) rfl complexPair rfl rfl rfl
    (kernelOf_computes laplaceGreen _) (kernelOf_computes _ _) (by decide) realRules_nonneg
  exact ⟨M, N, h1, h2, h3, h4 2 0 (by show 2 < octFs.globalSize; omega) (by show 0 < octFs.globalSize; omega)⟩

end Examples

end Bempp
