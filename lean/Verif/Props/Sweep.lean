import Verif.Proofs.Sweep
import Verif.Props.Frequency
import Verif.Props.Helmholtz
/-
C110: systems of equations with assembled Helmholtz matrices, when the wavenumber varies.
-/
namespace Bempp
open Examples

section
variable {env : Env ℝ ℂ} {o : Options} {trial test : Space ℝ ℂ}
  {famT famR : CellType → ElementDofs} {GT GR : Geometry ℝ} {BT BR : Basis ℝ ℂ} {Q : Quadrature ℝ} {t : CellType}
  {kernel : ℝ → Kernel ℝ ℂ}

/-- **C110.** The entries of the matrices assembled with the four Helmholtz operators are analytic functions of the
wavenumber: they are the values on the real numbers of functions that are differentiable on the complex numbers. -/
theorem C110_analytic (h : SpacePair env o trial test famT famR GT GR BT BR Q t) (hφ : env.cast = Complex.ofReal)
    (hk : ∀ w, (kernel w).Computes .value (helmholtzGreen w)) (hk' : ∀ w, (kernel w).Computes .valueDeriv (helmholtzGreen w))
    (hb : 0 < o.batchSize) (asm : ℝ → Assembler ℝ ℂ)
    (hasm : asm ∈ [fun w => Helmholtz.singleLayer kernel w o, fun w => Helmholtz.doubleLayer kernel w o,
      fun w => Helmholtz.adjointDoubleLayer kernel w o, fun w => Helmholtz.hypersingular env.cast kernel w o]) :
    ∃ M : ℝ → List ℂ, (∀ w out, Assemble env (asm w) trial test out ↔ out = some (M w)) ∧
      ∀ i j, i < test.fs.globalSize → j < trial.fs.globalSize → ∃ f : ℂ → ℂ, Differentiable ℂ f ∧
        ∀ w : ℝ, (M w)[i + test.fs.globalSize * j]? = some (f w) := by
  have main : ∀ F : ℝ → MathIntegrand ℂ, EntIntegrand F →
      (∀ w, OperatorWith env.cast o (helmholtzGreen w) (asm w) (F w)) → ∃ M : ℝ → List ℂ,
      (∀ w out, Assemble env (asm w) trial test out ↔ out = some (M w)) ∧
      ∀ i j, i < test.fs.globalSize → j < trial.fs.globalSize → ∃ f : ℂ → ℂ, Differentiable ℂ f ∧
        ∀ w : ℝ, (M w)[i + test.fs.globalSize * j]? = some (f w) := by
    intro F hF ho
    obtain ⟨M, m1, m2⟩ := wavenumber_entries h hφ ho hb
    refine ⟨M, m1, fun i j hi hj => ?_⟩
    obtain ⟨f, hf, ef⟩ := doubleSum_ent (GT := GT) (GR := GR) (BT := BT) (BR := BR) (Q := Q) hF test.fs trial.fs i j
    exact ⟨f, hf, fun w => (m2 w i j hi hj).trans (congrArg some (ef w))⟩
  simp only [List.mem_cons, List.not_mem_nil, or_false] at hasm
  rcases hasm with rfl | rfl | rfl | rfl
  · exact main _ slF_ent fun w => .helmholtzSingleLayer (hk w)
  · exact main _ dlF_ent fun w => .helmholtzDoubleLayer (hk' w)
  · exact main _ adlF_ent fun w => .helmholtzAdjoint (hk' w)
  · exact main _ (by simpa only [hφ] using helmholtzHypF_ent) fun w => .helmholtzHypersingular (hk' w)

theorem columnEntry_ent {M : ℝ → List ℂ} {m n : Nat} (hn : m = n)
    (h : ∀ i j, i < m → j < n → ∃ f : ℂ → ℂ, Differentiable ℂ f ∧ ∀ w : ℝ, (M w)[i + m * j]? = some (f w)) :
    ∀ i j, i < n → j < n → Ent fun w => columnEntry (M w) n i j := by
  subst hn
  intro i j hi hj
  obtain ⟨f, hf, e⟩ := h i j hi hj
  exact ⟨f, hf, fun w => by
    show (M w).getD (i + m * j) 0 = f w
    rw [List.getD_eq_getElem?_getD, e, Option.getD_some]⟩

/-- **C110.** For a square matrix of any of the four operators: if the systems of equations with the assembled matrix have
exactly one solution for a single wavenumber, then they have exactly one solution for all wavenumbers except finitely many in
each bounded interval. -/
theorem C110_wavenumbers (h : SpacePair env o trial test famT famR GT GR BT BR Q t) (hφ : env.cast = Complex.ofReal)
    (hk : ∀ w, (kernel w).Computes .value (helmholtzGreen w)) (hk' : ∀ w, (kernel w).Computes .valueDeriv (helmholtzGreen w))
    (hb : 0 < o.batchSize) (hsq : test.fs.globalSize = trial.fs.globalSize) (asm : ℝ → Assembler ℝ ℂ)
    (hasm : asm ∈ [fun w => Helmholtz.singleLayer kernel w o, fun w => Helmholtz.doubleLayer kernel w o,
      fun w => Helmholtz.adjointDoubleLayer kernel w o, fun w => Helmholtz.hypersingular env.cast kernel w o]) :
    ∃ M : ℝ → List ℂ, (∀ w out, Assemble env (asm w) trial test out ↔ out = some (M w)) ∧
      ((∃ w, UniquelySolvable (columnEntry (M w) trial.fs.globalSize) trial.fs.globalSize) →
        ∀ r, {w : ℝ | |w| ≤ r ∧ ¬ UniquelySolvable (columnEntry (M w) trial.fs.globalSize) trial.fs.globalSize}.Finite) := by
  obtain ⟨M, m1, m2⟩ := C110_analytic h hφ hk hk' hb asm hasm
  exact ⟨M, m1, fun ⟨_, h0⟩ r => solvable_finite (columnEntry_ent hsq m2) h0 r⟩

/-- **C110.** Where they have exactly one solution, they have exactly one for all wavenumbers nearby, and the solution depends
continuously on the wavenumber and the right-hand side. -/
theorem C110_solutions (h : SpacePair env o trial test famT famR GT GR BT BR Q t) (hφ : env.cast = Complex.ofReal)
    (hk : ∀ w, (kernel w).Computes .value (helmholtzGreen w)) (hk' : ∀ w, (kernel w).Computes .valueDeriv (helmholtzGreen w))
    (hb : 0 < o.batchSize) (hsq : test.fs.globalSize = trial.fs.globalSize) (asm : ℝ → Assembler ℝ ℂ)
    (hasm : asm ∈ [fun w => Helmholtz.singleLayer kernel w o, fun w => Helmholtz.doubleLayer kernel w o,
      fun w => Helmholtz.adjointDoubleLayer kernel w o, fun w => Helmholtz.hypersingular env.cast kernel w o]) :
    ∃ M : ℝ → List ℂ, (∀ w out, Assemble env (asm w) trial test out ↔ out = some (M w)) ∧
      ∀ w₀ x b, UniquelySolvable (columnEntry (M w₀) trial.fs.globalSize) trial.fs.globalSize →
        SystemSolves (columnEntry (M w₀) trial.fs.globalSize) trial.fs.globalSize x b → ∀ ε > 0, ∃ δ > 0,
          ∀ w, |w - w₀| < δ → UniquelySolvable (columnEntry (M w) trial.fs.globalSize) trial.fs.globalSize ∧
            ∀ y b', (∀ i, i < trial.fs.globalSize → ‖b' i - b i‖ ≤ δ) →
              SystemSolves (columnEntry (M w) trial.fs.globalSize) trial.fs.globalSize y b' →
              ∀ i, i < trial.fs.globalSize → ‖y i - x i‖ ≤ ε := by
  obtain ⟨M, m1, m2⟩ := C110_analytic h hφ hk hk' hb asm hasm
  exact ⟨M, m1, fun w₀ x b h0 hx ε hε => solutions_continuous (columnEntry_ent hsq m2) h0 hx hε⟩

end

section
variable {env : Env ℝ ℝ} {envC : Env ℝ ℂ} {o : Options} {trial test : Space ℝ ℝ} {trialC testC : Space ℝ ℂ}
  {famT famR : CellType → ElementDofs} {GT GR : Geometry ℝ} {BT BR : Basis ℝ ℝ} {Q : Quadrature ℝ} {t : CellType}
  {kernel : Kernel ℝ ℝ} {kernelC : ℝ → Kernel ℝ ℂ}

/-- **C110.** Low frequencies: if the systems of equations with an assembled Laplace matrix have exactly one solution, then so
have those with the matrix of the same Helmholtz operator for all small wavenumbers, and the solutions tend to the solutions of
the Laplace system when the wavenumber tends to 0. -/
theorem C110_low (h : SpacePair env o trial test famT famR GT GR BT BR Q t) (hφ : env.cast = id)
    (hC : SpacePair envC o trialC testC famT famR GT GR (fun t a d x => (BT t a d x : ℂ)) (fun t a d x => (BR t a d x : ℂ)) Q t)
    (hφC : envC.cast = Complex.ofReal) (eT : testC.fs = test.fs) (eR : trialC.fs = trial.fs)
    (hk : kernel.Computes .value laplaceGreen) (hk' : kernel.Computes .valueDeriv laplaceGreen)
    (hkC : ∀ w, (kernelC w).Computes .value (helmholtzGreen w))
    (hkC' : ∀ w, (kernelC w).Computes .valueDeriv (helmholtzGreen w))
    (hb : 0 < o.batchSize) (hsq : test.fs.globalSize = trial.fs.globalSize) (asm : Assembler ℝ ℝ) (asmC : ℝ → Assembler ℝ ℂ)
    (hasm : (asm, asmC) ∈ [(Laplace.singleLayer kernel o, fun w => Helmholtz.singleLayer kernelC w o),
      (Laplace.doubleLayer kernel o, fun w => Helmholtz.doubleLayer kernelC w o),
      (Laplace.adjointDoubleLayer kernel o, fun w => Helmholtz.adjointDoubleLayer kernelC w o),
      (Laplace.hypersingular kernel o, fun w => Helmholtz.hypersingular envC.cast kernelC w o)]) :
    ∃ (L : List ℝ) (M : ℝ → List ℂ), (∀ out, Assemble env asm trial test out ↔ out = some L) ∧
      (∀ w out, Assemble envC (asmC w) trialC testC out ↔ out = some (M w)) ∧
      (RealUniquelySolvable L trial.fs.globalSize → ∀ (x b : Nat → ℝ), Solves L trial.fs.globalSize x b →
        ∀ ε > 0, ∃ δ > 0, ∀ w, |w| < δ →
          UniquelySolvable (columnEntry (M w) trial.fs.globalSize) trial.fs.globalSize ∧
          ∀ y, SystemSolves (columnEntry (M w) trial.fs.globalSize) trial.fs.globalSize y (fun i => (b i : ℂ)) →
            ∀ i, i < trial.fs.globalSize → ‖y i - (x i : ℂ)‖ ≤ ε) := by
  have main : ∀ (F : MathIntegrand ℝ) (F' : MathIntegrand ℂ), OperatorWith env.cast o laplaceGreen asm F →
      OperatorWith envC.cast o (helmholtzGreen 0) (asmC 0) F' →
      asmC ∈ [fun w => Helmholtz.singleLayer kernelC w o, fun w => Helmholtz.doubleLayer kernelC w o,
        fun w => Helmholtz.adjointDoubleLayer kernelC w o, fun w => Helmholtz.hypersingular envC.cast kernelC w o] →
      (∀ i j, doubleSum test.fs trial.fs (cellPairValue Complex.ofReal F' (helmholtzGreen 0) GT GR
          (fun t a d x => (BT t a d x : ℂ)) (fun t a d x => (BR t a d x : ℂ)) Q test.fs trial.fs) i j =
        ((doubleSum test.fs trial.fs (cellPairValue id F laplaceGreen GT GR BT BR Q test.fs trial.fs) i j : ℝ) : ℂ)) →
      ∃ (L : List ℝ) (M : ℝ → List ℂ), (∀ out, Assemble env asm trial test out ↔ out = some L) ∧
      (∀ w out, Assemble envC (asmC w) trialC testC out ↔ out = some (M w)) ∧
      (RealUniquelySolvable L trial.fs.globalSize → ∀ (x b : Nat → ℝ), Solves L trial.fs.globalSize x b →
        ∀ ε > 0, ∃ δ > 0, ∀ w, |w| < δ →
          UniquelySolvable (columnEntry (M w) trial.fs.globalSize) trial.fs.globalSize ∧
          ∀ y, SystemSolves (columnEntry (M w) trial.fs.globalSize) trial.fs.globalSize y (fun i => (b i : ℂ)) →
            ∀ i, i < trial.fs.globalSize → ‖y i - (x i : ℂ)‖ ≤ ε) := by
    intro F F' ho ho0 hmem hval
    obtain ⟨L, l1, _, l3⟩ := C14_operators h ho hb
    obtain ⟨N, n1, _, n3⟩ := C14_operators hC ho0 hb
    obtain ⟨M, m1, m2⟩ := C110_solutions hC hφC hkC hkC' hb (by rw [eT, eR]; exact hsq) asmC hmem
    have eN : N = M 0 := by
      have := (m1 0 _).1 ((n1 _).2 rfl)
      rwa [Option.some.injEq] at this
    subst eN
    rw [eT, eR, hφC] at n3
    rw [hφ] at l3
    rw [eR] at m2
    refine ⟨L, M, l1, m1, fun hL x b hx ε hε => ?_⟩
    have e : ∀ i j, i < trial.fs.globalSize → j < trial.fs.globalSize →
        ((L.getD (i + trial.fs.globalSize * j) 0 : ℝ) : ℂ) = columnEntry (M 0) trial.fs.globalSize i j := by
      intro i j hi hj
      have a := l3 i j (hsq ▸ hi) hj
      have c := n3 i j (hsq ▸ hi) hj
      rw [hsq] at a c
      rw [columnEntry, List.getD_eq_getElem?_getD, List.getD_eq_getElem?_getD, a, c, Option.getD_some, Option.getD_some, hval]
    obtain ⟨δ, hδ, hw⟩ := m2 0 (fun i => (x i : ℂ)) (fun i => (b i : ℂ)) ((UniquelySolvable.congr e).mp hL.coe)
      ((SystemSolves.congr e).mp hx.coe) ε hε
    refine ⟨δ, hδ, fun w hlt => ?_⟩
    obtain ⟨k1, k2⟩ := hw w (by rwa [sub_zero])
    exact ⟨k1, fun y hy => k2 y _ (fun i _ => by simpa using hδ.le) hy⟩
  simp only [List.mem_cons, Prod.mk.injEq, List.not_mem_nil, or_false] at hasm
  rcases hasm with ⟨rfl, rfl⟩ | ⟨rfl, rfl⟩ | ⟨rfl, rfl⟩ | ⟨rfl, rfl⟩
  · refine main slF slF (.laplaceSingleLayer hk) (.helmholtzSingleLayer (hkC 0)) (by simp) fun i j => ?_
    rw [cellPairValue_real (F' := slF), helmholtzGreen_zero]
    · rfl
    · intro K U V c x c' y
      simp only [slF]
      push_cast
      ring
  · refine main dlF dlF (.laplaceDoubleLayer hk') (.helmholtzDoubleLayer (hkC' 0)) (by simp) fun i j => ?_
    rw [cellPairValue_real (F' := dlF), helmholtzGreen_zero]
    · rfl
    · intro K U V c x c' y
      simp only [dlF, Geometry.data, id]
      push_cast
      ring
  · refine main adlF adlF (.laplaceAdjoint hk') (.helmholtzAdjoint (hkC' 0)) (by simp) fun i j => ?_
    rw [cellPairValue_real (F' := adlF), helmholtzGreen_zero]
    · rfl
    · intro K U V c x c' y
      simp only [adlF, Geometry.data, id]
      push_cast
      ring
  · refine main curlCurlF (helmholtzHypF Complex.ofReal 0) (.laplaceHypersingular hk')
      (by rw [hφC]; exact .helmholtzHypersingular (hkC' 0)) (by simp) fun i j => ?_
    rw [cellPairValue_real (F' := helmholtzHypF Complex.ofReal 0), helmholtzGreen_zero]
    · rfl
    · intro K U V c x c' y
      simp only [curlCurlF, helmholtzHypF, surfaceCurl, Geometry.data, id]
      push_cast
      ring

end

section
variable {lev : Nat} {t : CellType} {s : Shape ℝ} {g : Grid} {pt cl : Nat → Nat} {V : Nat → Nat → Nat → ℝ}
  {fam : CellType → ElementDofs} {B : Basis ℝ ℝ} {kk : Nat → Nat}

/-- **C110.** On every sphere and every screen, with enough quadrature points, the systems of equations with the assembled
Helmholtz single layer matrices have exactly one solution for all wavenumbers except finitely many in each bounded interval;
how many quadrature points are enough does not depend on the wavenumber. -/
theorem C110_library {env : Env ℝ ℂ} {space : Space ℝ ℂ} {o : Nat → Options} {Q : Nat → Quadrature ℝ}
    {kernel : ℝ → Kernel ℝ ℂ} (hcast : env.cast = Complex.ofReal)
    (hs : LibraryShape lev t s) (hb : Built s t g pt cl) (hV : HasCorners s g pt V) (hf : (fam t).Uniform t kk)
    (hm : FunctionSpace.new 0 1 g fam = .done space.fs)
    (hgeo : GeometryOk space (vertexGeometry (cellFunctions t) V)) (htab : TabulateOk space fam (complexBasis B))
    (hreg : ∀ n, RegularOk env (o n) (Q n) t) (hsing : ∀ n, SingularOk env (o n) (Q n) t t)
    (hk : ∀ w, (kernel w).Computes .value (helmholtzGreen w)) (hk' : ∀ w, (kernel w).Computes .valueDeriv (helmholtzGreen w))
    (hbatch : ∀ n, 0 < (o n).batchSize)
    (hB : ContinuousBasis B t (fam t).dim) (hi : IndependentBasis B t (fam t).dim)
    (hrule : RulesConverge (refCell t) fun n => (Q n).regular t)
    (hpair : ∀ c ∈ g.entityIter 2, ∀ c' ∈ g.entityIter 2, c.Touches c' → ∀ a b, a < (fam t).dim → b < (fam t).dim →
      PairRulesConverge (refCell t) (fun n => (Q n).singular t t (connectivity c c'))
        (pairIntegrand slF (helmholtzGreen 0) (vertexGeometry (cellFunctions t) V) (vertexGeometry (cellFunctions t) V)
          (complexBasis B) (complexBasis B) t c.localIndex c'.localIndex a b)) :
    ∃ M : Nat → ℝ → List ℂ,
      (∀ n w out, Assemble env (Helmholtz.singleLayer kernel w (o n)) space space out ↔ out = some (M n w)) ∧
      ∃ n₀, ∀ n ≥ n₀, ∀ r, {w : ℝ | |w| ≤ r ∧
        ¬ UniquelySolvable (columnEntry (M n w) space.fs.globalSize) space.fs.globalSize}.Finite := by
  obtain ⟨w₀, hw₀, hsmall⟩ := C90_small hs hb hV hf hm hB hi
  have hsolv := hsmall 0 (by simpa using hw₀.le)
  obtain ⟨x, hx⟩ := (hsolv fun _ => 0).1
  obtain ⟨N, n1, n2⟩ := C90_converges (asm := fun n => Helmholtz.singleLayer kernel 0 (o n)) hcast hs hb hV hf hm hgeo htab
    hreg hsing (fun n => .helmholtzSingleLayer (hk 0)) hbatch (complexBasis_continuous hB) hrule hpair hsolv hx
  obtain ⟨n₀, hn₀⟩ := n2 1 one_pos
  have := fun n => C110_wavenumbers (shape_pair (V := V) hs hb hf hf hm hm hgeo hgeo htab htab (hreg n) (hsing n)).1 hcast hk
    hk' (hbatch n) rfl (fun w => Helmholtz.singleLayer kernel w (o n)) (by simp)
  choose M m1 m2 using this
  refine ⟨M, m1, n₀, fun n hn => m2 n ⟨0, ?_⟩⟩
  have e : N n = M n 0 := by
    have := (m1 n 0 _).1 ((n1 n _).2 rfl)
    rwa [Option.some.injEq] at this
  have := (hn₀ n hn).1
  rw [e] at this
  exact this

end

namespace Examples

/-- The hypotheses can be met: the four operators on the octahedron, and wavenumbers at which their systems are solvable if
there is one. -/
example (asm : ℝ → Assembler ℝ ℂ) (hasm : asm ∈
    [fun w => Helmholtz.singleLayer (fun w => kernelOf (helmholtzGreen w)) w smallOptions,
      fun w => Helmholtz.doubleLayer (fun w => kernelOf (helmholtzGreen w)) w smallOptions,
      fun w => Helmholtz.adjointDoubleLayer (fun w => kernelOf (helmholtzGreen w)) w smallOptions,
      fun w => Helmholtz.hypersingular complexEnv.cast (fun w => kernelOf (helmholtzGreen w)) w smallOptions]) :=
  C110_wavenumbers (kernel := fun w => kernelOf (helmholtzGreen w))
    (complexPair_of (vertexGeometry triangleFunctions octVertices)) rfl (fun _ => kernelOf_computes _ _)
    (fun _ => kernelOf_computes _ _) (by decide) rfl asm hasm

/-- The hypotheses for low frequencies can be met: spheres of all levels, with enough quadrature points. -/
example (lev : Nat) : ∃ (rule : List (List ℝ × List ℝ × ℝ)) (V : Nat → Nat → Nat → ℝ) (fs : FunctionSpace),
    fs.globalSize = 4 ^ (lev + 1) + 2 ∧ ∃ n, ∃ (L : List ℝ) (M : ℝ → List ℂ),
      (∀ out, Assemble (pairEnv rule) (Laplace.singleLayer (kernelOf laplaceGreen) (latticeOptions n))
          (Examples.spaceOf fs p1 (vertexGeometry triangleFunctions V) realP1)
          (Examples.spaceOf fs p1 (vertexGeometry triangleFunctions V) realP1) out ↔ out = some L) ∧
      (∀ w out, Assemble (complexPairEnv rule)
          (Helmholtz.singleLayer (fun w => kernelOf (helmholtzGreen w)) w (latticeOptions n))
          (Examples.spaceOf fs p1 (vertexGeometry triangleFunctions V) complexP1)
          (Examples.spaceOf fs p1 (vertexGeometry triangleFunctions V) complexP1) out ↔ out = some (M w)) ∧
      ∀ b : Nat → ℝ, ∃ x, Solves L fs.globalSize x b ∧ ∀ ε > 0, ∃ δ > 0, ∀ w, |w| < δ →
        UniquelySolvable (columnEntry (M w) fs.globalSize) fs.globalSize ∧
        ∀ y, SystemSolves (columnEntry (M w) fs.globalSize) fs.globalSize y (fun i => (b i : ℂ)) →
          ∀ i, i < fs.globalSize → ‖y i - (x i : ℂ)‖ ≤ ε := by
  obtain ⟨s, hs, -⟩ := C30_sizes (1 / 2 : ℝ) Real.sqrt lev
  have hl : LibraryShape lev .triangle s := .inl ⟨hs, rfl⟩
  obtain ⟨-, -, -, ⟨g, pt, cl, hb⟩, -⟩ := C47_conforming _ _ _ hl
  obtain ⟨⟨V, hV⟩, -⟩ := C79_surface hl hb
  have hu := p1_uniform .triangle (by decide)
  obtain ⟨fs, h1, h2⟩ := C46_sphere _ _ hs hb hu
  obtain ⟨rule, r1, r2⟩ := exact_rule (S := refCell .triangle)
    ((g.entityIter 2).flatMap fun c => (g.entityIter 2).flatMap fun c' => (List.range 3).flatMap fun a =>
      (List.range 3).map fun b => pairIntegrand slF laplaceGreen (vertexGeometry triangleFunctions V)
        (vertexGeometry triangleFunctions V) realP1 realP1 .triangle c.localIndex c'.localIndex a b) (by
      intro f hf
      simp only [List.mem_flatMap, List.mem_map, List.mem_range] at hf
      obtain ⟨c, hc, c', hc', a, ha, b, hb', rfl⟩ := hf
      exact shape_integrable laplaceGreen_greenLike .singleLayer hl hb hV (realP1_continuous .triangle)
        (realP1_continuous .triangle) hc hc' ha hb')
  obtain ⟨L, hL, m, -, n₀, hn₀⟩ := C81_solvable (env := pairEnv rule) (o := latticeOptions) (Q := pairRules rule)
    (space := Examples.spaceOf fs p1 (vertexGeometry triangleFunctions V) realP1)
    (asm := fun n => Laplace.singleLayer (kernelOf laplaceGreen) (latticeOptions n)) rfl hl hb hV hu h1
    (spaceOf_geometry fs p1 _ realP1) (spaceOf_tabulate fs p1 _ realP1) (pair_regular rule) (pair_singular r1)
    (fun n => .laplaceSingleLayer (kernelOf_computes laplaceGreen _)) (fun _ => by show 0 < 128; decide)
    (realP1_continuous _) realP1_independent triangleRule_converges
    (fun c hc c' hc' _ a b ha hb' => by
      have := r2 _ (List.mem_flatMap.mpr ⟨c, hc, List.mem_flatMap.mpr ⟨c', hc', List.mem_flatMap.mpr
        ⟨a, List.mem_range.mpr ha, List.mem_map.mpr ⟨b, List.mem_range.mpr hb', rfl⟩⟩⟩⟩)
      show Filter.Tendsto (fun _ => (rule.map fun p => p.2.2 * _).sum) Filter.atTop _
      exact tendsto_const_nhds.congr fun _ => this.symm)
  obtain ⟨L', M, a1, a2, a3⟩ := C110_low (kernel := kernelOf laplaceGreen) (kernelC := fun w => kernelOf (helmholtzGreen w))
    (shape_pair (env := pairEnv rule) (o := latticeOptions n₀) (Q := pairRules rule n₀)
      (test := Examples.spaceOf fs p1 (vertexGeometry triangleFunctions V) realP1)
      (trial := Examples.spaceOf fs p1 (vertexGeometry triangleFunctions V) realP1) (V := V) hl hb hu hu h1 h1
      (spaceOf_geometry fs p1 _ realP1) (spaceOf_geometry fs p1 _ realP1) (spaceOf_tabulate fs p1 _ realP1)
      (spaceOf_tabulate fs p1 _ realP1) (pair_regular rule n₀) (pair_singular r1 n₀)).1 rfl
    (shape_pair (env := complexPairEnv rule) (o := latticeOptions n₀) (Q := pairRules rule n₀)
      (test := Examples.spaceOf fs p1 (vertexGeometry triangleFunctions V) complexP1)
      (trial := Examples.spaceOf fs p1 (vertexGeometry triangleFunctions V) complexP1) (V := V) hl hb hu hu h1 h1
      (spaceOf_geometry fs p1 _ complexP1) (spaceOf_geometry fs p1 _ complexP1) (spaceOf_tabulate fs p1 _ complexP1)
      (spaceOf_tabulate fs p1 _ complexP1) (complex_regular rule n₀) (complex_singular r1 n₀)).1 rfl rfl rfl
    (kernelOf_computes _ _) (kernelOf_computes _ _) (fun _ => kernelOf_computes _ _) (fun _ => kernelOf_computes _ _)
    (by show 0 < 128; decide) rfl _ _ List.mem_cons_self
  have e : L' = L n₀ := by
    have := (hL n₀ _).1 ((a1 _).2 rfl)
    rwa [Option.some.injEq] at this
  subst e
  have hs := (hn₀ n₀ le_rfl).2
  refine ⟨rule, V, fs, by simpa using h2, n₀, L n₀, M, a1, a2, fun b => ?_⟩
  obtain ⟨x, hx⟩ := (hs b).1
  exact ⟨x, hx, a3 hs x b hx⟩

/-- Systems that are solvable: screens of all sizes, with enough quadrature points. -/
example {lev : Nat} (hlev : 0 < lev) : ∃ (rule : List (List ℝ × List ℝ × ℝ)) (V : Nat → Nat → Nat → ℝ)
    (fs : FunctionSpace), fs.globalSize = (lev + 1) * (lev + 1) ∧
    ∃ M : Nat → ℝ → List ℂ, (∀ n w out,
        Assemble (complexPairEnv rule) (Helmholtz.singleLayer (fun w => kernelOf (helmholtzGreen w)) w (latticeOptions n))
          (Examples.spaceOf fs p1 (vertexGeometry triangleFunctions V) complexP1)
          (Examples.spaceOf fs p1 (vertexGeometry triangleFunctions V) complexP1) out ↔ out = some (M n w)) ∧
      ∃ n₀, ∀ n ≥ n₀, ∀ r, {w : ℝ | |w| ≤ r ∧
        ¬ UniquelySolvable (columnEntry (M n w) fs.globalSize) fs.globalSize}.Finite := by
  obtain ⟨rule, s, g, pt, cl, V, fs, hs, hb, hV, h1, h2, r1, -, r2⟩ := screen_setting hlev 0
  have hl : LibraryShape lev .triangle s := .inr (.inl ⟨hs, rfl⟩)
  have hu := p1_uniform .triangle (by decide)
  exact ⟨rule, V, fs, h2, C110_library (env := complexPairEnv rule) (o := latticeOptions) (Q := pairRules rule)
    (space := Examples.spaceOf fs p1 (vertexGeometry triangleFunctions V) complexP1) rfl hl hb hV hu h1
    (spaceOf_geometry fs p1 _ complexP1) (spaceOf_tabulate fs p1 _ complexP1) (complex_regular rule) (complex_singular r1)
    (fun w => kernelOf_computes _ _) (fun w => kernelOf_computes _ _) (fun _ => by show 0 < 128; decide)
    (realP1_continuous _) realP1_independent triangleRule_converges r2⟩

end Examples

end Bempp
