import Verif.Proofs.HelmholtzSurface
import Verif.Proofs.ComplexSystems
import Verif.Props.Planar
import Verif.Props.Library
/-
C90: linear systems with Helmholtz operators.
-/
namespace Bempp
open Filter Topology MeasureTheory Set

section
variable {sp : FunctionSpace} {fam : CellType → ElementDofs} {G : Geometry ℝ} {B : Basis ℝ ℝ} {t : CellType}

/-- The imaginary part of the form. -/
theorem helmholtz_form (w : ℝ) (hs : SerialSpace sp fam) (ht : ∀ c ∈ sp.grid.entityIter 2, c.entityType = t)
    (hcell : ∀ c ∈ sp.grid.entityIter 2, ContinuousCell G t c.localIndex)
    (hflat : ∀ c ∈ sp.grid.entityIter 2, FlatCell G c.localIndex) (hno : NoOverlap G t sp.grid)
    (hB : ContinuousBasis B t (fam t).dim) (z : Nat → ℂ) :
    ∃ p q : ℝ, 0 ≤ p ∧ 0 ≤ q ∧
      (hermitianForm (doubleSum sp sp (pairIntegral slF (helmholtzGreen w) G G (complexBasis B) (complexBasis B) t))
        sp.globalSize z).im = w / (4 * Real.pi) * (p + q) ∧
      ((∀ c ∈ sp.grid.entityIter 2, ∀ z, G.point c.localIndex (pointList z) 2 = 0) → w ≠ 0 →
        IndependentBasis B t (fam t).dim → p = 0 → q = 0 → ∀ i, i < sp.globalSize → z i = 0) := by
  rw [hermitianForm_im fun i j => helmholtz_symmetric w hs ht hcell hflat hB i j,
    helmholtz_im_form w hs ht hcell hflat hno hB, helmholtz_im_form w hs ht hcell hflat hno hB, ← mul_add]
  obtain ⟨p0, p1⟩ := sinc_form_definite w hs ht hcell hflat hno hB fun i => (z i).re
  obtain ⟨q0, q1⟩ := sinc_form_definite w hs ht hcell hflat hno hB fun i => (z i).im
  refine ⟨_, _, p0, q0, rfl, fun hplane hw hi hp hq i hi' => ?_⟩
  exact Complex.ext (coefficients_zero hs ht hi (p1 hplane hw hp) i hi') (coefficients_zero hs ht hi (q1 hplane hw hq) i hi')

theorem differentiable_list {ι : Type} (l : List ι) (f : ι → ℂ → ℂ) (h : ∀ a ∈ l, Differentiable ℂ (f a)) :
    Differentiable ℂ fun ζ => (l.map fun a => f a ζ).sum := by
  induction l with
  | nil => exact differentiable_const 0
  | cons a l ih =>
    simp only [List.map_cons, List.sum_cons]
    exact (h a (by simp)).add (ih fun b hb => h b (by simp [hb]))

/-- The matrices depend analytically on the wavenumber, and wavenumber 0 is the Laplace equation. -/
theorem helmholtz_family (hs : SerialSpace sp fam) (ht : ∀ c ∈ sp.grid.entityIter 2, c.entityType = t)
    (hcell : ∀ c ∈ sp.grid.entityIter 2, ContinuousCell G t c.localIndex)
    (hflat : ∀ c ∈ sp.grid.entityIter 2, FlatCell G c.localIndex) (hB : ContinuousBasis B t (fam t).dim) :
    ∃ A : ℂ → Nat → Nat → ℂ, (∀ i j, Differentiable ℂ fun ζ => A ζ i j) ∧
      (∀ w : ℝ, A w = doubleSum sp sp (pairIntegral slF (helmholtzGreen w) G G (complexBasis B) (complexBasis B) t)) ∧
      A 0 = fun i j => ((doubleSum sp sp (pairIntegral slF laplaceGreen G G B B t) i j : ℝ) : ℂ) := by
  refine ⟨fun ζ => doubleSum sp sp fun c c' a b => waveIntegral G B t c c' a b ζ, fun i j => ?_, fun w => ?_, ?_⟩
  · unfold doubleSum
    refine differentiable_list _ _ fun c hc => differentiable_list _ _ fun c' hc' => differentiable_list _ _ fun ia hia =>
      differentiable_list _ _ fun jb hjb => ?_
    by_cases h : ia.1 = i ∧ jb.1 = j
    · simp only [if_pos h]
      exact waveIntegral_differentiable (hcell c hc) (hcell c' hc') (hflat c hc) (hflat c' hc') hB
        (hs.dofsOf_lt ht hc hia) (hs.dofsOf_lt ht hc' hjb)
    · simp only [if_neg h]
      exact differentiable_const _
  · funext i j
    refine doubleSum_congr_dofs hs ht (fun c hc c' hc' a b ha hb => ?_) i j
    exact (pairIntegral_wave w (hcell c hc) (hcell c' hc') (hflat c hc) (hflat c' hc') hB ha hb).symm
  · funext i j
    rw [doubleSum_hom (fun x : ℝ => (x : ℂ)) Complex.ofReal_zero Complex.ofReal_add]
    refine doubleSum_congr_dofs hs ht (fun c hc c' hc' a b ha hb => ?_) i j
    unfold waveIntegral pairIntegral
    simp only [zero_mul, Complex.exp_zero, mul_one]
    rw [integral_complex_ofReal, integral_prod _ (laplace_integrable (hcell c hc) (hcell c' hc') (hflat c hc) (hflat c' hc')
      hB ha hb)]

end

section
variable {s : Shape ℝ} {t : CellType} {g : Grid} {pt cl : Nat → Nat} {V : Nat → Nat → Nat → ℝ} {lev : Nat}
  {fam : CellType → ElementDofs} {kk : Nat → Nat} {B : Basis ℝ ℝ}

/-- **C90.** On every sphere and every screen: if `A` is the Galerkin matrix of the Helmholtz single layer operator for the
wavenumber `w`, then the imaginary part of `zᴴ A z` is never negative if `w ≥ 0` and never positive if `w ≤ 0`, for all
complex vectors `z`. -/
theorem C90_energy (hs : LibraryShape lev t s) (hb : Built s t g pt cl) (hV : HasCorners s g pt V)
    (hf : (fam t).Uniform t kk) {fs : FunctionSpace} (hm : FunctionSpace.new 0 1 g fam = .done fs)
    (hB : ContinuousBasis B t (fam t).dim) (w : ℝ) (z : Nat → ℂ) :
    (0 ≤ w → 0 ≤ (hermitianForm (doubleSum fs fs (pairIntegral slF (helmholtzGreen w) (vertexGeometry (cellFunctions t) V)
      (vertexGeometry (cellFunctions t) V) (complexBasis B) (complexBasis B) t)) fs.globalSize z).im) ∧
    (w ≤ 0 → (hermitianForm (doubleSum fs fs (pairIntegral slF (helmholtzGreen w) (vertexGeometry (cellFunctions t) V)
      (vertexGeometry (cellFunctions t) V) (complexBasis B) (complexBasis B) t)) fs.globalSize z).im ≤ 0) := by
  obtain ⟨hss, hg⟩ := shape_space hb hf hm
  obtain ⟨p, q, hp, hq, e, -⟩ := helmholtz_form (sp := fs) (t := t) w hss (by rw [hg]; exact fun c hc => hb.cell_type hc)
    (by rw [hg]; exact fun c hc => shape_continuous hs hb hV hc) (by rw [hg]; exact fun c hc => shape_flat hs hb hV hc)
    (by rw [hg]; exact shape_noOverlap hs hb hV) hB z
  rw [e]
  have hpi := Real.pi_pos
  refine ⟨fun hw => by positivity, fun hw => ?_⟩
  have h1 : w / (4 * Real.pi) ≤ 0 := div_nonpos_of_nonpos_of_nonneg hw (by positivity)
  exact mul_nonpos_of_nonpos_of_nonneg h1 (by positivity)

/-- The family of matrices on a shape. -/
theorem shape_family (hs : LibraryShape lev t s) (hb : Built s t g pt cl) (hV : HasCorners s g pt V)
    (hf : (fam t).Uniform t kk) {fs : FunctionSpace} (hm : FunctionSpace.new 0 1 g fam = .done fs)
    (hB : ContinuousBasis B t (fam t).dim) (hi : IndependentBasis B t (fam t).dim) :
    ∃ A : ℂ → Nat → Nat → ℂ, (∀ i j, Differentiable ℂ fun ζ => A ζ i j) ∧
      (∀ w : ℝ, A w = doubleSum fs fs (pairIntegral slF (helmholtzGreen w) (vertexGeometry (cellFunctions t) V)
        (vertexGeometry (cellFunctions t) V) (complexBasis B) (complexBasis B) t)) ∧
      UniquelySolvable (A 0) fs.globalSize := by
  obtain ⟨hss, hg⟩ := shape_space hb hf hm
  obtain ⟨A, h1, h2, h3⟩ := helmholtz_family (sp := fs) (t := t) hss (by rw [hg]; exact fun c hc => hb.cell_type hc)
    (by rw [hg]; exact fun c hc => shape_continuous hs hb hV hc) (by rw [hg]; exact fun c hc => shape_flat hs hb hV hc) hB
  refine ⟨A, h1, h2, ?_⟩
  rw [h3]
  obtain ⟨m, hm0, hdef⟩ := C81_definite hs hb hV hf hm hB hi
  refine uniquelySolvable_real fun u hu => ?_
  have h4 := hdef u
  rw [hu] at h4
  have h5 := sumSq_nonneg fs.globalSize u
  exact sumSq_eq_zero (by nlinarith)

/-- **C90.** On every sphere and every screen the linear systems with the Galerkin matrix of the Helmholtz single layer
operator have exactly one solution for all wavenumbers, except for finitely many in each bounded interval. -/
theorem C90_wavenumbers (hs : LibraryShape lev t s) (hb : Built s t g pt cl) (hV : HasCorners s g pt V)
    (hf : (fam t).Uniform t kk) {fs : FunctionSpace} (hm : FunctionSpace.new 0 1 g fam = .done fs)
    (hB : ContinuousBasis B t (fam t).dim) (hi : IndependentBasis B t (fam t).dim) (R : ℝ) :
    {w : ℝ | |w| ≤ R ∧ ¬ UniquelySolvable (doubleSum fs fs (pairIntegral slF (helmholtzGreen w)
      (vertexGeometry (cellFunctions t) V) (vertexGeometry (cellFunctions t) V) (complexBasis B) (complexBasis B) t))
        fs.globalSize}.Finite := by
  obtain ⟨A, h1, h2, h3⟩ := shape_family hs hb hV hf hm hB hi
  have := exceptions_finite h1 h3 R
  simpa only [h2] using this

/-- **C90.** In particular for all small wavenumbers. -/
theorem C90_small (hs : LibraryShape lev t s) (hb : Built s t g pt cl) (hV : HasCorners s g pt V)
    (hf : (fam t).Uniform t kk) {fs : FunctionSpace} (hm : FunctionSpace.new 0 1 g fam = .done fs)
    (hB : ContinuousBasis B t (fam t).dim) (hi : IndependentBasis B t (fam t).dim) :
    ∃ w₀ > 0, ∀ w, |w| ≤ w₀ → UniquelySolvable (doubleSum fs fs (pairIntegral slF (helmholtzGreen w)
      (vertexGeometry (cellFunctions t) V) (vertexGeometry (cellFunctions t) V) (complexBasis B) (complexBasis B) t))
        fs.globalSize := by
  obtain ⟨A, h1, h2, h3⟩ := shape_family hs hb hV hf hm hB hi
  have hfin := C90_wavenumbers hs hb hV hf hm hB hi 1
  have h0 : (0 : ℝ) ∉ {w : ℝ | |w| ≤ 1 ∧ ¬ UniquelySolvable (doubleSum fs fs (pairIntegral slF (helmholtzGreen w)
      (vertexGeometry (cellFunctions t) V) (vertexGeometry (cellFunctions t) V) (complexBasis B) (complexBasis B) t))
        fs.globalSize} := by
    rintro ⟨-, h⟩
    rw [← h2] at h
    exact h h3
  obtain ⟨d, hd, hball⟩ := Metric.mem_nhds_iff.mp (hfin.isClosed.isOpen_compl.mem_nhds h0)
  refine ⟨min (d / 2) 1, by positivity, fun w hw => ?_⟩
  by_contra hn
  have hin : w ∈ Metric.ball (0 : ℝ) d := by
    rw [Metric.mem_ball, Real.dist_eq, sub_zero]
    have := hw.trans (min_le_left _ _)
    linarith
  exact hball hin ⟨hw.trans (min_le_right _ _), hn⟩

/-- **C90.** On every screen the linear systems with the Galerkin matrix of the Helmholtz single layer operator have exactly
one solution for every wavenumber. -/
theorem C90_screens (hs : screenTriangles (fun k => (k : ℝ)) lev = some s ∧ t = .triangle ∨
      screenQuadrilaterals (fun k => (k : ℝ)) lev = some s ∧ t = .quadrilateral)
    (hb : Built s t g pt cl) (hV : HasCorners s g pt V)
    (hf : (fam t).Uniform t kk) {fs : FunctionSpace} (hm : FunctionSpace.new 0 1 g fam = .done fs)
    (hB : ContinuousBasis B t (fam t).dim) (hi : IndependentBasis B t (fam t).dim) (w : ℝ) :
    UniquelySolvable (doubleSum fs fs (pairIntegral slF (helmholtzGreen w) (vertexGeometry (cellFunctions t) V)
      (vertexGeometry (cellFunctions t) V) (complexBasis B) (complexBasis B) t)) fs.globalSize := by
  have hl : LibraryShape lev t s := .inr hs
  rcases eq_or_ne w 0 with rfl | hw
  · obtain ⟨A, -, h2, h3⟩ := shape_family hl hb hV hf hm hB hi
    rw [← h2]
    exact h3
  · obtain ⟨hss, hg⟩ := shape_space hb hf hm
    refine uniquelySolvable_of_form fun z hz => ?_
    obtain ⟨p, q, hp, hq, e, hdef⟩ := helmholtz_form (sp := fs) (t := t) w hss
      (by rw [hg]; exact fun c hc => hb.cell_type hc)
      (by rw [hg]; exact fun c hc => shape_continuous hl hb hV hc) (by rw [hg]; exact fun c hc => shape_flat hl hb hV hc)
      (by rw [hg]; exact shape_noOverlap hl hb hV) hB z
    rw [hz, Complex.zero_im] at e
    have hpi := Real.pi_pos
    have h1 : p + q = 0 := (mul_eq_zero.mp e.symm).resolve_left (div_ne_zero hw (by positivity))
    have hh := C83_screens hs hb hV
    refine hdef ?_ hw hi (by linarith) (by linarith)
    rw [hg]
    intro c hc x
    exact hh.height c hc _

/-- **C90.** For all Helmholtz operators: if the linear systems with the Galerkin matrix have exactly one solution, then so
have the systems with the matrices that assembly returns, from some number of quadrature points on, and their solutions
converge. -/
theorem C90_converges {env : Env ℝ ℂ} {asm : Nat → Assembler ℝ ℂ} {space : Space ℝ ℂ} {F : MathIntegrand ℂ} {w : ℝ}
    {BB : Basis ℝ ℂ} {o : Nat → Options} {Q : Nat → Quadrature ℝ} (hcast : env.cast = Complex.ofReal)
    (hs : LibraryShape lev t s) (hb : Built s t g pt cl) (hV : HasCorners s g pt V) (hf : (fam t).Uniform t kk)
    (hm : FunctionSpace.new 0 1 g fam = .done space.fs)
    (hgeo : GeometryOk space (vertexGeometry (cellFunctions t) V)) (htab : TabulateOk space fam BB)
    (hreg : ∀ n, RegularOk env (o n) (Q n) t) (hsing : ∀ n, SingularOk env (o n) (Q n) t t)
    (ho : ∀ n, OperatorWith env.cast (o n) (helmholtzGreen w) (asm n) F) (hbatch : ∀ n, 0 < (o n).batchSize)
    (hBB : ContinuousBasis BB t (fam t).dim) (hrule : RulesConverge (refCell t) fun n => (Q n).regular t)
    (hpair : ∀ c ∈ g.entityIter 2, ∀ c' ∈ g.entityIter 2, c.Touches c' → ∀ a b, a < (fam t).dim → b < (fam t).dim →
      PairRulesConverge (refCell t) (fun n => (Q n).singular t t (connectivity c c'))
        (pairIntegrand F (helmholtzGreen w) (vertexGeometry (cellFunctions t) V) (vertexGeometry (cellFunctions t) V) BB BB t
          c.localIndex c'.localIndex a b))
    (hsolv : UniquelySolvable (doubleSum space.fs space.fs (pairIntegral F (helmholtzGreen w)
      (vertexGeometry (cellFunctions t) V) (vertexGeometry (cellFunctions t) V) BB BB t)) space.fs.globalSize)
    {x b : Nat → ℂ} (hx : SystemSolves (doubleSum space.fs space.fs (pairIntegral F (helmholtzGreen w)
      (vertexGeometry (cellFunctions t) V) (vertexGeometry (cellFunctions t) V) BB BB t)) space.fs.globalSize x b) :
    ∃ M : Nat → List ℂ, (∀ n out, Assemble env (asm n) space space out ↔ out = some (M n)) ∧
      ∀ ε > 0, ∃ n₀, ∀ n ≥ n₀,
        UniquelySolvable (fun i j => (M n).getD (i + space.fs.globalSize * j) 0) space.fs.globalSize ∧
        ∀ y, SystemSolves (fun i j => (M n).getD (i + space.fs.globalSize * j) 0) space.fs.globalSize y b →
          ∀ i, i < space.fs.globalSize → ‖y i - x i‖ ≤ ε := by
  obtain ⟨M, hM, hlim⟩ := C79_helmholtz hcast hs hb hV hf hf hm hm hgeo hgeo htab htab hreg hsing ho hbatch hBB hBB hrule hpair
  refine ⟨M, hM, fun ε hε => ?_⟩
  obtain ⟨δ, hδ, hnear⟩ := nearby_system hsolv hx hε
  have h1 : ∀ᶠ n in atTop, ∀ i : Fin space.fs.globalSize, ∀ j : Fin space.fs.globalSize,
      ‖(M n).getD (i + space.fs.globalSize * j) 0 - doubleSum space.fs space.fs (pairIntegral F (helmholtzGreen w)
        (vertexGeometry (cellFunctions t) V) (vertexGeometry (cellFunctions t) V) BB BB t) i j‖ < δ := by
    rw [eventually_all]
    intro i
    rw [eventually_all]
    intro j
    have := (Metric.tendsto_nhds.mp (hlim i j i.2 j.2)) _ hδ
    simpa [dist_eq_norm] using this
  obtain ⟨n₀, hn₀⟩ := eventually_atTop.mp h1
  refine ⟨n₀, fun n hn => ?_⟩
  obtain ⟨k1, k2⟩ := hnear (fun i j => (M n).getD (i + space.fs.globalSize * j) 0)
    fun i j hi hj => (hn₀ n hn ⟨i, hi⟩ ⟨j, hj⟩).le
  exact ⟨k1, fun y hy => k2 b y (fun i _ => by simpa using hδ.le) hy⟩

/-- **C90.** From the shape to the solution, in floating point arithmetic: if the linear systems with the Galerkin matrix
have exactly one solution, then so have the systems with the computed matrices, and the solutions, also for inexact
right-hand sides, are within every given tolerance, with enough quadrature points and digits. -/
theorem C90_solution {w : ℝ} {F' : MathIntegrand ℂ} {W : MathIntegrand ℝ} {k m : Nat} {Q : Nat → Quadrature ℝ}
    (hF : OperatorFormula F') (hF' : Factors F' W m) {BB : Basis ℝ ℂ}
    (hs : LibraryShape lev t s) (hb : Built s t g pt cl) (hV : HasCorners s g pt V)
    (hf : (fam t).Uniform t kk) {fs : FunctionSpace} (hm : FunctionSpace.new 0 1 g fam = .done fs)
    (hBB : ContinuousBasis BB t (fam t).dim)
    (hQ : ∀ n, SeparateNodes g t V (Q n)) (hrule : RulesConverge (refCell t) fun n => (Q n).regular t)
    (hpair : ∀ c ∈ g.entityIter 2, ∀ c' ∈ g.entityIter 2, c.Touches c' → ∀ a b, a < (fam t).dim → b < (fam t).dim →
      PairRulesConverge (refCell t) (fun n => (Q n).singular t t (connectivity c c'))
        (pairIntegrand F' (helmholtzGreen w) (vertexGeometry (cellFunctions t) V) (vertexGeometry (cellFunctions t) V) BB BB t
          c.localIndex c'.localIndex a b))
    (hsolv : UniquelySolvable (doubleSum fs fs (pairIntegral F' (helmholtzGreen w) (vertexGeometry (cellFunctions t) V)
      (vertexGeometry (cellFunctions t) V) BB BB t)) fs.globalSize)
    {x b : Nat → ℂ} (hx : SystemSolves (doubleSum fs fs (pairIntegral F' (helmholtzGreen w)
      (vertexGeometry (cellFunctions t) V) (vertexGeometry (cellFunctions t) V) BB BB t)) fs.globalSize x b)
    {ε : ℝ} (hε : 0 < ε) :
    ∃ n₀, ∀ n ≥ n₀, ∃ δ > 0, ∀ u e, 0 ≤ u → u ≤ δ → 0 ≤ e → e ≤ δ →
      ∀ (A : Arith ℝ u) (C : Arith ℂ u) s' V' env asm trial test D Q' o F,
      ComputedShape A lev t s s' → HasCorners s'.values g pt V' →
      LibraryAssembly A C e (helmholtzGreen w) V' BB BB (Q n) g t fam fam F' W k env asm trial test D Q' o F →
      ∃ M : List (Fl C), (∀ out, Assemble env asm trial test out ↔ out = some M) ∧
        UniquelySolvable (fun i j => (values M).getD (i + fs.globalSize * j) 0) fs.globalSize ∧
        ∀ b' y, (∀ i, i < fs.globalSize → ‖b' i - b i‖ ≤ δ) →
          SystemSolves (fun i j => (values M).getD (i + fs.globalSize * j) 0) fs.globalSize y b' →
          ∀ i, i < fs.globalSize → ‖y i - x i‖ ≤ ε := by
  obtain ⟨δ, hδ, hnear⟩ := nearby_system hsolv hx hε
  obtain ⟨n₀, hn₀⟩ := C89_helmholtz (W := W) (k := k) hF hF' hs hb hV hf hf hm hm hBB hBB hQ hrule hpair hδ
  refine ⟨n₀, fun n hn => ?_⟩
  obtain ⟨d, hd, h⟩ := hn₀ n hn
  refine ⟨min d δ, lt_min hd hδ, fun u e u0 hu e0 he A C s' V' env asm trial test D Q' o F hc hV' ha => ?_⟩
  obtain ⟨M, m1, -, m3⟩ := h u e u0 (hu.trans (min_le_left _ _)) e0 (he.trans (min_le_left _ _)) A C s' V' env asm trial test
    D Q' o F hc hV' ha
  obtain ⟨k1, k2⟩ := hnear (fun i j => (values M).getD (i + fs.globalSize * j) 0) m3
  exact ⟨M, m1, k1, fun b' y hb' hy => k2 b' y (fun i hi => (hb' i hi).trans (min_le_right _ _)) hy⟩

end

/-! ### C90: the hypotheses can be met -/

namespace Examples

theorem complexP1_eq : complexP1 = complexBasis realP1 := rfl

/-- A rule that is exact for complex integrands. -/
theorem exact_complex_rule {S : Set (ℝ × ℝ)} {N : Set ((ℝ × ℝ) × (ℝ × ℝ))} (hN : volume N = 0)
    (L : List (List ℝ → List ℝ → ℂ))
    (hL : ∀ f ∈ L, IntegrableOn (fun z : (ℝ × ℝ) × (ℝ × ℝ) => f (pointList z.1) (pointList z.2)) (S ×ˢ S)) :
    ∃ rule : List (List ℝ × List ℝ × ℝ), (∀ p ∈ rule, ∃ z ∉ N, p.1 = pointList z.1 ∧ p.2.1 = pointList z.2) ∧
      ∀ f ∈ L, (rule.map fun p => (p.2.2 : ℂ) * f p.1 p.2.1).sum =
        ∫ x in S, ∫ y in S, f (pointList x) (pointList y) := by
  obtain ⟨rule, h1, h2⟩ := exact_rule_avoiding hN ((L.map fun f x y => (f x y).re) ++ (L.map fun f x y => (f x y).im)) (by
    intro f hf
    simp only [List.mem_append, List.mem_map] at hf
    rcases hf with ⟨f, hf, rfl⟩ | ⟨f, hf, rfl⟩
    · exact (hL f hf).re
    · exact (hL f hf).im)
  refine ⟨rule, h1, fun f hf => ?_⟩
  have hr := h2 (fun x y => (f x y).re) (by simp only [List.mem_append, List.mem_map]; exact .inl ⟨f, hf, rfl⟩)
  have hi := h2 (fun x y => (f x y).im) (by simp only [List.mem_append, List.mem_map]; exact .inr ⟨f, hf, rfl⟩)
  have hint := hL f hf
  have e : ∀ φ : ℂ → ℝ, IntegrableOn (fun z : (ℝ × ℝ) × (ℝ × ℝ) => φ (f (pointList z.1) (pointList z.2))) (S ×ˢ S) →
      ∫ x in S, ∫ y in S, φ (f (pointList x) (pointList y)) =
        ∫ z in S ×ˢ S, φ (f (pointList z.1) (pointList z.2)) := by
    intro φ h
    rw [Measure.volume_eq_prod] at h ⊢
    exact (setIntegral_prod _ h).symm
  rw [e Complex.re hint.re] at hr
  rw [e Complex.im hint.im] at hi
  have e2 : ∫ x in S, ∫ y in S, f (pointList x) (pointList y) =
      ∫ z in S ×ˢ S, f (pointList z.1) (pointList z.2) := by
    rw [Measure.volume_eq_prod] at hint ⊢
    exact (setIntegral_prod _ hint).symm
  rw [e2]
  have key : ∀ l : List (List ℝ × List ℝ × ℝ), (l.map fun p => (p.2.2 : ℂ) * f p.1 p.2.1).sum =
      (((l.map fun p => p.2.2 * (f p.1 p.2.1).re).sum : ℝ) : ℂ) +
        (((l.map fun p => p.2.2 * (f p.1 p.2.1).im).sum : ℝ) : ℂ) * Complex.I := by
    intro l
    induction l with
    | nil => simp
    | cons p l ih =>
      simp only [List.map_cons, List.sum_cons]
      rw [ih]
      push_cast
      conv_lhs => rw [← Complex.re_add_im (f p.1 p.2.1)]
      ring
  rw [key, hr, hi]
  exact integral_re_add_im hint

/-- Libraries for complex matrices. -/
noncomputable def complexPairEnv (rule : List (List ℝ × List ℝ × ℝ)) : Env ℝ ℂ :=
  { complexEnv with
    simplexRule := (pairEnv rule).simplexRule
    triangleDuffy := (pairEnv rule).triangleDuffy }

theorem complex_regular (rule : List (List ℝ × List ℝ × ℝ)) (n : Nat) :
    RegularOk (complexPairEnv rule) (latticeOptions n) (pairRules rule n) .triangle where
  degree := rfl
  rule := (lattice_regular n).rule
  points := lattice_points n

theorem complex_singular {rule : List (List ℝ × List ℝ × ℝ)} (h : ∀ p ∈ rule, p.1.length = 2 ∧ p.2.1.length = 2) (n : Nat) :
    SingularOk (complexPairEnv rule) (latticeOptions n) (pairRules rule n) .triangle .triangle where
  degree := ⟨(triangleRule n).length, rfl, fun _ _ => rfl⟩
  points := fun _ _ p hp => h p hp

/-- A screen with a rule that is exact for the pairs of triangles that touch. -/
theorem screen_setting {lev : Nat} (hlev : 0 < lev) (w : ℝ) : ∃ (rule : List (List ℝ × List ℝ × ℝ)) (s : Shape ℝ) (g : Grid)
    (pt cl : Nat → Nat) (V : Nat → Nat → Nat → ℝ) (fs : FunctionSpace),
    screenTriangles (fun k => (k : ℝ)) lev = some s ∧ Built s .triangle g pt cl ∧ HasCorners s g pt V ∧
    FunctionSpace.new 0 1 g p1 = .done fs ∧ fs.globalSize = (lev + 1) * (lev + 1) ∧
    (∀ p ∈ rule, p.1.length = 2 ∧ p.2.1.length = 2) ∧ (∀ n, SeparateNodes g .triangle V (pairRules rule n)) ∧
    ∀ c ∈ g.entityIter 2, ∀ c' ∈ g.entityIter 2, c.Touches c' → ∀ a b, a < (p1 .triangle).dim → b < (p1 .triangle).dim →
      PairRulesConverge (refCell .triangle) (fun n => (pairRules rule n).singular .triangle .triangle (connectivity c c'))
        (pairIntegrand slF (helmholtzGreen w) (vertexGeometry (cellFunctions .triangle) V)
          (vertexGeometry (cellFunctions .triangle) V) (complexBasis realP1) (complexBasis realP1) .triangle c.localIndex
          c'.localIndex a b) := by
  obtain ⟨s, hs⟩ := screenTriangles_some (fun k => (k : ℝ)) hlev
  have hl : LibraryShape lev .triangle s := .inr (.inl ⟨hs, rfl⟩)
  obtain ⟨-, -, -, ⟨g, pt, cl, hb⟩, -⟩ := C47_conforming _ _ _ hl
  obtain ⟨⟨V, hV⟩, -⟩ := C79_surface hl hb
  have hu := p1_uniform .triangle (by decide)
  obtain ⟨fs, h1, h2⟩ := C46_screen_triangles _ hs hb hu
  obtain ⟨rule, r1, r2⟩ := exact_complex_rule (S := refCell .triangle)
    (N := ⋃ c ∈ {c | c ∈ g.entityIter 2}, ⋃ c' ∈ {c | c ∈ g.entityIter 2}, {z |
      (vertexGeometry triangleFunctions V).coords c.localIndex (pointList z.1) =
        (vertexGeometry triangleFunctions V).coords c'.localIndex (pointList z.2)})
    ((measure_biUnion_null_iff (g.entityIter 2).finite_toSet.countable).mpr fun c hc =>
      (measure_biUnion_null_iff (g.entityIter 2).finite_toSet.countable).mpr fun c' hc' =>
        common_null (shape_flat hl hb hV hc) (shape_flat hl hb hV hc'))
    ((g.entityIter 2).flatMap fun c => (g.entityIter 2).flatMap fun c' => (List.range 3).flatMap fun a =>
      (List.range 3).map fun b => pairIntegrand slF (helmholtzGreen w) (vertexGeometry triangleFunctions V)
        (vertexGeometry triangleFunctions V) (complexBasis realP1) (complexBasis realP1) .triangle c.localIndex
          c'.localIndex a b) (by
      intro f hf
      simp only [List.mem_flatMap, List.mem_map, List.mem_range] at hf
      obtain ⟨c, hc, c', hc', a, ha, b, hb', rfl⟩ := hf
      exact shape_integrable (helmholtzGreen_greenLike w) .singleLayer hl hb hV
        (complexBasis_continuous (realP1_continuous .triangle)) (complexBasis_continuous (realP1_continuous .triangle))
        hc hc' ha hb')
  refine ⟨rule, s, g, pt, cl, V, fs, hs, hb, hV, h1, by simpa using h2, fun q hq => ?_, fun n => ?_,
    fun c hc c' hc' _ a b ha hb' => ?_⟩
  · obtain ⟨z, -, e1, e2⟩ := r1 q hq
    rw [e1, e2]
    exact ⟨rfl, rfl⟩
  · refine ⟨fun c hc c' hc' _ q hq e => ?_, triangleRule_converges.nodes n⟩
    obtain ⟨z, hz, e1, e2⟩ := r1 q hq
    rw [e1, e2] at e
    exact hz (Set.mem_biUnion hc (Set.mem_biUnion hc' e))
  · have := r2 _ (List.mem_flatMap.mpr ⟨c, hc, List.mem_flatMap.mpr ⟨c', hc', List.mem_flatMap.mpr
      ⟨a, List.mem_range.mpr ha, List.mem_map.mpr ⟨b, List.mem_range.mpr hb', rfl⟩⟩⟩⟩)
    show Tendsto (fun _ => (rule.map fun p => (p.2.2 : ℂ) * _).sum) atTop _
    exact tendsto_const_nhds.congr fun _ => this.symm

/-- C90: the single layer systems on screens of all sizes for every wavenumber. -/
example {lev : Nat} (hlev : 0 < lev) (w : ℝ) : ∃ (rule : List (List ℝ × List ℝ × ℝ)) (V : Nat → Nat → Nat → ℝ)
    (fs : FunctionSpace), fs.globalSize = (lev + 1) * (lev + 1) ∧ ∀ b : Nat → ℂ,
    ∃ x, SystemSolves (doubleSum fs fs (pairIntegral slF (helmholtzGreen w) (vertexGeometry triangleFunctions V)
      (vertexGeometry triangleFunctions V) complexP1 complexP1 .triangle)) fs.globalSize x b ∧
    ∃ M : Nat → List ℂ, (∀ n out,
        Assemble (complexPairEnv rule) (Helmholtz.singleLayer (fun w => kernelOf (helmholtzGreen w)) w (latticeOptions n))
          (Examples.spaceOf fs p1 (vertexGeometry triangleFunctions V) complexP1)
          (Examples.spaceOf fs p1 (vertexGeometry triangleFunctions V) complexP1) out ↔ out = some (M n)) ∧
      ∀ ε > 0, ∃ n₀, ∀ n ≥ n₀,
        UniquelySolvable (fun i j => (M n).getD (i + fs.globalSize * j) 0) fs.globalSize ∧
        ∀ y, SystemSolves (fun i j => (M n).getD (i + fs.globalSize * j) 0) fs.globalSize y b →
          ∀ i, i < fs.globalSize → ‖y i - x i‖ ≤ ε := by
  obtain ⟨rule, s, g, pt, cl, V, fs, hs, hb, hV, h1, h2, r1, -, r2⟩ := screen_setting hlev w
  have hl : LibraryShape lev .triangle s := .inr (.inl ⟨hs, rfl⟩)
  have hu := p1_uniform .triangle (by decide)
  have hsolv := C90_screens (.inl ⟨hs, rfl⟩) hb hV hu h1 (realP1_continuous _) realP1_independent w
  refine ⟨rule, V, fs, h2, fun b => ?_⟩
  obtain ⟨x, hx⟩ := (hsolv b).1
  refine ⟨x, hx, ?_⟩
  exact C90_converges (env := complexPairEnv rule) (o := latticeOptions) (Q := pairRules rule)
    (space := Examples.spaceOf fs p1 (vertexGeometry triangleFunctions V) complexP1)
    (asm := fun n => Helmholtz.singleLayer (fun w => kernelOf (helmholtzGreen w)) w (latticeOptions n)) rfl hl hb hV hu h1
    (spaceOf_geometry fs p1 _ complexP1) (spaceOf_tabulate fs p1 _ complexP1) (complex_regular rule) (complex_singular r1)
    (fun n => .helmholtzSingleLayer (kernelOf_computes (helmholtzGreen w) _)) (fun _ => by show 0 < 128; decide)
    (complexBasis_continuous (realP1_continuous _)) triangleRule_converges r2 hsolv hx

/-- Complex numbers whose parts have `p + 1` binary digits. -/
noncomputable def complexRoundTo (p : Nat) (z : ℂ) : ℂ := ⟨roundTo p z.re, roundTo p z.im⟩

theorem complexRoundTo_err (p : Nat) (z : ℂ) : ‖complexRoundTo p z - z‖ ≤ 2⁻¹ ^ (p + 1) * ‖z‖ := by
  rw [← sq_le_sq₀ (norm_nonneg _) (by positivity), mul_pow, Complex.sq_norm, Complex.sq_norm, Complex.normSq_apply,
    Complex.normSq_apply, Complex.sub_re, Complex.sub_im]
  have e : ∀ x : ℝ, (roundTo p x - x) * (roundTo p x - x) ≤ (2⁻¹ ^ (p + 1)) ^ 2 * (x * x) := by
    intro x
    have := mul_self_le_mul_self (norm_nonneg _) (roundTo_err p x)
    rw [Real.norm_eq_abs, Real.norm_eq_abs, abs_mul_abs_self] at this
    refine this.trans (le_of_eq ?_)
    rw [← abs_mul_abs_self x]
    ring
  have := e z.re
  have := e z.im
  simp only [complexRoundTo] at *
  linarith

noncomputable def complexDigits (p : Nat) : Arith ℂ (2⁻¹ ^ (p + 1)) :=
  Arith.ofRound (complexRoundTo p) (complexRoundTo_err p)

noncomputable def digitsNat (p k : Nat) : Fl (digits p) := roundTo p k

theorem digitsNat_rounded (p : Nat) : RoundedNat (digits p) (digitsNat p) :=
  ⟨fun k => by
    have := roundTo_err p k
    rwa [Real.norm_eq_abs, Real.norm_eq_abs, Nat.abs_cast] at this⟩

noncomputable def screenEnv (rule : List (List ℝ × List ℝ × ℝ)) (p : Nat) : Env (Fl (digits p)) (Fl (complexDigits p)) :=
  ({ complexEnv with
    simplexRule := (roundedEnv p (pairEnv rule)).simplexRule
    triangleDuffy := (roundedEnv p (pairEnv rule)).triangleDuffy } : Env ℝ ℂ)

noncomputable def screenSpace (p : Nat) (fs : FunctionSpace) (v : Nat → Nat → Nat → ℝ) :
    Space (Fl (digits p)) (Fl (complexDigits p)) :=
  Examples.spaceOf fs p1 (vertexGeometry triangleFunctions v) (complexBasis realP1)

noncomputable def roundedWave (w : ℝ) (p : Nat) : MathKernel ℝ ℂ := fun x y i => complexRoundTo p (helmholtzGreen w x y i)

/-- Assembly on a screen whose vertices were computed with `p + 1` binary digits, with a kernel and weights that are
rounded. -/
theorem screen_library {g : Grid} {V' : Nat → Nat → Nat → ℝ} {rule : List (List ℝ × List ℝ × ℝ)} {fs : FunctionSpace} {p : Nat}
    {asm : Assembler (Fl (digits p)) (Fl (complexDigits p))} {F' : MathIntegrand ℂ} {F : MathIntegrand (Fl (complexDigits p))}
    {W : MathIntegrand ℝ} {k : Nat} {w : ℝ} (n : Nat)
    (hm : FunctionSpace.new 0 1 g p1 = .done fs) (hrule : ∀ q ∈ rule, q.1.length = 2 ∧ q.2.1.length = 2)
    (ho : OperatorWith (screenEnv rule p).cast (latticeOptions n) (roundedWave w p) asm F)
    (hr : Rounded (digits p) (complexDigits p) F F' W k) :
    LibraryAssembly (digits p) (complexDigits p) (2⁻¹ ^ (p + 1)) (helmholtzGreen w) V' (complexBasis realP1)
      (complexBasis realP1) (pairRules rule n) g .triangle p1 p1
      F' W k (screenEnv rule p) asm (screenSpace p fs V') (screenSpace p fs V')
      { shapeData (helmholtzGreen w) .triangle V' (complexBasis realP1) (complexBasis realP1) with kernel := roundedWave w p }
      (roundedRules p (pairRules rule n)) (latticeOptions n) F where
  cast := rfl
  testMade := hm
  trialMade := hm
  sameGeometry := rfl
  testGeometry := spaceOf_geometry fs p1 _ (complexBasis realP1)
  trialGeometry := spaceOf_geometry fs p1 _ (complexBasis realP1)
  testBasis := spaceOf_tabulate fs p1 _ (complexBasis realP1)
  trialBasis := spaceOf_tabulate fs p1 _ (complexBasis realP1)
  regular := ⟨(rounded_regular (pair_regular rule n) p).degree, (rounded_regular (pair_regular rule n) p).rule,
    (rounded_regular (pair_regular rule n) p).points⟩
  singular := ⟨(rounded_singular (pair_singular hrule n) p).degree, (rounded_singular (pair_singular hrule n) p).points⟩
  operator := ho
  rounded := hr
  batch := by show 0 < 128; decide
  accurate := by
    have he : (0 : ℝ) ≤ 2⁻¹ ^ (p + 1) := by positivity
    have hz : ∀ x : ℝ, 0 ≤ 2⁻¹ ^ (p + 1) * (1 + |x|) := fun x => by positivity
    have hz' : ∀ x : ℂ, 0 ≤ 2⁻¹ ^ (p + 1) * (1 + ‖x‖) := fun x => by positivity
    have near : ∀ (G : Geometry ℝ) c x, Geometry.NearAt (2⁻¹ ^ (p + 1)) G G c x x := fun G c x =>
      ⟨fun i _ => by rw [sub_self, abs_zero]; exact hz _, fun i _ => by rw [sub_self, abs_zero]; exact hz _,
        fun i _ => by rw [sub_self, abs_zero]; exact hz _, by rw [sub_self, abs_zero]; exact hz _⟩
    exact {
      weights := rounded_weights p _ _
      testGeometry := fun c _ x x' hx => by
        obtain rfl := rounded_nodes hx
        exact near _ _ _
      trialGeometry := fun c _ x x' hx => by
        obtain rfl := rounded_nodes hx
        exact near _ _ _
      testBasis := fun x x' hx a i _ _ => by
        obtain rfl := rounded_nodes hx
        simp only [shapeData, sub_self, norm_zero]
        exact hz' _
      trialBasis := fun x x' hx a i _ _ => by
        obtain rfl := rounded_nodes hx
        simp only [shapeData, sub_self, norm_zero]
        exact hz' _
      kernel := fun c _ c' _ x y x' y' hx i _ => (complexRoundTo_err p _).trans
        (mul_le_mul_of_nonneg_left (le_add_of_nonneg_left zero_le_one) he) }

/-- C90: on screens of all sizes, for every wavenumber: from the points of the screen to the solution of the single layer
system. -/
example {lev : Nat} (hlev : 0 < lev) (w : ℝ) : ∃ (rule : List (List ℝ × List ℝ × ℝ)) (s : Shape ℝ) (g : Grid)
    (pt cl : Nat → Nat) (V : Nat → Nat → Nat → ℝ) (fs : FunctionSpace),
    screenTriangles (fun k => (k : ℝ)) lev = some s ∧ Built s .triangle g pt cl ∧ HasCorners s g pt V ∧
    FunctionSpace.new 0 1 g p1 = .done fs ∧ fs.globalSize = (lev + 1) * (lev + 1) ∧ ∀ b : Nat → ℂ, ∃ x : Nat → ℂ,
      SystemSolves (doubleSum fs fs (pairIntegral slF (helmholtzGreen w) (vertexGeometry triangleFunctions V)
        (vertexGeometry triangleFunctions V) (complexBasis realP1) (complexBasis realP1) .triangle)) fs.globalSize x b ∧
      ∀ ε > 0, ∃ n₀, ∀ n ≥ n₀, ∃ p₀, ∀ p ≥ p₀, ∃ s' V',
        screenTriangles (digitsNat p) lev = some s' ∧
        HasCorners s'.values g pt V' ∧ ∃ M : List (Fl (complexDigits p)),
        (∀ out, Assemble (screenEnv rule p) (Helmholtz.singleLayer (R := Fl (digits p)) (T := Fl (complexDigits p))
          (fun _ => kernelOf (roundedWave w p)) w (latticeOptions n)) (screenSpace p fs V') (screenSpace p fs V') out ↔
            out = some M) ∧
        UniquelySolvable (fun i j => (values M).getD (i + fs.globalSize * j) 0) fs.globalSize ∧
        ∀ y, SystemSolves (fun i j => (values M).getD (i + fs.globalSize * j) 0) fs.globalSize y b →
          ∀ i, i < fs.globalSize → ‖y i - x i‖ ≤ ε := by
  obtain ⟨rule, s, g, pt, cl, V, fs, hs, hb, hV, h1, h2, r1, hQ, r2⟩ := screen_setting hlev w
  have hl : LibraryShape lev .triangle s := .inr (.inl ⟨hs, rfl⟩)
  have hu := p1_uniform .triangle (by decide)
  have hsolv := C90_screens (.inl ⟨hs, rfl⟩) hb hV hu h1 (realP1_continuous _) realP1_independent w
  refine ⟨rule, s, g, pt, cl, V, fs, hs, hb, hV, h1, h2, fun b => ?_⟩
  obtain ⟨x, hx⟩ := (hsolv b).1
  refine ⟨x, hx, fun ε hε => ?_⟩
  obtain ⟨n₀, hn₀⟩ := C90_solution (W := slF) (k := 2) (m := 7) (Q := pairRules rule) .singleLayer .singleLayer hl hb hV hu h1
    (complexBasis_continuous (realP1_continuous _)) hQ triangleRule_converges r2 hsolv hx hε
  refine ⟨n₀, fun n hn => ?_⟩
  obtain ⟨δ₀, hδ₀, hd⟩ := hn₀ n hn
  obtain ⟨u₀, hu₀, hbuilt⟩ := C89_grid (g := g) (pt := pt) (cl := cl) hl
  obtain ⟨p₀, hp₀⟩ := exists_pow_lt_of_lt_one (lt_min hδ₀ hu₀) (show (2⁻¹ : ℝ) < 1 by norm_num)
  have hle : ∀ p ≥ p₀, (2⁻¹ : ℝ) ^ (p + 1) ≤ min δ₀ u₀ := fun p hp =>
    (pow_le_pow_of_le_one (by norm_num) (by norm_num) (by omega)).trans hp₀.le
  refine ⟨p₀, fun p hp => ?_⟩
  obtain ⟨s', hs'⟩ := screenTriangles_some (digitsNat p) hlev
  have hc : ComputedShape (digits p) lev .triangle s s' := .inr (.inl ⟨rfl, hs, digitsNat p, digitsNat_rounded p, hs'⟩)
  have hb2 : Built s' .triangle g pt cl :=
    (hbuilt _ (by positivity) ((hle p hp).trans (min_le_right _ _)) _ s' hc).mpr hb
  obtain ⟨V', hV'⟩ := (hb2.same (s' := s'.values) rfl (List.length_map _)).exists_corners
  obtain ⟨M, m1, m2, m3⟩ := hd _ _ (by positivity) ((hle p hp).trans (min_le_left _ _)) (by positivity)
    ((hle p hp).trans (min_le_left _ _)) _ _ s' V' _ _ _ _ _ _ _ _ hc hV'
    (screen_library (p := p) (w := w) n h1 r1
      (.helmholtzSingleLayer (R := Fl (digits p)) (T := Fl (complexDigits p)) (k := fun _ => kernelOf (roundedWave w p)) (w := w)
        (kernelOf_computes (roundedWave w p) _)) .singleLayer)
  exact ⟨s', V', hs', hV', M, m1, m2, fun y hy => m3 b y (fun i _ => by rw [sub_self, norm_zero]; exact hδ₀.le) hy⟩

/-- C90: spheres of all levels. -/
example (lev : Nat) : ∃ (V : Nat → Nat → Nat → ℝ) (fs : FunctionSpace), fs.globalSize = 4 ^ (lev + 1) + 2 ∧
    (∀ w z, 0 ≤ w → 0 ≤ (hermitianForm (doubleSum fs fs (pairIntegral slF (helmholtzGreen w)
      (vertexGeometry triangleFunctions V) (vertexGeometry triangleFunctions V) complexP1 complexP1 .triangle))
        fs.globalSize z).im) ∧
    ∀ R, {w : ℝ | |w| ≤ R ∧ ¬ UniquelySolvable (doubleSum fs fs (pairIntegral slF (helmholtzGreen w)
      (vertexGeometry triangleFunctions V) (vertexGeometry triangleFunctions V) complexP1 complexP1 .triangle))
        fs.globalSize}.Finite := by
  obtain ⟨s, hs, -⟩ := C30_sizes (1 / 2 : ℝ) Real.sqrt lev
  have hl : LibraryShape lev .triangle s := .inl ⟨hs, rfl⟩
  obtain ⟨-, -, -, ⟨g, pt, cl, hb⟩, -⟩ := C47_conforming _ _ _ hl
  obtain ⟨⟨V, hV⟩, -⟩ := C79_surface hl hb
  have hu := p1_uniform .triangle (by decide)
  obtain ⟨fs, h1, h2⟩ := C46_sphere _ _ hs hb hu
  exact ⟨V, fs, by simpa using h2, fun w z => (C90_energy hl hb hV hu h1 (realP1_continuous _) w z).1,
    C90_wavenumbers hl hb hV hu h1 (realP1_continuous _) realP1_independent⟩

end Examples
end Bempp
