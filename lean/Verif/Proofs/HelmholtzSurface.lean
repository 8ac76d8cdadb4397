import Verif.Spec.Helmholtz
import Verif.Proofs.Sinc
import Verif.Props.Positive
import Verif.Props.Conjugate
/-
The matrices of the Helmholtz single layer operator: the imaginary part belongs to the kernel `sin (k r) / r`, and the
entries are analytic functions of the wavenumber.
-/
namespace Bempp
open Filter Topology MeasureTheory Set

section
variable {sp : FunctionSpace} {fam : CellType → ElementDofs} {G : Geometry ℝ} {B : Basis ℝ ℝ} {t : CellType}

theorem complexBasis_continuous {dim : Nat} (hB : ContinuousBasis B t dim) : ContinuousBasis (complexBasis B) t dim :=
  fun a ha i hi => Complex.continuous_ofReal.comp_continuousOn (hB a ha i hi)

/-- The integrand for the Helmholtz equation is the one for the Laplace equation times a wave. -/
theorem helmholtz_integrand (w : ℝ) (c c' a b : Nat) (x y : ℝ × ℝ) :
    pairIntegrand slF (helmholtzGreen w) G G (complexBasis B) (complexBasis B) t c c' a b (pointList x) (pointList y) =
      ((pairIntegrand slF laplaceGreen G G B B t c c' a b (pointList x) (pointList y) : ℝ) : ℂ) *
        Complex.exp (w * (‖cellPoint G c x - cellPoint G c' y‖ : ℝ) * Complex.I) := by
  simp only [pairIntegrand, slF, helmholtzGreen, laplaceGreen, complexBasis, cellPoint_dist, RCLike.ofReal_real_eq_id, id]
  rw [show Complex.I * w * (pointDist (G.coords c (pointList x)) (G.coords c' (pointList y)) : ℂ) =
    w * (pointDist (G.coords c (pointList x)) (G.coords c' (pointList y)) : ℝ) * Complex.I by ring]
  push_cast
  simp only [div_eq_mul_inv, one_mul]
  simp
  ring

/-- The entries for complex wavenumbers. -/
noncomputable def waveIntegral (G : Geometry ℝ) (B : Basis ℝ ℝ) (t : CellType) (c c' : Entity) (a b : Nat) (ζ : ℂ) : ℂ :=
  ∫ z : (ℝ × ℝ) × (ℝ × ℝ), ((pairIntegrand slF laplaceGreen G G B B t c.localIndex c'.localIndex a b (pointList z.1)
    (pointList z.2) : ℝ) : ℂ) * Complex.exp (ζ * (‖cellPoint G c.localIndex z.1 - cellPoint G c'.localIndex z.2‖ : ℝ) * Complex.I)
      ∂(volume.restrict (refCell t)).prod (volume.restrict (refCell t))

theorem pairIntegral_wave (w : ℝ) {dim : Nat} {c c' : Entity} (h : ContinuousCell G t c.localIndex)
    (h' : ContinuousCell G t c'.localIndex) (hf : FlatCell G c.localIndex) (hf' : FlatCell G c'.localIndex)
    (hB : ContinuousBasis B t dim) {a b : Nat} (ha : a < dim) (hb : b < dim) :
    pairIntegral slF (helmholtzGreen w) G G (complexBasis B) (complexBasis B) t c c' a b = waveIntegral G B t c c' a b w := by
  have hi : Integrable (fun z : (ℝ × ℝ) × (ℝ × ℝ) => pairIntegrand slF (helmholtzGreen w) G G (complexBasis B) (complexBasis B)
      t c.localIndex c'.localIndex a b (pointList z.1) (pointList z.2))
      ((volume.restrict (refCell t)).prod (volume.restrict (refCell t))) := by
    rw [Measure.prod_restrict]
    exact pairIntegrand_integrable (helmholtzGreen_greenLike w) .singleLayer h h' hf hf' (complexBasis_continuous hB)
      (complexBasis_continuous hB) ha hb
  unfold pairIntegral waveIntegral
  rw [← integral_prod _ hi]
  exact integral_congr_ae (Eventually.of_forall fun z => helmholtz_integrand w _ _ _ _ _ _)

theorem laplace_integrable {dim : Nat} {c c' : Nat} (h : ContinuousCell G t c) (h' : ContinuousCell G t c')
    (hf : FlatCell G c) (hf' : FlatCell G c') (hB : ContinuousBasis B t dim) {a b : Nat} (ha : a < dim) (hb : b < dim) :
    Integrable (fun z : (ℝ × ℝ) × (ℝ × ℝ) => pairIntegrand slF laplaceGreen G G B B t c c' a b (pointList z.1)
      (pointList z.2)) ((volume.restrict (refCell t)).prod (volume.restrict (refCell t))) := by
  rw [Measure.prod_restrict]
  exact pairIntegrand_integrable laplaceGreen_greenLike .singleLayer h h' hf hf' hB hB ha hb

theorem cellPoint_bounded {c : Nat} (hf : FlatCell G c) : ∃ C, ∀ x ∈ refCell t, ‖cellPoint G c x‖ ≤ C :=
  (refCell_isCompact t).exists_bound_of_continuousOn hf.cellPoint_continuous.continuousOn

/-- The entries are analytic functions of the wavenumber. -/
theorem waveIntegral_differentiable {dim : Nat} {c c' : Entity} (h : ContinuousCell G t c.localIndex)
    (h' : ContinuousCell G t c'.localIndex) (hf : FlatCell G c.localIndex) (hf' : FlatCell G c'.localIndex)
    (hB : ContinuousBasis B t dim) {a b : Nat} (ha : a < dim) (hb : b < dim) :
    Differentiable ℂ (waveIntegral G B t c c' a b) := by
  obtain ⟨C, hC⟩ := cellPoint_bounded (t := t) hf
  obtain ⟨C', hC'⟩ := cellPoint_bounded (t := t) hf'
  have m := hf.cellPoint_continuous.measurable
  have m' := hf'.cellPoint_continuous.measurable
  refine exp_integral_differentiable ((laplace_integrable h h' hf hf' hB ha hb).ofReal (𝕜 := ℂ)) (C := C + C')
    (by fun_prop) ?_
  rw [Measure.prod_restrict]
  filter_upwards [ae_restrict_mem (refCell_prod_measurable t)] with z hz
  rw [abs_of_nonneg (norm_nonneg _)]
  exact (norm_sub_le _ _).trans (add_le_add (hC _ hz.1) (hC' _ hz.2))

/-- The function that a basis function contributes to the integrand. -/
noncomputable def weighted (G : Geometry ℝ) (B : Basis ℝ ℝ) (t : CellType) (c a : Nat) (x : ℝ × ℝ) : ℝ :=
  B t a 0 (pointList x) * G.jdet c (pointList x)

/-- The imaginary part of an integral. -/
theorem pairIntegral_im (w : ℝ) {dim : Nat} {c c' : Entity} {g : Grid} (hno : NoOverlap G t g)
    (hflat : ∀ c ∈ g.entityIter 2, FlatCell G c.localIndex) (hc : c ∈ g.entityIter 2) (hc' : c' ∈ g.entityIter 2)
    (h : ContinuousCell G t c.localIndex) (h' : ContinuousCell G t c'.localIndex)
    (hB : ContinuousBasis B t dim) {a b : Nat} (ha : a < dim) (hb : b < dim) :
    (pairIntegral slF (helmholtzGreen w) G G (complexBasis B) (complexBasis B) t c c' a b).im =
      w / (4 * Real.pi) * ∫ z : (ℝ × ℝ) × (ℝ × ℝ),
        Real.sinc (w * ‖cellPoint G c.localIndex z.1 - cellPoint G c'.localIndex z.2‖) *
          (weighted G B t c.localIndex a z.1 * weighted G B t c'.localIndex b z.2)
        ∂(volume.restrict (refCell t)).prod (volume.restrict (refCell t)) := by
  have hf := hflat c hc
  have hf' := hflat c' hc'
  rw [pairIntegral_wave w h h' hf hf' hB ha hb, waveIntegral]
  have m := hf.cellPoint_continuous.measurable
  have m' := hf'.cellPoint_continuous.measurable
  have hint : Integrable (fun z : (ℝ × ℝ) × (ℝ × ℝ) => ((pairIntegrand slF laplaceGreen G G B B t c.localIndex c'.localIndex a b
      (pointList z.1) (pointList z.2) : ℝ) : ℂ) *
        Complex.exp ((w : ℂ) * (‖cellPoint G c.localIndex z.1 - cellPoint G c'.localIndex z.2‖ : ℝ) * Complex.I))
      ((volume.restrict (refCell t)).prod (volume.restrict (refCell t))) := by
    refine ((laplace_integrable h h' hf hf' hB ha hb).ofReal (𝕜 := ℂ)).mul_bdd (c := 1)
      (Measurable.aestronglyMeasurable (by fun_prop)) (Eventually.of_forall fun z => ?_)
    rw [← Complex.ofReal_mul]
    exact (Complex.norm_exp_ofReal_mul_I _).le
  have e := integral_im hint
  simp only [RCLike.im_to_complex] at e
  rw [← e, ← integral_const_mul]
  refine integral_congr_ae ?_
  filter_upwards [ae_ne hno hflat hc hc'] with z hz
  have hr : ‖cellPoint G c.localIndex z.1 - cellPoint G c'.localIndex z.2‖ ≠ 0 := norm_ne_zero_iff.mpr (sub_ne_zero.mpr hz)
  rw [← Complex.ofReal_mul, Complex.im_ofReal_mul, Complex.exp_ofReal_mul_I_im]
  have hp : pairIntegrand slF laplaceGreen G G B B t c.localIndex c'.localIndex a b (pointList z.1) (pointList z.2) =
      (4 * Real.pi)⁻¹ * (‖cellPoint G c.localIndex z.1 - cellPoint G c'.localIndex z.2‖⁻¹ *
        (weighted G B t c.localIndex a z.1 * weighted G B t c'.localIndex b z.2)) := by
    simp only [pairIntegrand, slF, laplaceGreen, RCLike.ofReal_real_eq_id, id, cellPoint_dist, weighted]
    rw [one_div, mul_inv]
    ring
  rw [hp]
  by_cases hw : w = 0
  · simp [hw]
  · rw [Real.sinc_of_ne_zero (mul_ne_zero hw hr)]
    field_simp

/-- The values that count in a double sum. -/
theorem doubleSum_congr_dofs {T : Type} [AddCommMonoid T] (hs : SerialSpace sp fam)
    (ht : ∀ c ∈ sp.grid.entityIter 2, c.entityType = t)
    {v w : Entity → Entity → Nat → Nat → T}
    (h : ∀ c ∈ sp.grid.entityIter 2, ∀ c' ∈ sp.grid.entityIter 2, ∀ a b, a < (fam t).dim → b < (fam t).dim →
      v c c' a b = w c c' a b) (i j : Nat) : doubleSum sp sp v i j = doubleSum sp sp w i j := by
  unfold doubleSum
  congr 1
  apply List.map_congr_left
  intro c hc
  congr 1
  apply List.map_congr_left
  intro c' hc'
  congr 1
  apply List.map_congr_left
  intro ia hia
  congr 1
  apply List.map_congr_left
  intro jb hjb
  rw [h c hc c' hc' _ _ (hs.dofsOf_lt ht hc hia) (hs.dofsOf_lt ht hc' hjb)]

/-- The part of the form that belongs to a pair of cells. -/
noncomputable def sincPair (G : Geometry ℝ) (B : Basis ℝ ℝ) (t : CellType) (sp : FunctionSpace) (w : ℝ) (u : Nat → ℝ)
    (c c' : Entity) : ℝ :=
  ∫ z : (ℝ × ℝ) × (ℝ × ℝ), Real.sinc (w * ‖cellPoint G c.localIndex z.1 - cellPoint G c'.localIndex z.2‖) *
    ((refCell t).indicator (sp.combined (weighted G B t) u c) z.1 *
      (refCell t).indicator (sp.combined (weighted G B t) u c') z.2)
      ∂(volume.restrict (refCell t)).prod (volume.restrict (refCell t))

theorem weighted_continuous {dim c a : Nat} (h : ContinuousCell G t c) (hB : ContinuousBasis B t dim) (ha : a < dim) :
    ContinuousOn (weighted G B t c a) (refCell t) := (hB a ha 0 (by decide)).mul h.jdet

theorem weighted_combined_continuous (hs : SerialSpace sp fam) (ht : ∀ c ∈ sp.grid.entityIter 2, c.entityType = t)
    (hcell : ∀ c ∈ sp.grid.entityIter 2, ContinuousCell G t c.localIndex) (hB : ContinuousBasis B t (fam t).dim)
    (u : Nat → ℝ) {c : Entity} (hc : c ∈ sp.grid.entityIter 2) :
    ContinuousOn (sp.combined (weighted G B t) u c) (refCell t) :=
  combined_continuous hs ht (single_factors hcell hB) u hc (i := 0) (by decide)

theorem pair_sinc (w : ℝ) (hs : SerialSpace sp fam) (ht : ∀ c ∈ sp.grid.entityIter 2, c.entityType = t)
    (hcell : ∀ c ∈ sp.grid.entityIter 2, ContinuousCell G t c.localIndex)
    (hflat : ∀ c ∈ sp.grid.entityIter 2, FlatCell G c.localIndex) (hno : NoOverlap G t sp.grid)
    (hB : ContinuousBasis B t (fam t).dim) (u : Nat → ℝ) {c c' : Entity}
    (hc : c ∈ sp.grid.entityIter 2) (hc' : c' ∈ sp.grid.entityIter 2) :
    ((sp.dofsOf c).map fun ia => ((sp.dofsOf c').map fun jb => u ia.1 * u jb.1 *
      (pairIntegral slF (helmholtzGreen w) G G (complexBasis B) (complexBasis B) t c c' ia.2 jb.2).im).sum).sum =
      w / (4 * Real.pi) * sincPair G B t sp w u c c' := by
  have m := (hflat c hc).cellPoint_continuous.measurable
  have m' := (hflat c' hc').cellPoint_continuous.measurable
  have hsm : Measurable Real.sinc := Real.continuous_sinc.measurable
  have hint : ∀ ia ∈ sp.dofsOf c, ∀ jb ∈ sp.dofsOf c', Integrable (fun z : (ℝ × ℝ) × (ℝ × ℝ) =>
      u ia.1 * u jb.1 * (Real.sinc (w * ‖cellPoint G c.localIndex z.1 - cellPoint G c'.localIndex z.2‖) *
        (weighted G B t c.localIndex ia.2 z.1 * weighted G B t c'.localIndex jb.2 z.2)))
        ((volume.restrict (refCell t)).prod (volume.restrict (refCell t))) := by
    intro ia hia jb hjb
    have i1 : Integrable (weighted G B t c.localIndex ia.2) (volume.restrict (refCell t)) :=
      (weighted_continuous (hcell c hc) hB (hs.dofsOf_lt ht hc hia)).integrableOn_compact (refCell_isCompact t)
    have i2 : Integrable (weighted G B t c'.localIndex jb.2) (volume.restrict (refCell t)) :=
      (weighted_continuous (hcell c' hc') hB (hs.dofsOf_lt ht hc' hjb)).integrableOn_compact (refCell_isCompact t)
    refine Integrable.const_mul ?_ _
    exact (i1.mul_prod i2).bdd_mul (c := 1) (Measurable.aestronglyMeasurable (by fun_prop))
      (Eventually.of_forall fun z => by rw [Real.norm_eq_abs]; exact Real.abs_sinc_le_one _)
  have h1 : ∀ ia ∈ sp.dofsOf c, ((sp.dofsOf c').map fun jb => u ia.1 * u jb.1 *
      (pairIntegral slF (helmholtzGreen w) G G (complexBasis B) (complexBasis B) t c c' ia.2 jb.2).im).sum =
      w / (4 * Real.pi) * ∫ z : (ℝ × ℝ) × (ℝ × ℝ), ((sp.dofsOf c').map fun jb => u ia.1 * u jb.1 *
        (Real.sinc (w * ‖cellPoint G c.localIndex z.1 - cellPoint G c'.localIndex z.2‖) *
        (weighted G B t c.localIndex ia.2 z.1 * weighted G B t c'.localIndex jb.2 z.2))).sum
          ∂(volume.restrict (refCell t)).prod (volume.restrict (refCell t)) := by
    intro ia hia
    rw [(integral_list (sp.dofsOf c') (hint ia hia)).2, ← List.sum_map_mul_left]
    congr 1
    apply List.map_congr_left
    intro jb hjb
    rw [integral_const_mul, pairIntegral_im w hno hflat hc hc' (hcell c hc) (hcell c' hc') hB (hs.dofsOf_lt ht hc hia)
      (hs.dofsOf_lt ht hc' hjb)]
    ring
  rw [List.map_congr_left h1, List.sum_map_mul_left,
    ← (integral_list (sp.dofsOf c) fun ia hia => (integral_list (sp.dofsOf c') (hint ia hia)).1).2]
  congr 1
  unfold sincPair
  rw [Measure.prod_restrict]
  refine setIntegral_congr_fun (refCell_prod_measurable t) ?_
  rintro ⟨x, y⟩ ⟨hx, hy⟩
  simp only at hx hy ⊢
  rw [indicator_of_mem hx, indicator_of_mem hy]
  have h2 : ∀ ia jb : Nat × Nat, u ia.1 * u jb.1 *
      (Real.sinc (w * ‖cellPoint G c.localIndex x - cellPoint G c'.localIndex y‖) *
        (weighted G B t c.localIndex ia.2 x * weighted G B t c'.localIndex jb.2 y)) =
      Real.sinc (w * ‖cellPoint G c.localIndex x - cellPoint G c'.localIndex y‖) *
        ((u ia.1 * weighted G B t c.localIndex ia.2 x) * (u jb.1 * weighted G B t c'.localIndex jb.2 y)) := by
    intro ia jb
    ring
  simp only [h2, List.sum_map_mul_left]
  congr 1
  rw [List.sum_map_mul_right]
  rfl

/-- The form of the imaginary part, for real vectors. -/
theorem helmholtz_im_form (w : ℝ) (hs : SerialSpace sp fam) (ht : ∀ c ∈ sp.grid.entityIter 2, c.entityType = t)
    (hcell : ∀ c ∈ sp.grid.entityIter 2, ContinuousCell G t c.localIndex)
    (hflat : ∀ c ∈ sp.grid.entityIter 2, FlatCell G c.localIndex) (hno : NoOverlap G t sp.grid)
    (hB : ContinuousBasis B t (fam t).dim) (u : Nat → ℝ) :
    bilinear (fun i j => (doubleSum sp sp (pairIntegral slF (helmholtzGreen w) G G (complexBasis B) (complexBasis B) t)
      i j).im) sp.globalSize u u =
      w / (4 * Real.pi) * ∑ a : Fin (sp.grid.entityIter 2).length, ∑ b : Fin (sp.grid.entityIter 2).length,
          sincPair G B t sp w u ((sp.grid.entityIter 2)[a.1]) ((sp.grid.entityIter 2)[b.1]) := by
  have e : (fun i j => (doubleSum sp sp (pairIntegral slF (helmholtzGreen w) G G (complexBasis B) (complexBasis B) t)
      i j).im) = doubleSum sp sp fun c c' a b =>
        (pairIntegral slF (helmholtzGreen w) G G (complexBasis B) (complexBasis B) t c c' a b).im := by
    funext i j
    exact doubleSum_hom Complex.im rfl Complex.add_im _ _ _ _ _
  rw [e, bilinear_doubleSum hs]
  have h1 : ∀ c ∈ sp.grid.entityIter 2, ((sp.grid.entityIter 2).map fun c' => ((sp.dofsOf c).map fun ia =>
        ((sp.dofsOf c').map fun jb => u ia.1 * u jb.1 *
          (pairIntegral slF (helmholtzGreen w) G G (complexBasis B) (complexBasis B) t c c' ia.2 jb.2).im).sum).sum).sum =
      ∑ b : Fin (sp.grid.entityIter 2).length, w / (4 * Real.pi) *
        sincPair G B t sp w u c ((sp.grid.entityIter 2)[b.1]) := by
    intro c hc
    rw [List.map_congr_left fun c' hc' => pair_sinc w hs ht hcell hflat hno hB u hc hc', ← Fin.sum_univ_fun_getElem]
  rw [List.map_congr_left h1, ← Fin.sum_univ_fun_getElem]
  simp only [← Finset.mul_sum]

/-- The form is not negative, and in a plane it is 0 only if all combined functions are 0. -/
theorem sinc_form_definite (w : ℝ) (hs : SerialSpace sp fam) (ht : ∀ c ∈ sp.grid.entityIter 2, c.entityType = t)
    (hcell : ∀ c ∈ sp.grid.entityIter 2, ContinuousCell G t c.localIndex)
    (hflat : ∀ c ∈ sp.grid.entityIter 2, FlatCell G c.localIndex) (hno : NoOverlap G t sp.grid)
    (hB : ContinuousBasis B t (fam t).dim) (u : Nat → ℝ) :
    0 ≤ ∑ a : Fin (sp.grid.entityIter 2).length, ∑ b : Fin (sp.grid.entityIter 2).length,
      sincPair G B t sp w u ((sp.grid.entityIter 2)[a.1]) ((sp.grid.entityIter 2)[b.1]) ∧
    ((∀ c ∈ sp.grid.entityIter 2, ∀ z, G.point c.localIndex (pointList z) 2 = 0) → w ≠ 0 →
      ∑ a : Fin (sp.grid.entityIter 2).length, ∑ b : Fin (sp.grid.entityIter 2).length,
        sincPair G B t sp w u ((sp.grid.entityIter 2)[a.1]) ((sp.grid.entityIter 2)[b.1]) = 0 →
      ∀ c ∈ sp.grid.entityIter 2, ∀ z ∈ refCell t, sp.functionOn B u c 0 (pointList z) = 0) := by
  have hmem : ∀ a : Fin (sp.grid.entityIter 2).length, (sp.grid.entityIter 2)[a.1] ∈ sp.grid.entityIter 2 :=
    fun a => List.getElem_mem _
  have hfc := fun {c : Entity} (hc : c ∈ sp.grid.entityIter 2) => weighted_combined_continuous hs ht hcell hB u hc
  obtain ⟨k1, k2⟩ := family_sinc (ν := volume.restrict (refCell t)) (N := (sp.grid.entityIter 2).length)
    (X := fun a => cellPoint G ((sp.grid.entityIter 2)[a.1]).localIndex)
    (fun a => (hflat _ (hmem a)).cellPoint_continuous.measurable)
    (f := fun a => (refCell t).indicator (sp.combined (weighted G B t) u ((sp.grid.entityIter 2)[a.1])))
    (fun a => indicator_measurable (hfc (hmem a)))
    (fun a => by
      obtain ⟨C, -, hC⟩ := indicator_bounded (hfc (hmem a))
      exact Integrable.of_bound (indicator_measurable (hfc (hmem a))).aestronglyMeasurable C (Eventually.of_forall hC)) w
  refine ⟨k1, fun hplane hw h0 c hc z hz => ?_⟩
  choose C hC using fun a => cellPoint_bounded (t := t) (hflat _ (hmem a))
  have h2 := k2 (∑ a, |C a|) (fun a => by
      filter_upwards [ae_restrict_mem (refCell_measurable t)] with x hx
      exact ((hC a x hx).trans (le_abs_self _)).trans
        (Finset.single_le_sum (f := fun a => |C a|) (fun b _ => abs_nonneg _) (Finset.mem_univ a)))
    (fun a x => by simpa [cellPoint] using hplane _ (hmem a) x) hw h0
  have h3 := combined_zero hs hflat hno (fun c hc => hfc hc) h2 c hc z hz
  have e : sp.combined (weighted G B t) u c z =
      sp.functionOn B u c 0 (pointList z) * G.jdet c.localIndex (pointList z) := by
    rw [hs.functionOn_dofs hc, ht c hc, ← List.sum_map_mul_right]
    unfold FunctionSpace.combined weighted
    congr 1
    apply List.map_congr_left
    intro ia _
    ring
  rw [e] at h3
  exact (mul_eq_zero.mp h3).resolve_right ((hcell c hc).jdet_ne z hz)

/-- The matrix is symmetric. -/
theorem helmholtz_symmetric (w : ℝ) (hs : SerialSpace sp fam) (ht : ∀ c ∈ sp.grid.entityIter 2, c.entityType = t)
    (hcell : ∀ c ∈ sp.grid.entityIter 2, ContinuousCell G t c.localIndex)
    (hflat : ∀ c ∈ sp.grid.entityIter 2, FlatCell G c.localIndex) (hB : ContinuousBasis B t (fam t).dim) (i j : Nat) :
    doubleSum sp sp (pairIntegral slF (helmholtzGreen w) G G (complexBasis B) (complexBasis B) t) i j =
      doubleSum sp sp (pairIntegral slF (helmholtzGreen w) G G (complexBasis B) (complexBasis B) t) j i := by
  rw [doubleSum_swap]
  refine doubleSum_congr_dofs hs ht (fun c hc c' hc' a b ha hb => ?_) j i
  rw [pairIntegral_wave w (hcell c' hc') (hcell c hc) (hflat c' hc') (hflat c hc) hB hb ha,
    pairIntegral_wave w (hcell c hc) (hcell c' hc') (hflat c hc) (hflat c' hc') hB ha hb, waveIntegral, waveIntegral,
    ← integral_prod_swap]
  refine integral_congr_ae (Eventually.of_forall fun z => ?_)
  simp only [Prod.fst_swap, Prod.snd_swap]
  rw [norm_sub_rev]
  congr 2
  simp only [pairIntegrand, slF, laplaceGreen, RCLike.ofReal_real_eq_id, id]
  rw [← cellPoint_dist, ← cellPoint_dist, norm_sub_rev]
  ring

end
end Bempp
