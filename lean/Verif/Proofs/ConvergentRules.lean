import Verif.Proofs.Convergence
import Mathlib.Analysis.BoxIntegral.UnitPartition
import Mathlib.Analysis.Convex.Measure
import Mathlib.Topology.TietzeExtension
/-
Convergent quadrature rules exist on the reference cells: the points of finer and finer square lattices.
-/
namespace Bempp
open MeasureTheory Filter Topology Pointwise

/-- The lattice points of a bounded set with equal weights. -/
theorem exists_rulesConverge {S : Set (ℝ × ℝ)} (hS : IsCompact S) (hc : Convex ℝ S) (hv : 0 < volume.real S) :
    ∃ rule, RulesConverge S rule ∧ StrictMono fun n => (rule n).length := by
  classical
  set e : (Fin 2 → ℝ) ≃L[ℝ] ℝ × ℝ := ContinuousLinearEquiv.finTwoArrow ℝ ℝ with he
  set s : Set (Fin 2 → ℝ) := e ⁻¹' S with hs
  have hmp : MeasurePreserving e volume volume := volume_preserving_finTwoArrow ℝ
  have hsc : IsCompact s := e.toHomeomorph.isCompact_preimage.mpr hS
  have hsb : Bornology.IsBounded s := hsc.isBounded
  have hsm : MeasurableSet s := hsc.measurableSet
  have hconv : Convex ℝ s := hc.linear_preimage e.toLinearEquiv.toLinearMap
  have hfr : volume (frontier s) = 0 := hconv.addHaar_frontier volume
  have hvol : volume.real s = volume.real S := by
    rw [measureReal_def, measureReal_def, hmp.measure_preimage hS.measurableSet.nullMeasurableSet]
  set L : Submodule ℤ (Fin 2 → ℝ) := Submodule.span ℤ (Set.range (Pi.basisFun ℝ (Fin 2))) with hL
  have hfin : ∀ n : ℕ, (s ∩ ((n : ℝ)⁻¹ • (L : Set (Fin 2 → ℝ)))).Finite := by
    intro n
    rcases Nat.eq_zero_or_pos n with rfl | hn
    · refine (Set.finite_singleton (0 : Fin 2 → ℝ)).subset ?_
      rintro x ⟨_, y, _, rfl⟩
      simp
    · rw [← Submodule.coe_pointwise_smul, ZSpan.smul _ (inv_ne_zero (by positivity))]
      exact ZSpan.setFinite_inter _ hsb
  -- the rules
  set pts : ℕ → List (Fin 2 → ℝ) := fun n => (hfin n).toFinset.toList with hpts
  set base : ℕ → List (List ℝ × ℝ) := fun n => (pts n).map fun x => (pointList (e x), 1 / (n : ℝ) ^ 2) with hbase
  have hlen : ∀ n, (base n).length = Nat.card ↑(s ∩ ((n : ℝ)⁻¹ • (L : Set (Fin 2 → ℝ)))) := by
    intro n
    simp only [hbase, hpts, List.length_map, Finset.length_toList]
    rw [Nat.card_eq_card_finite_toFinset (hfin n)]
  have hsum : ∀ (F : (Fin 2 → ℝ) → ℝ) (n : ℕ), (∑' x : ↑(s ∩ ((n : ℝ)⁻¹ • (L : Set (Fin 2 → ℝ)))), F x) / (n : ℝ) ^ 2 =
      ((pts n).map fun x => 1 / (n : ℝ) ^ 2 * F x).sum := by
    intro F n
    have := (hfin n).fintype
    rw [tsum_fintype, Finset.sum_set_coe, Finset.sum_div, hpts]
    dsimp only
    rw [Finset.sum_map_toList]
    refine Finset.sum_congr (by ext; simp) fun x _ => by ring
  have hint : ∀ g : List ℝ → ℝ, ContinuousOn (fun z => g (pointList z)) S →
      Tendsto (fun n => ((base n).map fun p => p.2 * g p.1).sum) atTop (𝓝 (∫ z in S, g (pointList z))) := by
    intro g hg
    obtain ⟨G, hG⟩ := ContinuousMap.exists_restrict_eq (Y := ℝ) hS.isClosed ⟨_, hg.domRestrict⟩
    have hG' : ∀ z ∈ S, G z = g (pointList z) := fun z hz => congrArg (fun f => f ⟨z, hz⟩) hG
    have h := tendsto_tsum_div_pow_atTop_integral s (fun x => G (e x)) (G.continuous.comp e.continuous) hsb hsm hfr
    have e1 : ∫ x in s, G (e x) = ∫ z in S, g (pointList z) := by
      rw [← setIntegral_congr_fun hS.measurableSet hG', hs]
      exact hmp.setIntegral_preimage_emb e.toHomeomorph.measurableEmbedding G S
    rw [e1] at h
    refine h.congr fun n => ?_
    rw [Fintype.card_fin]
    refine (hsum (fun x => G (e x)) n).trans ?_
    rw [hbase]
    dsimp only
    rw [List.map_map]
    congr 1
    apply List.map_congr_left
    intro x hx
    simp only [Function.comp]
    rw [hG']
    simp only [hpts, Finset.mem_toList, Set.Finite.mem_toFinset] at hx
    exact hx.1
  have hcard : Tendsto (fun n => ((base n).length : ℝ) / (n : ℝ) ^ 2) atTop (𝓝 (volume.real S)) := by
    have := tendsto_card_div_pow_atTop_volume s hsb hsm hfr
    rw [hvol] at this
    refine this.congr fun n => ?_
    rw [hlen, Fintype.card_fin]
  have hinf : Tendsto (fun n => (base n).length) atTop atTop := by
    rw [← tendsto_natCast_atTop_iff (R := ℝ)]
    have h2 : Tendsto (fun n : ℕ => (n : ℝ) ^ 2) atTop atTop :=
      (tendsto_pow_atTop (by decide)).comp tendsto_natCast_atTop_atTop
    refine (hcard.pos_mul_atTop hv h2).congr' ?_
    filter_upwards [eventually_gt_atTop 0] with n hn
    have : (n : ℝ) ≠ 0 := by exact_mod_cast hn.ne'
    field_simp
  obtain ⟨φ, hφ, hφ'⟩ := strictMono_subseq_of_tendsto_atTop hinf
  refine ⟨fun n => base (φ n), ⟨?_, ?_, fun g hg => (hint g hg).comp hφ.tendsto_atTop⟩, hφ'⟩
  · intro n p hp
    simp only [hbase, List.mem_map] at hp
    obtain ⟨x, hx, rfl⟩ := hp
    simp only [hpts, Finset.mem_toList, Set.Finite.mem_toFinset] at hx
    exact ⟨e x, hx.1, rfl⟩
  · obtain ⟨C, hC⟩ := hcard.bddAbove_range
    refine ⟨C, fun n => ?_⟩
    have : ((base (φ n)).map fun p => |p.2|).sum = ((base (φ n)).length : ℝ) / ((φ n : ℕ) : ℝ) ^ 2 := by
      simp only [hbase, List.map_map, List.length_map]
      rw [show ((fun p : List ℝ × ℝ => |p.2|) ∘ fun x : Fin 2 → ℝ => (pointList (e x), 1 / ((φ n : ℕ) : ℝ) ^ 2)) =
        fun _ => 1 / ((φ n : ℕ) : ℝ) ^ 2 by funext x; simp]
      rw [List.map_const', List.sum_replicate, nsmul_eq_mul]
      ring
    rw [this]
    exact hC ⟨φ n, rfl⟩

theorem refCell_convex (t : CellType) : Convex ℝ (refCell t) := by
  have hx : Convex ℝ {z : ℝ × ℝ | 0 ≤ z.1} := convex_halfSpace_ge (f := Prod.fst) ⟨fun _ _ => rfl, fun _ _ => rfl⟩ 0
  have hy : Convex ℝ {z : ℝ × ℝ | 0 ≤ z.2} := convex_halfSpace_ge (f := Prod.snd) ⟨fun _ _ => rfl, fun _ _ => rfl⟩ 0
  have hx1 : Convex ℝ {z : ℝ × ℝ | z.1 ≤ 1} := convex_halfSpace_le (f := Prod.fst) ⟨fun _ _ => rfl, fun _ _ => rfl⟩ 1
  have hy1 : Convex ℝ {z : ℝ × ℝ | z.2 ≤ 1} := convex_halfSpace_le (f := Prod.snd) ⟨fun _ _ => rfl, fun _ _ => rfl⟩ 1
  have hxy : Convex ℝ {z : ℝ × ℝ | z.1 + z.2 ≤ 1} := convex_halfSpace_le (f := fun z : ℝ × ℝ => z.1 + z.2)
    ⟨fun x y => by simp only [Prod.fst_add, Prod.snd_add]; ring,
      fun c x => by simp only [Prod.smul_fst, Prod.smul_snd, smul_eq_mul]; ring⟩ 1
  cases t <;> try exact convex_empty
  · exact hx.inter (hy.inter hxy)
  · exact hx.inter (hx1.inter (hy.inter hy1))

theorem refCell_volume {t : CellType} (ht : t = .triangle ∨ t = .quadrilateral) : 0 < volume.real (refCell t) := by
  have hsub : Set.Ioo (0 : ℝ) (1/2) ×ˢ Set.Ioo (0 : ℝ) (1/2) ⊆ refCell t := by
    rintro ⟨x, y⟩ ⟨⟨h1, h2⟩, ⟨h3, h4⟩⟩
    dsimp only at h1 h2 h3 h4
    rcases ht with rfl | rfl
    · exact ⟨h1.le, h3.le, by dsimp only; linarith⟩
    · exact ⟨h1.le, by dsimp only; linarith, h3.le, by dsimp only; linarith⟩
  have h : 0 < volume (refCell t) := by
    apply Measure.measure_pos_of_nonempty_interior
    refine ⟨(1/4, 1/4), interior_mono hsub ?_⟩
    rw [(isOpen_Ioo.prod isOpen_Ioo).interior_eq]
    constructor <;> constructor <;> norm_num
  exact ENNReal.toReal_pos h.ne' (refCell_isCompact t).measure_lt_top.ne

/-- There are convergent sequences of rules on the reference cells. -/
theorem refCell_rules {t : CellType} (ht : t = .triangle ∨ t = .quadrilateral) :
    ∃ rule, RulesConverge (refCell t) rule ∧ StrictMono fun n => (rule n).length :=
  exists_rulesConverge (refCell_isCompact t) (refCell_convex t) (refCell_volume ht)

end Bempp
