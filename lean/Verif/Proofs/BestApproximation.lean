import Verif.Spec.Degrees
import Verif.Props.Helmholtz
/-
Solutions in a space and in a larger space.
-/
namespace Bempp
open Filter Topology MeasureTheory Set

section
variable {A A' : Nat → Nat → ℝ} {n n' : Nat}

theorem bilinear_finset (u v : Nat → ℝ) :
    bilinear A n u v = ∑ i ∈ Finset.range n, ∑ j ∈ Finset.range n, u i * v j * A i j := by
  unfold bilinear
  rw [← List.sum_toFinset _ List.nodup_range, List.toFinset_range]
  refine Finset.sum_congr rfl fun i _ => ?_
  rw [← List.sum_toFinset _ List.nodup_range, List.toFinset_range]

theorem dotOf_finset (u v : Nat → ℝ) : dotOf n u v = ∑ i ∈ Finset.range n, u i * v i := by
  unfold dotOf
  rw [← List.sum_toFinset _ List.nodup_range, List.toFinset_range]

theorem SolvesWith.form {x b : Nat → ℝ} (h : SolvesWith A n x b) (u : Nat → ℝ) : bilinear A n u x = dotOf n u b := by
  rw [bilinear_finset, dotOf_finset]
  refine Finset.sum_congr rfl fun i hi => ?_
  rw [← h i (Finset.mem_range.mp hi), ← List.sum_toFinset _ List.nodup_range, List.toFinset_range, Finset.mul_sum]
  exact Finset.sum_congr rfl fun j _ => by ring

theorem bilinear_swap (hA : ∀ i j, A i j = A j i) (u v : Nat → ℝ) : bilinear A n u v = bilinear A n v u := by
  rw [bilinear_finset, bilinear_finset, Finset.sum_comm]
  refine Finset.sum_congr rfl fun i _ => Finset.sum_congr rfl fun j _ => ?_
  rw [hA]
  ring

theorem bilinear_sub (hA : ∀ i j, A i j = A j i) (u v : Nat → ℝ) : bilinear A n (fun i => u i - v i) (fun i => u i - v i) =
    bilinear A n u u - 2 * bilinear A n v u + bilinear A n v v := by
  have e : bilinear A n (fun i => u i - v i) (fun i => u i - v i) =
      bilinear A n u u - bilinear A n u v - bilinear A n v u + bilinear A n v v := by
    simp only [bilinear_finset, ← Finset.sum_sub_distrib, ← Finset.sum_add_distrib]
    refine Finset.sum_congr rfl fun i _ => Finset.sum_congr rfl fun j _ => ?_
    ring
  rw [e, bilinear_swap hA u v]
  ring

/-- The solution in the smaller space is the best approximation to the one in the larger space, and has not more energy. -/
theorem galerkin_best {R : (Nat → ℝ) → (Nat → ℝ) → Prop} (hA : ∀ i j, A i j = A j i) (hA' : ∀ i j, A' i j = A' j i)
    (h0 : ∀ u, 0 ≤ bilinear A n u u) (h0' : ∀ u, 0 ≤ bilinear A' n' u u)
    (hR : ∀ u u', R u u' → bilinear A n u u = bilinear A' n' u' u') {x x' b b' : Nat → ℝ} (hx : SolvesWith A n x b)
    (hx' : SolvesWith A' n' x' b') (hb : ∀ u u', R u u' → dotOf n u b = dotOf n' u' b') {X : Nat → ℝ} (hX : R x X) :
    dotOf n x b ≤ dotOf n' x' b' ∧
    ∀ y Y, R y Y → bilinear A' n' (fun i => x' i - X i) (fun i => x' i - X i) ≤
      bilinear A' n' (fun i => x' i - Y i) (fun i => x' i - Y i) := by
  have e1 : ∀ y Y, R y Y → bilinear A' n' (fun i => x' i - Y i) (fun i => x' i - Y i) =
      dotOf n' x' b' - 2 * dotOf n y b + bilinear A n y y := by
    intro y Y h
    rw [bilinear_sub hA', hx'.form, hx'.form, ← hb y Y h, hR y Y h]
  have e2 := e1 x X hX
  rw [hx.form] at e2
  refine ⟨?_, fun y Y h => ?_⟩
  · have := h0' fun i => x' i - X i
    rw [e2] at this
    linarith
  · rw [e2, e1 y Y h]
    have h1 := h0 fun i => x i - y i
    rw [bilinear_sub hA, hx.form, hx.form] at h1
    linarith

end

section
variable {sp sp' : FunctionSpace} {fam fam' : CellType → ElementDofs} {G : Geometry ℝ} {B B' : Basis ℝ ℝ} {t : CellType}

/-- The matrix of the single layer operator is symmetric. -/
theorem laplace_symmetric (hs : SerialSpace sp fam) (ht : ∀ c ∈ sp.grid.entityIter 2, c.entityType = t)
    (hcell : ∀ c ∈ sp.grid.entityIter 2, ContinuousCell G t c.localIndex)
    (hflat : ∀ c ∈ sp.grid.entityIter 2, FlatCell G c.localIndex) (hB : ContinuousBasis B t (fam t).dim) (i j : Nat) :
    doubleSum sp sp (pairIntegral slF laplaceGreen G G B B t) i j =
      doubleSum sp sp (pairIntegral slF laplaceGreen G G B B t) j i := by
  rw [doubleSum_swap]
  refine doubleSum_congr_dofs hs ht (fun c hc c' hc' a b ha hb => ?_) j i
  have h1 := laplace_integrable (hcell c' hc') (hcell c hc) (hflat c' hc') (hflat c hc) hB hb ha
  have h2 := laplace_integrable (hcell c hc) (hcell c' hc') (hflat c hc) (hflat c' hc') hB ha hb
  unfold pairIntegral
  rw [← integral_prod _ h1, ← integral_prod _ h2, ← integral_prod_swap]
  refine integral_congr_ae (Eventually.of_forall fun z => ?_)
  simp only [Prod.fst_swap, Prod.snd_swap]
  simp only [pairIntegrand, slF, laplaceGreen, RCLike.ofReal_real_eq_id, id]
  rw [← cellPoint_dist, ← cellPoint_dist, norm_sub_rev]
  ring

theorem fin_sum_congr {L L' : List Entity} (e : L = L') {f f' : Entity → Entity → ℝ}
    (h : ∀ c ∈ L, ∀ c' ∈ L, f c c' = f' c c') :
    ∑ a : Fin L.length, ∑ b : Fin L.length, f (L[a.1]) (L[b.1]) =
      ∑ a : Fin L'.length, ∑ b : Fin L'.length, f' (L'[a.1]) (L'[b.1]) := by
  subst e
  exact Finset.sum_congr rfl fun a _ => Finset.sum_congr rfl fun b _ => h _ (List.getElem_mem _) _ (List.getElem_mem _)

/-- The form of the single layer operator depends only on the function. -/
theorem single_same (hs : SerialSpace sp fam) (hs' : SerialSpace sp' fam')
    (ht : ∀ c ∈ sp.grid.entityIter 2, c.entityType = t)
    (hcell : ∀ c ∈ sp.grid.entityIter 2, ContinuousCell G t c.localIndex)
    (hflat : ∀ c ∈ sp.grid.entityIter 2, FlatCell G c.localIndex) (hB : ContinuousBasis B t (fam t).dim)
    (hB' : ContinuousBasis B' t (fam' t).dim) {u u' : Nat → ℝ} (h : SameFunction sp sp' B B' u u') :
    bilinear (doubleSum sp sp (pairIntegral slF laplaceGreen G G B B t)) sp.globalSize u u =
      bilinear (doubleSum sp' sp' (pairIntegral slF laplaceGreen G G B' B' t)) sp'.globalSize u' u' := by
  have hg := h.grid
  rw [surface_form .singleLayer hs ht hcell hflat hB (single_factors hcell hB) u,
    surface_form .singleLayer hs' (by rw [← hg]; exact ht) (by rw [← hg]; exact hcell) (by rw [← hg]; exact hflat) hB'
      (single_factors (by rw [← hg]; exact hcell) hB') u']
  have e : ∀ c ∈ sp.grid.entityIter 2, sp.combined (fun c a x => B t a 0 (pointList x) * G.jdet c (pointList x)) u c =
      sp'.combined (fun c a x => B' t a 0 (pointList x) * G.jdet c (pointList x)) u' c := by
    intro c hc
    have hc' : c ∈ sp'.grid.entityIter 2 := hg ▸ hc
    funext z
    have h1 : sp.combined (fun c a x => B t a 0 (pointList x) * G.jdet c (pointList x)) u c z =
        sp.functionOn B u c 0 (pointList z) * G.jdet c.localIndex (pointList z) := by
      rw [hs.functionOn_dofs hc, ht c hc, ← List.sum_map_mul_right]
      unfold FunctionSpace.combined
      congr 1
      apply List.map_congr_left
      intro ia _
      ring
    have h2 : sp'.combined (fun c a x => B' t a 0 (pointList x) * G.jdet c (pointList x)) u' c z =
        sp'.functionOn B' u' c 0 (pointList z) * G.jdet c.localIndex (pointList z) := by
      rw [hs'.functionOn_dofs hc', ht c hc, ← List.sum_map_mul_right]
      unfold FunctionSpace.combined
      congr 1
      apply List.map_congr_left
      intro ia _
      ring
    rw [h1, h2, h.values c hc 0 (by decide)]
  congr 1
  refine Finset.sum_congr rfl fun i _ => ?_
  refine fin_sum_congr (by rw [hg]) fun c hc c' hc' => ?_
  unfold inversePair
  rw [e c hc, e c' hc']

end
end Bempp
