import Verif.Proofs.Partition
import Verif.Spec.Dense
import Mathlib.Data.List.Nodup
import Mathlib.Algebra.BigOperators.Group.List.Basic
/-
Sums over the cells of a distributed grid.
-/
set_option linter.unusedSectionVars false

namespace Bempp

variable {n : Nat} {G : Nat → Grid} {S : Grid} {num : Nat → Nat → Nat → Nat}

theorem Grid.WF.nodup {g : Grid} (wf : g.WF) {d : Nat} (hd : d ≤ 2) : (g.entityIter d).Nodup :=
  List.Nodup.of_map _ ((wf.index d hd).nodup_iff.mpr List.nodup_range)

theorem Grid.WF.index_inj {g : Grid} (wf : g.WF) {d : Nat} (hd : d ≤ 2) {e e' : Entity} (he : e ∈ g.entityIter d)
    (he' : e' ∈ g.entityIter d) (h : e.localIndex = e'.localIndex) : e = e' := by
  have h1 := wf.entity d hd e he
  rw [h, wf.entity d hd e' he'] at h1
  exact (Option.some_inj.mp h1).symm

/-- The owned cells of all parts are the cells of the whole grid. -/
theorem PartOf.owned_perm (h : PartOf n G S num) :
    ((List.range n).flatMap fun r => (((G r).entityIter 2).filter fun c => c.ownership = .owned).map
      fun c => num r 2 c.localIndex).Perm ((S.entityIter 2).map Entity.localIndex) := by
  refine (List.perm_ext_iff_of_nodup ?_ ?_).mpr ?_
  · rw [List.nodup_flatMap]
    refine ⟨?_, ?_⟩
    · intro r hr
      have hr := List.mem_range.mp hr
      refine List.Nodup.map_on ?_ (((h.parts r hr).nodup (by omega)).filter _)
      intro c hc c' hc' he
      have hc := (List.mem_filter.mp hc).1
      have hc' := (List.mem_filter.mp hc').1
      exact (h.parts r hr).index_inj (by omega) hc hc' (h.inj r hr 2 (by omega) c hc c' hc' he)
    · refine List.Pairwise.imp_of_mem ?_ (List.nodup_range (n := n))
      intro r r' hr hr' hne x hx hx'
      have hr := List.mem_range.mp hr
      have hr' := List.mem_range.mp hr'
      simp only [List.mem_map, List.mem_filter, decide_eq_true_eq] at hx hx'
      obtain ⟨c, ⟨h1, h2⟩, rfl⟩ := hx
      obtain ⟨c', ⟨h1', h2'⟩, he⟩ := hx'
      exact hne (h.owner_unique 2 (by omega) r hr r' hr' c h1 c' h1' h2 h2' he.symm)
  · exact (h.whole.index 2 (by omega)).nodup_iff.mpr List.nodup_range
  · intro x
    rw [(h.whole.index 2 (by omega)).mem_iff]
    simp only [List.mem_flatMap, List.mem_range, List.mem_map, List.mem_filter, decide_eq_true_eq]
    constructor
    · rintro ⟨r, hr, c, ⟨hc, -⟩, rfl⟩
      exact h.num_lt hr (by omega) hc
    · intro hx
      obtain ⟨r, hr, e, he, ho, rfl⟩ := h.owner 2 (by omega) x hx
      exact ⟨r, hr, e, ⟨he, ho⟩, rfl⟩

theorem PartOf.touches (h : PartOf n G S num) {r : Nat} (hr : r < n) {c c' c0 c1 : Entity}
    (hc : c ∈ (G r).entityIter 2) (hc' : c' ∈ (G r).entityIter 2) (h0 : c0.sub 0 = (c.sub 0).map (num r 0))
    (h1 : c1.sub 0 = (c'.sub 0).map (num r 0)) : c0.Touches c1 ↔ c.Touches c' := by
  unfold Entity.Touches
  rw [h0, h1]
  constructor
  · rintro ⟨v, hv, hv'⟩
    obtain ⟨u, hu, rfl⟩ := List.mem_map.mp hv
    obtain ⟨u', hu', he⟩ := List.mem_map.mp hv'
    refine ⟨u, hu, ?_⟩
    have wf := h.parts r hr
    obtain ⟨x, hx, rfl⟩ := wf.exists_of_lt (by omega) (wf.sub_lt c hc 0 (by omega) u hu)
    obtain ⟨y, hy, rfl⟩ := wf.exists_of_lt (by omega) (wf.sub_lt c' hc' 0 (by omega) u' hu')
    rw [← h.inj r hr 0 (by omega) y hy x hx he]
    exact hu'
  · rintro ⟨v, hv, hv'⟩
    exact ⟨_, List.mem_map_of_mem hv, List.mem_map_of_mem hv'⟩

/-- The cells that touch an owned cell are the same on the part and on the whole grid. -/
theorem PartOf.touching_perm (h : PartOf n G S num) (hl : GhostLayer n G S num) {r : Nat} (hr : r < n) {c c0 : Entity}
    (hc : c ∈ (G r).entityIter 2) (ho : c.ownership = .owned) (h0 : c0 ∈ S.entityIter 2)
    (hn : c0.localIndex = num r 2 c.localIndex) :
    ((((G r).entityIter 2).filter fun c' => c.Touches c').map fun c' => num r 2 c'.localIndex).Perm
      (((S.entityIter 2).filter fun c' => c0.Touches c').map Entity.localIndex) := by
  obtain ⟨c0', h0', hn', -, hs⟩ := h.cell r hr c hc
  have : c0' = c0 := h.whole.index_inj (by omega) h0' h0 (hn'.trans hn.symm)
  subst this
  refine (List.perm_ext_iff_of_nodup ?_ ?_).mpr ?_
  · refine List.Nodup.map_on ?_ (((h.parts r hr).nodup (by omega)).filter _)
    intro c hc c' hc' he
    have hc := (List.mem_filter.mp hc).1
    have hc' := (List.mem_filter.mp hc').1
    exact (h.parts r hr).index_inj (by omega) hc hc' (h.inj r hr 2 (by omega) c hc c' hc' he)
  · refine List.Nodup.map_on ?_ ((h.whole.nodup (by omega)).filter _)
    intro c hc c' hc' he
    exact h.whole.index_inj (by omega) (List.mem_filter.mp hc).1 (List.mem_filter.mp hc').1 he
  · intro x
    simp only [List.mem_map, List.mem_filter, decide_eq_true_eq]
    constructor
    · rintro ⟨c', ⟨hc', ht⟩, rfl⟩
      obtain ⟨c1, h1, e1, -, hs1⟩ := h.cell r hr c' hc'
      exact ⟨c1, ⟨h1, (h.touches hr hc hc' (hs 0 (by omega)) (hs1 0 (by omega))).mpr ht⟩, e1⟩
    · rintro ⟨c1, ⟨h1, ht⟩, rfl⟩
      obtain ⟨c', hc', e1⟩ := hl r hr c hc ho c0' h0 c1 h1 hn ht
      obtain ⟨c1', h1', e1', -, hs1⟩ := h.cell r hr c' hc'
      have : c1' = c1 := h.whole.index_inj (by omega) h1' h1 (e1'.trans e1)
      subst this
      exact ⟨c', ⟨hc', (h.touches hr hc hc' (hs 0 (by omega)) (hs1 0 (by omega))).mp ht⟩, e1⟩

/-- A sum over the owned cells of all parts and the cells that touch them. -/
theorem PartOf.sum_eq {T : Type} [AddCommMonoid T] (h : PartOf n G S num)
    (hl : GhostLayer n G S num) (f : Entity → Entity → T)
    (v : Nat → Entity → Entity → T)
    (hv : ∀ r, r < n → ∀ c ∈ (G r).entityIter 2, ∀ c' ∈ (G r).entityIter 2, ∀ c0 ∈ S.entityIter 2,
      ∀ c1 ∈ S.entityIter 2, c0.localIndex = num r 2 c.localIndex → c1.localIndex = num r 2 c'.localIndex →
      v r c c' = f c0 c1) :
    ((List.range n).map fun r => ((((G r).entityIter 2).filter fun c => c.ownership = .owned).map fun c =>
      ((((G r).entityIter 2).filter fun c' => c.Touches c').map fun c' => v r c c').sum).sum).sum =
    (((S.entityIter 2).filter fun c => c.ownership = .owned).map fun c =>
      (((S.entityIter 2).filter fun c' => c.Touches c').map fun c' => f c c').sum).sum := by
  -- functions of the cell numbers
  let F2 : Entity → Nat → T := fun c0 y => match S.entity 2 y with
    | some c1 => f c0 c1
    | none => 0
  let F1 : Nat → T := fun x => match S.entity 2 x with
    | some c0 => (((S.entityIter 2).filter fun c' => c0.Touches c').map fun c' => f c0 c').sum
    | none => 0
  have hF2 : ∀ c0, ∀ c1 ∈ S.entityIter 2, F2 c0 c1.localIndex = f c0 c1 := by
    intro c0 c1 h1
    simp only [F2, h.whole.entity 2 (by omega) c1 h1]
  have hF1 : ∀ c0 ∈ S.entityIter 2, F1 c0.localIndex =
      (((S.entityIter 2).filter fun c' => c0.Touches c').map fun c' => f c0 c').sum := by
    intro c0 h1
    simp only [F1, h.whole.entity 2 (by omega) c0 h1]
  have hin : ∀ r, r < n → ∀ c ∈ (G r).entityIter 2, c.ownership = .owned →
      ((((G r).entityIter 2).filter fun c' => c.Touches c').map fun c' => v r c c').sum =
      F1 (num r 2 c.localIndex) := by
    intro r hr c hc ho
    obtain ⟨c0, h0, e0, -, -⟩ := h.cell r hr c hc
    rw [← e0, hF1 c0 h0]
    have hp := (h.touching_perm hl hr hc ho h0 e0).map (F2 c0)
    rw [List.map_map, List.map_map] at hp
    have hl : (((G r).entityIter 2).filter fun c' => c.Touches c').map (fun c' => v r c c') =
        (((G r).entityIter 2).filter fun c' => c.Touches c').map (F2 c0 ∘ fun c' => num r 2 c'.localIndex) := by
      refine List.map_congr_left fun c' hc' => ?_
      have hc' := (List.mem_filter.mp hc').1
      obtain ⟨c1, h1, e1, -, -⟩ := h.cell r hr c' hc'
      show _ = F2 c0 (num r 2 c'.localIndex)
      rw [← e1, hF2 c0 c1 h1]
      exact hv r hr c hc c' hc' c0 h0 c1 h1 e0 e1
    have hr' : ((S.entityIter 2).filter fun c' => c0.Touches c').map (fun c' => f c0 c') =
        ((S.entityIter 2).filter fun c' => c0.Touches c').map (F2 c0 ∘ Entity.localIndex) := by
      refine List.map_congr_left fun c' hc' => ?_
      exact (hF2 c0 c' (List.mem_filter.mp hc').1).symm
    rw [hl, hr']
    exact hp.sum_eq
  have e1 : ((List.range n).map fun r => ((((G r).entityIter 2).filter fun c => c.ownership = .owned).map fun c =>
      ((((G r).entityIter 2).filter fun c' => c.Touches c').map fun c' => v r c c').sum).sum) =
      (List.range n).map fun r => (((((G r).entityIter 2).filter fun c => c.ownership = .owned).map
        fun c => num r 2 c.localIndex).map F1).sum := by
    refine List.map_congr_left fun r hr => ?_
    have hr := List.mem_range.mp hr
    rw [List.map_map]
    congr 1
    refine List.map_congr_left fun c hc => ?_
    obtain ⟨h1, h2⟩ := List.mem_filter.mp hc
    exact hin r hr c h1 (by simpa using h2)
  have e2 : (((S.entityIter 2).filter fun c => c.ownership = .owned).map fun c =>
      (((S.entityIter 2).filter fun c' => c.Touches c').map fun c' => f c c').sum) =
      ((S.entityIter 2).map Entity.localIndex).map F1 := by
    rw [List.filter_eq_self.mpr (fun c hc => by simpa using h.serial 2 (by omega) c hc), List.map_map]
    exact List.map_congr_left fun c hc => (hF1 c hc).symm
  rw [e1, e2, ← (h.owned_perm.map F1).sum_eq]
  generalize List.range n = l
  induction l with
  | nil => rfl
  | cons a l ih => simp only [List.map_cons, List.sum_cons, List.flatMap_cons, List.map_append, List.sum_append, ih]

end Bempp
