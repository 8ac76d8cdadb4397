import Verif.Spec.Symmetric
import Verif.Spec.Locality
import Verif.Spec.Motion
import Verif.Proofs.Builder
/-
A grid made from a shape that is a part of another shape is a part of the grid made from that one.
-/
namespace Bempp

variable {T : Type} {s s' : Shape T} {t : CellType} {g g' : Grid} {pt cl pt' cl' : Nat → Nat}
  {f : T × T × T → T × T × T} {p q : Nat → Nat}

theorem SamePair.trans {a b c : Nat × Nat} (h : SamePair a b) (h' : SamePair b c) : SamePair a c := by
  unfold SamePair at *
  rcases h with rfl | rfl <;> rcases h' with rfl | rfl <;> simp

theorem SamePair.symm {a b : Nat × Nat} (h : SamePair a b) : SamePair b a := by
  unfold SamePair at *
  rcases h with rfl | rfl <;> simp

theorem map_injOn_list {α β : Type} {f : α → β} {l m : List α} (h : ∀ a ∈ l, ∀ b ∈ m, f a = f b → a = b)
    (e : l.map f = m.map f) : l = m := by
  induction l generalizing m with
  | nil =>
    cases m with
    | nil => rfl
    | cons b m => cases e
  | cons a l ih =>
    cases m with
    | nil => cases e
    | cons b m =>
      rw [List.map_cons, List.map_cons, List.cons.injEq] at e
      rw [h a (by simp) b (by simp) e.1, ih (fun x hx y hy => h x (by simp [hx]) y (by simp [hy])) e.2]

/-- The cell of a grid with a given number. -/
theorem Grid.WF.cell_at (h : g.WF) {k : Nat} (hk : k < g.count 2) : ∃ c ∈ g.entityIter 2, c.localIndex = k := by
  have := (h.index 2 (by omega)).mem_iff (a := k)
  rw [List.mem_range] at this
  exact List.mem_map.mp (this.mpr hk)

/-- The grid made from a part is a part of the grid, with the numbers that the two numberings of the builder give. -/
theorem Built.part (h : Built s t g pt cl) (h' : Built s' t g' pt' cl') (hm : s.MovedInto s' f p q) :
    ∃ num, g.PartIn g' num ∧ (∀ v, v < g.count 0 → num 0 v < g'.count 0 ∧ pt' (num 0 v) = p (pt v)) ∧
      ∀ k, k < g.count 2 → num 2 k < g'.count 2 ∧ cl' (num 2 k) = q (cl k) := by
  classical
  obtain ⟨ev, he⟩ := h.edges
  obtain ⟨ev', he'⟩ := h'.edges
  have ptlt : ∀ v, v < g.count 0 → pt v < s.points.length := fun v hv =>
    List.mem_range.mp (h.points.subset (List.mem_map_of_mem (List.mem_range.mpr hv)))
  have cllt : ∀ k, k < g.count 2 → cl k < s.cells.length := fun k hk =>
    List.mem_range.mp (h.cells.subset (List.mem_map_of_mem (List.mem_range.mpr hk)))
  -- vertices
  have hv0 : ∀ v, v < g.count 0 → ∃ w, w < g'.count 0 ∧ pt' w = p (pt v) := by
    intro v hv
    have hp := ptlt v hv
    obtain ⟨x, hx⟩ : ∃ x, s.at (pt v) = some x := ⟨_, by
      unfold Shape.at; rw [List.getElem?_eq_getElem hp]; rfl⟩
    have := hm.point _ _ hx
    have hlt : p (pt v) < s'.points.length := by
      unfold Shape.at at this
      by_contra hc
      rw [List.getElem?_eq_none (by omega)] at this
      cases this
    exact perm_surj h'.points hlt
  choose! n0 hn0 using hv0
  -- cells
  have hk0 : ∀ k, k < g.count 2 → ∃ l, l < g'.count 2 ∧ cl' l = q (cl k) := by
    intro k hk
    have hp := cllt k hk
    obtain ⟨n, hn⟩ := hm.cell _ _ (List.getElem?_eq_getElem hp)
    exact perm_surj h'.cells (List.getElem?_eq_some_iff.mp hn).1
  choose! n2 hn2 using hk0
  -- the image of a cell
  have img : ∀ c ∈ g.entityIter 2, ∃ c0 ∈ g'.entityIter 2, c0.localIndex = n2 c.localIndex ∧
      c0.sub 0 = (c.sub 0).map n0 := by
    intro c hc
    have hk := h.cell_lt hc
    obtain ⟨c0, hc0, e0⟩ := h'.wf.cell_at (hn2 _ hk).1
    refine ⟨c0, hc0, e0, ?_⟩
    obtain ⟨x, hx, hxc⟩ := h.corners c hc
    obtain ⟨n, hn⟩ := hm.cell _ _ hx
    obtain ⟨y, hy, hyc⟩ := h'.corners c0 hc0
    rw [e0, (hn2 _ hk).2, hn] at hy
    obtain rfl := Option.some.inj hy
    simp only [hxc, List.map_map] at hyc
    have : (c0.sub 0).map pt' = ((c.sub 0).map n0).map pt' := by
      rw [← hyc, List.map_map]
      apply List.map_congr_left
      intro v hv
      exact ((hn0 v (h.wf.sub_lt c hc 0 (by omega) v hv)).2).symm
    refine map_injOn_list (fun a ha b hb e => ?_) this
    · have ha' : a < g'.count 0 := h'.wf.sub_lt c0 hc0 0 (by omega) a ha
      obtain ⟨v, hv, rfl⟩ := List.mem_map.mp hb
      exact perm_inj h'.points ha' (hn0 v (h.wf.sub_lt c hc 0 (by omega) v hv)).1 e
  have n0inj : ∀ v w, v < g.count 0 → w < g.count 0 → n0 v = n0 w → v = w := by
    intro v w hv hw e
    have e1 : p (pt v) = p (pt w) := by rw [← (hn0 v hv).2, ← (hn0 w hw).2, e]
    exact perm_inj h.points hv hw (hm.pointInj _ _ (ptlt v hv) (ptlt w hw) e1)
  -- edges
  have edge : ∀ c ∈ g.entityIter 2, ∀ c0 ∈ g'.entityIter 2, c0.sub 0 = (c.sub 0).map n0 → ∀ i e : Nat,
      (c.sub 1)[i]? = some e → ∃ e', (c0.sub 1)[i]? = some e' ∧ SamePair (ev' e') (n0 (ev e).1, n0 (ev e).2) := by
    intro c hc c0 hc0 hs i e hi
    have hlen : (c0.sub 1).length = (c.sub 1).length := by
      rw [h.wf.sub_length c hc 1 (by omega), h'.wf.sub_length c0 hc0 1 (by omega), h.cell_type hc, h'.cell_type hc0]
    have hil : i < (c0.sub 1).length := by rw [hlen]; exact (List.getElem?_eq_some_iff.mp hi).1
    refine ⟨_, List.getElem?_eq_getElem hil, ?_⟩
    obtain ⟨a, b, va, vb, hr, ha, hb, hp⟩ := he.ref c hc i e hi
    obtain ⟨a', b', va', vb', hr', ha', hb', hp'⟩ := he'.ref c0 hc0 i _ (List.getElem?_eq_getElem hil)
    rw [h.cell_type hc] at hr
    rw [h'.cell_type hc0, hr] at hr'
    obtain ⟨rfl, rfl⟩ := Prod.mk.injEq _ _ _ _ ▸ Option.some.inj hr'
    rw [hs, List.getElem?_map, ha] at ha'
    rw [hs, List.getElem?_map, hb] at hb'
    obtain rfl := Option.some.inj ha'
    obtain rfl := Option.some.inj hb'
    refine hp'.trans ?_
    rcases hp with hp | hp <;> rw [hp]
    · exact Or.inl rfl
    · exact Or.inr rfl
  have evlt : ∀ e, e < g.count 1 → (ev e).1 < g.count 0 ∧ (ev e).2 < g.count 0 := by
    intro e hee
    obtain ⟨c, hc, hem⟩ := h.wf.covered 1 (by omega) e hee
    obtain ⟨i, hi⟩ := List.mem_iff_getElem?.mp hem
    obtain ⟨a, b, va, vb, hr, ha, hb, hp⟩ := he.ref c hc i e hi
    have la := h.wf.sub_lt c hc 0 (by omega) va (List.mem_of_getElem? ha)
    have lb := h.wf.sub_lt c hc 0 (by omega) vb (List.mem_of_getElem? hb)
    rcases hp with hp | hp <;> rw [hp]
    · exact ⟨la, lb⟩
    · exact ⟨lb, la⟩
  have he0 : ∀ e, e < g.count 1 → ∃ e', e' < g'.count 1 ∧ SamePair (ev' e') (n0 (ev e).1, n0 (ev e).2) := by
    intro e hee
    obtain ⟨c, hc, hem⟩ := h.wf.covered 1 (by omega) e hee
    obtain ⟨i, hi⟩ := List.mem_iff_getElem?.mp hem
    obtain ⟨c0, hc0, -, hs⟩ := img c hc
    obtain ⟨e', h1, h2⟩ := edge c hc c0 hc0 hs i e hi
    exact ⟨e', h'.wf.sub_lt c0 hc0 1 (by omega) e' (List.mem_of_getElem? h1), h2⟩
  choose! n1 hn1 using he0
  refine ⟨fun d => match d with | 0 => n0 | 1 => n1 | _ => n2, ⟨?_, ?_⟩, hn0, hn2⟩
  · intro d hd e e' h1 h2 e3
    match d, hd with
    | 0, _ => exact n0inj e e' h1 h2 e3
    | 1, _ =>
      simp only at e3
      have s1 := (hn1 e h1).2
      have s2 := (hn1 e' h2).2
      rw [e3] at s1
      have s3 := s1.symm.trans s2
      refine he.inj e e' h1 h2 ?_
      have l1 := evlt e h1
      have l2 := evlt e' h2
      rcases s3 with s3 | s3 <;> simp only [Prod.mk.injEq] at s3
      · exact Or.inl (Prod.ext (n0inj _ _ l1.1 l2.1 s3.1) (n0inj _ _ l1.2 l2.2 s3.2))
      · exact Or.inr (Prod.ext (n0inj _ _ l1.1 l2.2 s3.1) (n0inj _ _ l1.2 l2.1 s3.2))
    | 2, _ =>
      simp only at e3
      have e4 : q (cl e) = q (cl e') := by rw [← (hn2 e h1).2, ← (hn2 e' h2).2, e3]
      exact perm_inj h.cells h1 h2 (hm.cellInj _ _ (cllt e h1) (cllt e' h2) e4)
  · intro c hc
    obtain ⟨c0, hc0, i0, hs⟩ := img c hc
    refine ⟨c0, hc0, i0, by rw [h.cell_type hc, h'.cell_type hc0], fun d hd => ?_⟩
    match d, hd with
    | 0, _ => exact hs
    | 1, _ =>
      have hlen : (c0.sub 1).length = (c.sub 1).length := by
        rw [h.wf.sub_length c hc 1 (by omega), h'.wf.sub_length c0 hc0 1 (by omega), h.cell_type hc, h'.cell_type hc0]
      apply List.ext_getElem?
      intro i
      rw [List.getElem?_map]
      cases hi : (c.sub 1)[i]? with
      | none =>
        rw [Option.map_none, List.getElem?_eq_none_iff]
        rw [List.getElem?_eq_none_iff] at hi
        omega
      | some e =>
        obtain ⟨e', h1, h2⟩ := edge c hc c0 hc0 hs i e hi
        rw [h1, Option.map_some]
        congr 1
        have hlt := h.wf.sub_lt c hc 1 (by omega) e (List.mem_of_getElem? hi)
        exact he'.inj e' _ (h'.wf.sub_lt c0 hc0 1 (by omega) e' (List.mem_of_getElem? h1)) (hn1 e hlt).1
          (h2.trans (hn1 e hlt).2.symm)
    | 2, _ =>
      rw [h'.wf.sub_self c0 hc0, h.wf.sub_self c hc, i0]
      rfl

/-- A part with as many entities is all of the grid. -/
theorem Grid.PartIn.renumbering {num : Nat → Nat → Nat} (h : g.PartIn g' num) (wf : g.WF) (wf' : g'.WF)
    (types : ∀ t ∈ g.entityTypes 2, t ∈ g'.entityTypes 2) (count : ∀ d, d ≤ 2 → g.count d = g'.count d) :
    g.Renumbering g' num where
  types := types
  inj := h.inj
  onto := by
    intro d hd e0 he0
    have lt : ∀ e, e < g.count d → num d e < g'.count d := by
      intro e he
      obtain ⟨c, hc, hm⟩ := wf.covered d hd e he
      obtain ⟨c0, hc0, -, -, hs⟩ := h.cell c hc
      exact wf'.sub_lt c0 hc0 d hd _ (by rw [hs d hd]; exact List.mem_map_of_mem hm)
    have hsub : (Finset.range (g.count d)).image (num d) ⊆ Finset.range (g'.count d) := by
      intro x hx
      obtain ⟨e, he, rfl⟩ := Finset.mem_image.mp hx
      exact Finset.mem_range.mpr (lt e (Finset.mem_range.mp he))
    have hcard : ((Finset.range (g.count d)).image (num d)).card = g.count d := by
      rw [Finset.card_image_of_injOn, Finset.card_range]
      intro a ha b hb e
      exact h.inj d hd a b (by simpa using ha) (by simpa using hb) e
    have := Finset.eq_of_subset_of_card_le hsub (by rw [hcard, Finset.card_range, count d hd])
    have hm : e0 ∈ (Finset.range (g.count d)).image (num d) := by rw [this]; exact Finset.mem_range.mpr he0
    obtain ⟨e, he, rfl⟩ := Finset.mem_image.mp hm
    exact ⟨e, Finset.mem_range.mp he, rfl⟩
  cell := h.cell

end Bempp
