import Verif.Model.Colouring
import Verif.Spec.Contract
import Verif.Lemmas.Fold
import Verif.Lemmas.ListExtra
/-
Loop invariant of `cell_colouring`.
-/
namespace Bempp

theorem pushAllTypes (types : List CellType) (hn : types.Nodup) (m : Colouring) (f : CellType → List Nat)
    (hm : ∀ t ∈ types, (m t).isSome) :
    types.foldlM (fun (m : Colouring) ct => do
      let v ← m ct
      some (m.put ct (v ++ [f ct]))) m =
    some (fun t => if t ∈ types then (m t).map (· ++ [f t]) else m t) := by
  induction types generalizing m with
  | nil => simp
  | cons a ts ih =>
    rw [List.nodup_cons] at hn
    obtain ⟨v, hv⟩ := Option.isSome_iff_exists.mp (hm a (by simp))
    rw [List.foldlM_cons]
    simp only [hv, Option.bind_eq_bind, Option.bind_some]
    have := ih hn.2 (m.put a (v ++ [f a])) (by
      intro t ht
      unfold Colouring.put
      split
      · rfl
      · exact hm t (by simp [ht]))
    simp only [Option.bind_eq_bind] at this
    rw [this]
    congr 1
    funext t
    unfold Colouring.put
    by_cases h1 : t = a
    · subst h1
      simp [hn.1, hv]
    · simp [h1]

theorem findColour_le (ec : List (List Nat)) (ix : List Nat) (n : Nat) : findColour ec ix n ≤ n := by
  unfold findColour
  cases h : (List.range n).find? fun c => !(ix.any fun v => (ec.getD v []).contains c) with
  | none => simp
  | some c =>
    have := List.mem_of_find?_eq_some h
    simp at this
    simp; omega

theorem findColour_free (ec : List (List Nat)) (ix : List Nat) (n : Nat)
    (h : findColour ec ix n < n) : ∀ v ∈ ix, findColour ec ix n ∉ ec.getD v [] := by
  unfold findColour at *
  cases hf : (List.range n).find? fun c => !(ix.any fun v => (ec.getD v []).contains c) with
  | none => rw [hf] at h; simp at h
  | some c =>
    have := List.find?_some hf
    simp only [Bool.not_eq_true', List.any_eq_false, List.contains_iff_mem] at this
    simpa using this

theorem findColour_min (ec : List (List Nat)) (ix : List Nat) (n j : Nat)
    (h : j < findColour ec ix n) : ∃ v ∈ ix, j ∈ ec.getD v [] := by
  have hjn : j < n := Nat.lt_of_lt_of_le h (findColour_le ec ix n)
  unfold findColour at h
  by_contra hno
  have hp : (!(ix.any fun v => (ec.getD v []).contains j)) = true := by
    rw [Bool.not_eq_true', List.any_eq_false]
    intro v hv
    rw [List.contains_iff_mem]
    exact fun hm => hno ⟨v, hv, hm⟩
  cases hf : (List.range n).find? fun c => !(ix.any fun v => (ec.getD v []).contains c) with
  | none =>
    rw [List.find?_eq_none] at hf
    exact hf j (by simpa using hjn) hp
  | some c =>
    rw [hf, Option.getD_some] at h
    rw [List.find?_range_eq_some] at hf
    have := hf.2.2 j h
    rw [hp] at this
    simp at this

theorem setAll_length (ix : List Nat) (c : Nat) (ec : List (List Nat)) :
    (ix.foldl (fun ec v => ec.set v (ec.getD v [] ++ [c])) ec).length = ec.length := by
  induction ix generalizing ec with
  | nil => rfl
  | cons a ix ih => rw [List.foldl_cons, ih]; simp

theorem setAll_mem (ix : List Nat) (c : Nat) (ec : List (List Nat)) (hlt : ∀ v ∈ ix, v < ec.length)
    (v x : Nat) :
    x ∈ (ix.foldl (fun ec v => ec.set v (ec.getD v [] ++ [c])) ec).getD v [] ↔
      x ∈ ec.getD v [] ∨ (v ∈ ix ∧ x = c) := by
  induction ix generalizing ec with
  | nil => simp
  | cons a ix ih =>
    rw [List.foldl_cons, ih _ (fun v hv => by simpa using hlt v (by simp [hv]))]
    have ha := hlt a (by simp)
    by_cases h : v = a
    · subst h
      simp only [List.getD_eq_getElem?_getD, List.getElem?_set_self ha, Option.getD_some,
        List.mem_append, List.mem_cons, true_or, true_and]
      tauto
    · simp only [List.getD_eq_getElem?_getD, List.getElem?_set_ne (Ne.symm h), List.mem_cons, h,
        false_or]

/-- The list of cells of type `t` with colour `c`. -/
def classOf (κ : List (Entity × Nat)) (t : CellType) (c : Nat) : List Nat :=
  (κ.filter fun x => decide (x.1.entityType = t ∧ x.2 = c)).map fun x => x.1.localIndex

/-- Invariant of the main loop, for an explicit assignment `κ` of colours to the processed cells. -/
structure ColInv (g : Grid) (edim : Nat) (κ : List (Entity × Nat)) (N : Nat) (s : ColState) : Prop where
  lt : ∀ x ∈ κ, x.2 < N
  col : ∀ t, s.col t = if t ∈ g.entityTypes 2 then
    some ((List.range N).map fun c => classOf κ t c) else none
  len : s.ec.length = g.count edim
  ec : ∀ v c, c ∈ s.ec.getD v [] ↔ ∃ x ∈ κ, x.2 = c ∧ v ∈ x.1.sub edim
  proper : κ.Pairwise fun x y => x.2 = y.2 → ∀ v ∈ x.1.sub edim, v ∉ y.1.sub edim
  blocked : ∀ x ∈ κ, ∀ j, j < x.2 → ∃ y ∈ κ, y.2 = j ∧ ∃ v ∈ x.1.sub edim, v ∈ y.1.sub edim
  used : ∀ k, k < N → ∃ x ∈ κ, x.2 = k

theorem classOf_append (κ : List (Entity × Nat)) (cell : Entity) (c0 : Nat) (t : CellType) (c : Nat) :
    classOf (κ ++ [(cell, c0)]) t c =
      classOf κ t c ++ (if cell.entityType = t ∧ c0 = c then [cell.localIndex] else []) := by
  unfold classOf
  rw [List.filter_append, List.map_append]
  congr 1
  by_cases h : cell.entityType = t ∧ c0 = c
  · rw [if_pos h, List.filter_cons_of_pos (by simpa using h)]; rfl
  · rw [if_neg h, List.filter_cons_of_neg (by simpa using h)]; rfl

theorem classOf_ge (κ : List (Entity × Nat)) (N : Nat) (h : ∀ x ∈ κ, x.2 < N) (t : CellType) :
    classOf κ t N = [] := by
  unfold classOf
  rw [List.map_eq_nil_iff, List.filter_eq_nil_iff]
  intro x hx
  have := h x hx
  simp; omega

theorem colourCell_inv (g : Grid) (edim : Nat) (hnd : (g.entityTypes 2).Nodup) (κ : List (Entity × Nat))
    (N : Nat) (s : ColState) (inv : ColInv g edim κ N s) (cell : Entity)
    (ht : cell.entityType ∈ g.entityTypes 2) (hlt : ∀ v ∈ cell.sub edim, v < g.count edim) :
    ∃ s' c N', colourCell g edim s cell = some s' ∧ ColInv g edim (κ ++ [(cell, c)]) N' s' := by
  have hcols := inv.col cell.entityType
  rw [if_pos ht] at hcols
  let c := findColour s.ec (cell.sub edim) N
  have hcN : c ≤ N := findColour_le _ _ _
  have hfree : ∀ v ∈ cell.sub edim, c ∉ s.ec.getD v [] := by
    intro v hv
    rcases Nat.lt_or_ge c N with h | h
    · exact findColour_free _ _ _ h v hv
    · intro hm
      obtain ⟨x, hx, h1, _⟩ := (inv.ec v c).mp hm
      have := inv.lt x hx
      omega
  have hput : ∃ N' m, putCell (g.entityTypes 2) s.col cell.entityType cell.localIndex c = some m ∧
      N ≤ N' ∧ c < N' ∧ (N' = N ∨ (N' = N + 1 ∧ c = N)) ∧ ∀ t, m t = if t ∈ g.entityTypes 2 then
        some ((List.range N').map fun c' => classOf (κ ++ [(cell, c)]) t c') else none := by
    unfold putCell
    rw [hcols]
    simp only [Option.bind_eq_bind, Option.bind_some, List.length_map, List.length_range]
    by_cases h : c = N
    · rw [if_pos h]
      have := pushAllTypes (g.entityTypes 2) hnd s.col
        (fun ct => if ct = cell.entityType then [cell.localIndex] else [])
        (fun t ht => by rw [inv.col t, if_pos ht]; rfl)
      simp only [Option.bind_eq_bind] at this
      rw [this]
      refine ⟨N + 1, _, rfl, by omega, by omega, Or.inr ⟨rfl, h⟩, ?_⟩
      intro t
      by_cases htt : t ∈ g.entityTypes 2
      · simp only [htt, if_true, inv.col t, Option.map_some, Option.some.injEq, List.range_succ,
          List.map_append, List.map_cons, List.map_nil]
        congr 1
        · apply List.map_congr_left
          intro c' hc'
          rw [classOf_append, if_neg (by rw [List.mem_range] at hc'; omega)]
          simp
        · rw [classOf_append, classOf_ge κ N inv.lt]
          simp only [h, and_true, List.nil_append]
          by_cases h2 : t = cell.entityType
          · simp [h2]
          · rw [if_neg h2, if_neg (fun hh => h2 hh.symm)]
      · simp only [htt, if_false, inv.col t]
    · rw [if_neg h]
      have hc : c < N := by omega
      rw [List.getElem?_map, List.getElem?_range hc]
      simp only [Option.map_some, Option.bind_some]
      refine ⟨N, _, rfl, by omega, hc, Or.inl rfl, ?_⟩
      intro t
      unfold Colouring.put
      by_cases h2 : t = cell.entityType
      · subst h2
        simp only [if_true, ht, Option.some.injEq]
        apply List.ext_getElem?
        intro j
        rw [List.getElem?_set]
        simp only [List.length_map, List.length_range, hc, if_true]
        by_cases hj : c = j
        · subst hj
          rw [if_pos rfl, List.getElem?_map, List.getElem?_range hc]
          simp [classOf_append]
        · rw [if_neg hj, List.getElem?_map, List.getElem?_map]
          by_cases hjN : j < N
          · rw [List.getElem?_range hjN]
            simp [classOf_append, hj]
          · rw [List.getElem?_eq_none (by simpa using hjN)]
            rfl
      · rw [if_neg h2, inv.col t]
        by_cases htt : t ∈ g.entityTypes 2
        · simp only [htt, if_true, Option.some.injEq]
          apply List.map_congr_left
          intro c' _
          rw [classOf_append, if_neg (fun hh => h2 hh.1.symm)]
          simp
        · simp only [htt, if_false]
  obtain ⟨N', m, hm, hNN, hcN', hN', hmt⟩ := hput
  refine ⟨{ col := m, ec := (cell.sub edim).foldl (fun ec v => ec.set v (ec.getD v [] ++ [c])) s.ec },
    c, N', ?_, ?_, hmt, ?_, ?_, ?_, ?_, ?_⟩
  · unfold colourCell
    rw [hcols]
    simp only [Option.bind_eq_bind, Option.bind_some, List.length_map, List.length_range]
    rw [if_pos (by
      rw [List.all_eq_true]
      intro v hv
      simpa [inv.len] using hlt v hv)]
    simp only [c] at hm ⊢
    rw [hm]
    rfl
  · intro x hx
    rcases List.mem_append.mp hx with h | h
    · have := inv.lt x h; omega
    · simp at h; subst h; exact hcN'
  · rw [setAll_length]; exact inv.len
  · intro v x
    rw [setAll_mem _ _ _ (fun v hv => by rw [inv.len]; exact hlt v hv), inv.ec]
    constructor
    · rintro (⟨y, hy, h⟩ | ⟨h1, h2⟩)
      · exact ⟨y, by simp [hy], h⟩
      · exact ⟨(cell, c), by simp, h2.symm, h1⟩
    · rintro ⟨y, hy, h1, h2⟩
      rcases List.mem_append.mp hy with h | h
      · exact Or.inl ⟨y, h, h1, h2⟩
      · simp at h; subst h; exact Or.inr ⟨h2, h1.symm⟩
  · rw [List.pairwise_append]
    refine ⟨inv.proper, by simp, ?_⟩
    intro x hx y hy heq v hv hv'
    simp at hy; subst hy
    exact hfree v hv' ((inv.ec v c).mpr ⟨x, hx, heq, hv⟩)
  · intro x hx j hj
    rcases List.mem_append.mp hx with h | h
    · obtain ⟨y, hy, h1, h2⟩ := inv.blocked x h j hj
      exact ⟨y, by simp [hy], h1, h2⟩
    · simp at h; subst h
      obtain ⟨v, hv, hm⟩ := findColour_min _ _ _ _ hj
      obtain ⟨y, hy, h1, h2⟩ := (inv.ec v j).mp hm
      exact ⟨y, by simp [hy], h1, v, hv, h2⟩
  · intro k hk
    rcases Nat.lt_or_ge k N with h | h
    · obtain ⟨x, hx, h1⟩ := inv.used k h
      exact ⟨x, by simp [hx], h1⟩
    · refine ⟨(cell, c), by simp, ?_⟩
      change c = k
      omega

/-- The loop over all cells. -/
theorem colourLoop_inv (g : Grid) (wf : g.WF) (edim : Nat) (hed : edim ≤ 2) :
    ∃ s κ N, (g.entityIter 2).foldlM (colourCell g edim)
      { col := fun t => if t ∈ g.entityTypes 2 then some [] else none
        ec := List.replicate (g.count edim) [] } = some s ∧
      κ.map Prod.fst = g.entityIter 2 ∧ ColInv g edim κ N s := by
  have := foldlM_inv (colourCell g edim)
    (fun pre s => ∃ κ N, κ.map Prod.fst = pre ∧ ColInv g edim κ N s) (g.entityIter 2)
    { col := fun t => if t ∈ g.entityTypes 2 then some [] else none
      ec := List.replicate (g.count edim) [] }
    (by
      refine ⟨[], 0, rfl, by simp, ?_, by simp, ?_, by simp, by simp, by simp⟩
      · intro t; simp
      · intro v c
        simp only [List.not_mem_nil, false_and, exists_false, iff_false]
        rw [List.getD_eq_getElem?_getD, List.getElem?_replicate]
        split <;> simp)
    (by
      rintro pre cell post s hl ⟨κ, N, hκ, inv⟩
      have hcell : cell ∈ g.entityIter 2 := by simp [hl]
      obtain ⟨s', c, N', h1, h2⟩ := colourCell_inv g edim wf.types_nodup κ N s inv cell
        (wf.types cell hcell) (wf.sub_lt cell hcell edim hed)
      exact ⟨s', h1, κ ++ [(cell, c)], N', by simp [hκ], h2⟩)
  obtain ⟨s, h1, κ, N, h2, h3⟩ := this
  exact ⟨s, κ, N, h1, h2, h3⟩

/-- The dimension search stops at the lowest dimension with DOFs. -/
theorem findEdim_spec (el : ElementDofs) (hdef : ∀ d, d ≤ 2 → (el.entityDofs d 0).isSome)
    (hex : ∃ d l, d ≤ 2 ∧ el.entityDofs d 0 = some l ∧ l ≠ []) :
    ∃ e, findEdim el 3 0 = some e ∧ e ≤ 2 ∧ el.entityDofs e 0 ≠ some [] ∧
      ∀ d, d < e → el.entityDofs d 0 = some [] := by
  obtain ⟨l0, h0⟩ := Option.isSome_iff_exists.mp (hdef 0 (by omega))
  obtain ⟨l1, h1⟩ := Option.isSome_iff_exists.mp (hdef 1 (by omega))
  obtain ⟨l2, h2⟩ := Option.isSome_iff_exists.mp (hdef 2 (by omega))
  simp only [findEdim, h0, h1, h2]
  by_cases e0 : l0 = []
  · subst e0
    by_cases e1 : l1 = []
    · subst e1
      have e2 : l2 ≠ [] := by
        obtain ⟨d, l, hd, hl, hne⟩ := hex
        rcases (by omega : d = 0 ∨ d = 1 ∨ d = 2) with rfl | rfl | rfl
        · rw [h0] at hl; cases hl; exact absurd rfl hne
        · rw [h1] at hl; cases hl; exact absurd rfl hne
        · rw [h2] at hl; cases hl; exact hne
      refine ⟨2, by simp [e2], by omega, by simp [h2, e2], ?_⟩
      intro d hd
      rcases (by omega : d = 0 ∨ d = 1) with rfl | rfl
      · exact h0
      · exact h1
    · refine ⟨1, by simp [e1], by omega, by simp [h1, e1], ?_⟩
      intro d hd
      have : d = 0 := by omega
      subst this; exact h0
  · exact ⟨0, by simp [e0], by omega, by simp [h0, e0], fun d hd => by omega⟩

end Bempp
