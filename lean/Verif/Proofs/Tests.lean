import Verif.Model.Tests
import Verif.Props.Builder
import Verif.Props.Colouring
import Verif.Props.PythonData
/-
Lemmas for C98: the checks of the project's own tests.
-/
set_option linter.unusedSectionVars false

namespace Bempp.Tests

theorem assert_ok {p : Prop} [Decidable p] (h : p) : assert p = some () := if_pos h

theorem forEach_ok {α : Type} {xs : List α} {body : α → Option Unit} (h : ∀ x ∈ xs, body x = some ()) :
    forEach xs body = some () := by
  unfold forEach
  induction xs with
  | nil => rfl
  | cons x xs ih =>
    rw [List.foldlM_cons, h x (by simp)]
    exact ih fun y hy => h y (by simp [hy])

variable {T : Type} {s : Shape T} {t : CellType} {g : Grid} {pt cl : Nat → Nat} {fam : CellType → ElementDofs}
  {k : Nat → Nat} {nd : Nat → Nat → Nat}

theorem count0 (wf : g.WF) : g.entityCount .point = g.count 0 := by simp [Grid.count, wf.types0]

theorem count1 (wf : g.WF) : g.entityCount .interval = g.count 1 := by simp [Grid.count, wf.types1]

theorem count2 (h : Built s t g pt cl) : g.entityCount t = g.count 2 := by simp [Grid.count, h.types]

theorem newSpace_ok {fs : FunctionSpace} (h : FunctionSpace.new 0 1 g fam = .done fs) : newSpace g fam = some fs := by
  unfold newSpace
  rw [h]

theorem space_of (h : Built s t g pt cl) (hf : (fam t).Uniform t k) :
    ∃ fs, newSpace g fam = some fs ∧ SerialSpace fs fam ∧ fs.grid = g ∧ fs.isSerial = true ∧
      fs.globalSize = fs.localSize ∧ fs.localSize = k 0 * g.count 0 + k 1 * g.count 1 + k 2 * g.count 2 := by
  obtain ⟨fs, h1, h2, h3, h4, h5⟩ := h.space hf
  obtain ⟨fs', e1, e2, -⟩ := C18_serial_space h.wf (h.family hf) h.owned
  rw [h1] at e1
  cases e1
  exact ⟨fs, newSpace_ok h1, h2, h3, e2, h5, by rw [h.count_points, h.count_edges, h.count_cells]; exact h4⟩

theorem length_of (h : Built s t g pt cl) (hf : (fam t).Uniform t k) {fs : FunctionSpace}
    (hn : (FunctionSpace.new 0 1 g fam).Yields fs) {d e : Nat} (hd : d ≤ 2) (he : e < g.count d) {l : List Nat}
    (hl : fs.getLocalDofNumbers d e = some l) : l.length = k d := by
  obtain ⟨dm, inv, hE, -, -, -⟩ := space_inv h.wf (h.family hf) hn
  obtain ⟨c, hc, hce⟩ := h.wf.covered d hd e he
  obtain ⟨i, hi⟩ := List.getElem?_of_mem hce
  obtain ⟨l', hl'⟩ := Option.isSome_iff_exists.mp (((h.family hf).elem _ (h.wf.types c hc)).defined d hd i (by
    rw [← h.wf.sub_length c hc d hd]; exact (List.getElem?_eq_some_iff.mp hi).1))
  have hv : (⟨c.localIndex, fam c.entityType, d, i, e⟩ : Visit) ∈ allVisits g fam :=
    List.mem_flatMap.mpr ⟨c, hc, mem_visitsOf.mpr ⟨rfl, rfl, hd, hi⟩⟩
  obtain ⟨m, h1, h2, -⟩ := inv.done _ hv l' hl'
  have h1 : dm.ent d e = some m := h1
  have : dm.ent d e = some l := by
    rw [← hl]; simp [FunctionSpace.getLocalDofNumbers, DofState.ent, hE]
  rw [this] at h1
  cases h1
  rw [h2]
  exact (h.family hf).count c hc d hd i e hi l' hl'

/-- The colouring of a space whose lowest DOFs are on entities of dimension `e`. -/
theorem coloured (h : Built s t g pt cl) (hf : (fam t).Uniform t k) {e : Nat} (he : e ≤ 2) (hlow : ∀ d, d < e → k d = 0)
    (hpos : 0 < k e) :
    ∃ fs col cols, newSpace g fam = some fs ∧ fs.cellColouring = some col ∧ col t = some cols ∧
      cols.flatten.Perm (List.range (g.count 2)) ∧
      (∀ ci ∈ cols, ∀ c ∈ g.entityIter 2, ∀ c' ∈ g.entityIter 2, c.localIndex ∈ ci → c'.localIndex ∈ ci →
        c.localIndex ≠ c'.localIndex → ∀ v ∈ c.sub e, v ∉ c'.sub e) ∧
      (e = 2 → 0 < g.count 2 → cols.length = 1) := by
  obtain ⟨fs, hn, -, -⟩ := C18_serial_space h.wf (h.family hf) h.owned
  have hy : (FunctionSpace.new 0 1 g fam).Yields fs := by rw [hn]; exact .done fs
  obtain ⟨col, edim, κ, N, st, h1, rfl, hκ, inv, he2, h3, h4⟩ :=
    colouring_exists h.wf (h.family hf) (h.colourable hf) hy
  obtain ⟨col', h1', h5, h6, -⟩ := C06_colouring_partition h.wf (h.family hf) (h.colourable hf) hy
  rw [h1] at h1'
  cases h1'
  have hee : edim = e := by
    rcases Nat.lt_trichotomy edim e with hlt | heq | hgt
    · have pos : 0 < refCount t edim := by
        rcases h.type_cases with rfl | rfl <;>
          rcases (by omega : edim = 0 ∨ edim = 1 ∨ edim = 2) with rfl | rfl | rfl <;> decide
      obtain ⟨l, hl⟩ := Option.isSome_iff_exists.mp (hf.wf.defined edim he2 0 pos)
      have := hf.count edim he2 0 pos l hl
      rw [hlow edim hlt] at this
      rw [List.eq_nil_of_length_eq_zero this] at hl
      exact absurd hl h4
    · exact heq
    · have := h3 e hgt 0
      omega
  subst hee
  have hcol : st.col t = some ((List.range N).map fun c => classOf κ t c) := by
    rw [inv.col, if_pos (by rw [h.types]; simp)]
  have hcell : ∀ x ∈ κ, x.1 ∈ g.entityIter 2 := fun x hx => by rw [← hκ]; exact List.mem_map_of_mem hx
  refine ⟨fs, _, _, newSpace_ok hn, h1, hcol, ?_, ?_, ?_⟩
  · refine (h6 t _ hcol).trans ?_
    rw [List.filter_eq_self.mpr fun c hc => decide_eq_true (h.cell_type hc)]
    exact h.wf.index 2 (le_refl 2)
  · intro ci hci c hc c' hc' hm hm' hne v hv hv'
    obtain ⟨j, hj, rfl⟩ := List.mem_map.mp hci
    have key : ∀ c ∈ g.entityIter 2, c.localIndex ∈ classOf κ t j → (c, j) ∈ κ := by
      intro c hc hm
      refine (hasColour_iff h.wf hκ inv hc).mp ⟨_, classOf κ t j, by rw [h.cell_type hc]; exact hcol, ?_, hm⟩
      rw [List.getElem?_map, List.getElem?_range (List.mem_range.mp hj)]
      rfl
    have a := key c hc hm
    have b := key c' hc' hm'
    have hp : ∀ x ∈ κ, ∀ y ∈ κ, x ≠ y → x.2 = y.2 → ∀ v ∈ x.1.sub edim, v ∉ y.1.sub edim := by
      intro x hx y hy' hxy heq v hv hv'
      obtain ⟨i, hi, rfl⟩ := List.getElem_of_mem hx
      obtain ⟨i', hi', rfl⟩ := List.getElem_of_mem hy'
      have hd := List.pairwise_iff_getElem.mp inv.proper
      rcases Nat.lt_trichotomy i i' with hlt | hij | hlt
      · exact hd i i' hi hi' hlt heq v hv hv'
      · subst hij
        exact hxy rfl
      · exact hd i' i hi' hi hlt heq.symm v hv' hv
    exact hp _ a _ b (fun heq => hne (congrArg (fun x : Entity × Nat => x.1.localIndex) heq)) rfl v hv hv'
  · intro h2 hcount
    subst h2
    rw [List.length_map, List.length_range]
    have hN : N ≤ 1 := by
      by_contra hN
      obtain ⟨x, hx, hx1⟩ := inv.used 1 (by omega)
      obtain ⟨y, hy', hy0, v, hv, hv'⟩ := inv.blocked x hx 0 (by omega)
      rw [h.wf.sub_self _ (hcell x hx), List.mem_singleton] at hv
      rw [h.wf.sub_self _ (hcell y hy'), List.mem_singleton] at hv'
      have e1 : y.1 = x.1 := cell_ext h.wf (hcell y hy') (hcell x hx) (by omega)
      have hnd : (κ.map Prod.fst).Nodup := by
        rw [hκ]
        exact List.Nodup.of_map Entity.localIndex ((h.wf.index 2 (by omega)).nodup_iff.mpr List.nodup_range)
      have e2 := List.inj_on_of_nodup_map hnd hy' hx e1
      rw [e2] at hy0
      omega
    obtain ⟨c, hc⟩ : ∃ c, c ∈ g.entityIter 2 := by
      obtain ⟨c, hc, -⟩ := h.wf.covered 2 (le_refl 2) 0 hcount
      exact ⟨c, hc⟩
    rw [← hκ] at hc
    obtain ⟨x, hx, -⟩ := List.mem_map.mp hc
    have := inv.lt x hx
    omega

theorem zipIdx_nodup {l : List Nat} (hl : l.Nodup) {ni : Nat × Nat} (h : ni ∈ l.zipIdx) : ∀ m ∈ l.drop (ni.2 + 1), ni.1 ≠ m := by
  have h0 := List.mem_zipIdx h
  intro m hm hne
  obtain ⟨j, hj⟩ := List.getElem?_of_mem hm
  rw [List.getElem?_drop] at hj
  have hlt : ni.2 < l.length := by omega
  have e1 : l[ni.2]? = some ni.1 := by
    rw [List.getElem?_eq_getElem hlt, h0.2.2]
    simp
  rw [← hne, ← e1] at hj
  have := (List.nodup_iff_getElem?_ne_getElem?.mp hl) ni.2 (ni.2 + 1 + j) (by omega)
    (by
      rw [e1] at hj
      exact (List.getElem?_eq_some_iff.mp hj).1)
  exact this hj.symm

theorem parts_ok (h : Built s .triangle g pt cl) {cols : List (List Nat)} (hp : cols.flatten.Perm (List.range (g.count 2))) :
    colouringParts g cols = some () := by
  have hnd : cols.flatten.Nodup := hp.nodup_iff.mpr List.nodup_range
  have hsum : ∀ (l : List (List Nat)) (n : Nat), l.foldl (fun n i => n + i.length) n = n + l.flatten.length := by
    intro l
    induction l with
    | nil => intro n; simp
    | cons x l ih => intro n; rw [List.foldl_cons, ih]; simp; omega
  unfold colouringParts
  simp only [hsum]
  rw [assert_ok (by rw [count2 h, hp.length_eq]; simp)]
  refine forEach_ok fun x hx => forEach_ok fun y hy => ?_
  split
  · rename_i hne
    refine forEach_ok fun a ha => forEach_ok fun b hb => assert_ok ?_
    have hx' := List.mem_zipIdx hx
    have hy' := List.mem_zipIdx hy
    rw [List.nodup_flatten] at hnd
    intro heq
    have hd := List.pairwise_iff_getElem.mp hnd.2
    simp only [Nat.sub_zero, Nat.zero_add] at hx' hy'
    rcases Nat.lt_or_gt_of_ne hne with hlt | hlt
    · refine hd x.2 y.2 hx'.2.1 hy'.2.1 hlt (a := a) ?_ ?_
      · rw [← hx'.2.2]; exact ha
      · rw [← hy'.2.2, heq]; exact hb
    · refine hd y.2 x.2 hy'.2.1 hx'.2.1 hlt (a := b) ?_ ?_
      · rw [← hy'.2.2]; exact hb
      · rw [← hx'.2.2, ← heq]; exact ha
  · rfl

end Bempp.Tests
