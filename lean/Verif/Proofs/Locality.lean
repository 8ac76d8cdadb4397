import Verif.Spec.Locality
import Verif.Proofs.Motion
import Verif.Props.Numbering
/-
DOFs and matrix entries of parts of a grid.
-/
set_option linter.unusedSectionVars false

namespace Bempp

variable {R T : Type}

/-- Every DOF is a DOF of some cell. -/
theorem SerialSpace.dof_in_cell {sp : FunctionSpace} {fam : CellType → ElementDofs} (h : SerialSpace sp fam) {n : Nat}
    (hn : n < sp.globalSize) : ∃ c ∈ sp.grid.entityIter 2, ∃ cd, ∃ a : Nat, sp.cellDofs c.localIndex = some cd ∧
      cd[a]? = some n := by
  obtain ⟨nd, -, fo, -⟩ := h.family
  rw [h.serial.2.1] at hn
  obtain ⟨⟨d, e, k⟩, ⟨l, hl, hk⟩, -⟩ := (C01_numbering_bijection h.wf fo h.yields).2.1 n hn
  have hp := List.mem_of_getElem? ((C51_numbering_order h.wf fo h.yields d e k n).mp ⟨l, hl, hk⟩)
  unfold dofPlaces Grid.visitOrder at hp
  simp only [List.mem_flatMap, List.mem_map, List.mem_range, List.mem_eraseDups, Prod.mk.injEq] at hp
  obtain ⟨x, ⟨c, hc, d', hd, e', he, hx⟩, k', hk', rfl, rfl, rfl⟩ := hp
  subst hx
  obtain ⟨i, hi⟩ := List.getElem?_of_mem he
  have hdef := (fo.elem _ (h.wf.types c hc)).defined d' (by omega) i (by
      rw [← h.wf.sub_length c hc d' (by omega)]; exact (List.getElem?_eq_some_iff.mp hi).1)
  obtain ⟨m, hm⟩ := Option.isSome_iff_exists.mp hdef
  have hml := fo.count c hc d' (by omega) i e' hi m hm
  obtain ⟨cd, ed, n', h1, h2, -, h3, h4⟩ := C02_conformity h.wf fo h.yields c hc d' i e' (by omega) hi m hm k'
    (m[k']'(by rw [hml]; exact hk')) (by simp [hml, hk'])
  have : ed = l := by rw [h2] at hl; exact Option.some.inj hl
  subst this
  have : n' = n := by rw [h4] at hk; exact Option.some.inj hk
  subst this
  exact ⟨c, hc, cd, _, h1, h3⟩

section
variable {sp sp' : FunctionSpace} {fam : CellType → ElementDofs} {num : Nat → Nat → Nat}

/-- Two places of the part have the same DOF exactly if their images have. -/
theorem Grid.PartIn.dofs_iff (h : sp.grid.PartIn sp'.grid num) (hs : SerialSpace sp fam) (hs' : SerialSpace sp' fam)
    {c1 c2 d1 d2 : Entity} (hc1 : c1 ∈ sp.grid.entityIter 2) (hc2 : c2 ∈ sp.grid.entityIter 2)
    (hd1 : d1 ∈ sp'.grid.entityIter 2) (hd2 : d2 ∈ sp'.grid.entityIter 2)
    (t1 : d1.entityType = c1.entityType) (t2 : d2.entityType = c2.entityType)
    (s1 : ∀ d, d ≤ 2 → d1.sub d = (c1.sub d).map (num d)) (s2 : ∀ d, d ≤ 2 → d2.sub d = (c2.sub d).map (num d))
    {l1 l2 l1' l2' : List Nat} (e1 : sp.cellDofs c1.localIndex = some l1) (e2 : sp.cellDofs c2.localIndex = some l2)
    (e1' : sp'.cellDofs d1.localIndex = some l1') (e2' : sp'.cellDofs d2.localIndex = some l2') {a b : Nat}
    (ha : a < l1.length) (hb : b < l2.length) : l1[a]? = l2[b]? ↔ l1'[a]? = l2'[b]? := by
  obtain ⟨nd, -, fo, -⟩ := hs.family
  obtain ⟨nd', -, fo', -⟩ := hs'.family
  have B := C01_numbering_bijection hs.wf fo hs.yields
  have B' := C01_numbering_bijection hs'.wf fo' hs'.yields
  obtain ⟨d, i, e, k, l, ed, x1, x2, x3, x4, x5, x6⟩ := cell_dof_origin hs.wf fo hs.yields c1 hc1 l1 e1 a l1[a] (by simp [ha])
  obtain ⟨d', i', e', k', l', ed', y1, y2, y3, y4, y5, y6⟩ :=
    cell_dof_origin hs.wf fo hs.yields c2 hc2 l2 e2 b l2[b] (by simp [hb])
  have z2 : (d1.sub d)[i]? = some (num d e) := by rw [s1 d x1, List.getElem?_map, x2]; rfl
  have w2 : (d2.sub d')[i']? = some (num d' e') := by rw [s2 d' y1, List.getElem?_map, y2]; rfl
  have z3 : (fam d1.entityType).entityDofs d i = some l := by rw [t1]; exact x3
  have w3 : (fam d2.entityType).entityDofs d' i' = some l' := by rw [t2]; exact y3
  constructor
  · intro heq
    rw [List.getElem?_eq_getElem ha, List.getElem?_eq_getElem hb, Option.some.injEq] at heq
    have hlt := B.2.2 _ _ _ x5 _ (List.mem_of_getElem? x6)
    have := (B.2.1 _ hlt).unique (y₁ := (d, e, k)) (y₂ := (d', e', k')) ⟨ed, x5, x6⟩ ⟨ed', y5, by rw [heq]; exact y6⟩
    simp only [Prod.mk.injEq] at this
    obtain ⟨rfl, rfl, rfl⟩ := this
    obtain ⟨-, q⟩ := C02_shared_entity hs'.wf fo' hs'.yields d1 d2 hd1 hd2 d i i' _ x1 z2 w2 l l' z3 w3
    obtain ⟨m1, m2, n, r1, r2, r3, r4⟩ := q k a b x4 y4
    rw [e1'] at r1
    rw [e2'] at r2
    cases r1
    cases r2
    rw [r3, r4]
  · intro heq
    obtain ⟨m1, f1, n, r1, r2, -, r3, r4⟩ := C02_conformity hs'.wf fo' hs'.yields d1 hd1 d i _ x1 z2 l z3 k a x4
    obtain ⟨m2, f2, n', u1, u2, -, u3, u4⟩ := C02_conformity hs'.wf fo' hs'.yields d2 hd2 d' i' _ y1 w2 l' w3 k' b y4
    rw [e1'] at r1
    rw [e2'] at u1
    cases r1
    cases u1
    have hn : n = n' := by rw [r3, u3] at heq; exact Option.some.inj heq
    subst hn
    have hlt := B'.2.2 _ _ _ r2 _ (List.mem_of_getElem? r4)
    have := (B'.2.1 _ hlt).unique (y₁ := (d, num d e, k)) (y₂ := (d', num d' e', k')) ⟨f1, r2, r4⟩ ⟨f2, u2, u4⟩
    simp only [Prod.mk.injEq] at this
    obtain ⟨rfl, hnum, rfl⟩ := this
    have := h.inj d x1 e e' (hs.wf.sub_lt c1 hc1 d x1 e (List.mem_of_getElem? x2))
      (hs.wf.sub_lt c2 hc2 d x1 e' (List.mem_of_getElem? y2)) hnum
    subst this
    obtain ⟨-, q⟩ := C02_shared_entity hs.wf fo hs.yields c1 c2 hc1 hc2 d i i' _ x1 x2 y2 l l' x3 y3
    obtain ⟨m1, m2, n, r1, r2, r3, r4⟩ := q k a b x4 y4
    rw [e1] at r1
    rw [e2] at r2
    cases r1
    cases r2
    rw [r3, r4]

/-- The DOFs of a space on a part of a grid are DOFs of the space on the grid. -/
theorem Grid.PartIn.dofs (h : sp.grid.PartIn sp'.grid num) (hs : SerialSpace sp fam) (hs' : SerialSpace sp' fam) :
    ∃ p, PartDofs sp sp' (num 2) p := by
  classical
  obtain ⟨nd, -, fo, -⟩ := hs.family
  obtain ⟨nd', -, fo', -⟩ := hs'.family
  have C := (C03_cell_dofs hs.wf fo hs.yields).2
  have C' := (C03_cell_dofs hs'.wf fo' hs'.yields).2
  let Q : Nat → Entity × List Nat × Nat → Prop := fun n x => x.1 ∈ sp.grid.entityIter 2 ∧
    sp.cellDofs x.1.localIndex = some x.2.1 ∧ x.2.1[x.2.2]? = some n
  let p : Nat → Nat := fun n => if hn : ∃ x, Q n x then
      ((sp'.cellDofs (num 2 hn.choose.1.localIndex)).getD [])[hn.choose.2.2]?.getD 0 else 0
  have hp : ∀ c ∈ sp.grid.entityIter 2, ∀ cd cd', sp.cellDofs c.localIndex = some cd →
      sp'.cellDofs (num 2 c.localIndex) = some cd' → ∀ (a n : Nat), cd[a]? = some n → cd'[a]? = some (p n) := by
    intro c hc cd cd' e1 e2 a n ha
    have hn : ∃ x, Q n x := ⟨(c, cd, a), hc, e1, ha⟩
    have q : p n = ((sp'.cellDofs (num 2 hn.choose.1.localIndex)).getD [])[hn.choose.2.2]?.getD 0 := dif_pos hn
    obtain ⟨z0, z1, z2⟩ := hn.choose_spec
    generalize hn.choose = x at q z0 z1 z2
    obtain ⟨c2, ce, b⟩ := x
    simp only at q z0 z1 z2
    obtain ⟨d1, u1, u2, u3, u4⟩ := h.cell c hc
    obtain ⟨d2, v1, v2, v3, v4⟩ := h.cell c2 z0
    obtain ⟨ce', w1, w2, -, -⟩ := C' d2 v1
    obtain ⟨cd2, x1, x2, -, -⟩ := C c2 z0
    rw [z1] at x1
    cases x1
    rw [← u2] at e2
    have hb := (List.getElem?_eq_some_iff.mp z2).1
    have key := (h.dofs_iff hs hs' hc z0 u1 v1 u3 v3 u4 v4 e1 z1 e2 w1 (List.getElem?_eq_some_iff.mp ha).1 hb).mp
      (by rw [ha, z2])
    rw [key, q, ← v2, w1]
    have : b < ce'.length := by rw [w2, v3, ← x2]; exact hb
    simp [this]
  refine ⟨p, ⟨?_, ?_, ?_⟩⟩
  · intro i hi
    obtain ⟨c, hc, cd, a, e1, e2⟩ := hs.dof_in_cell hi
    obtain ⟨d1, u1, u2, u3, u4⟩ := h.cell c hc
    obtain ⟨cd', w1, -, -, -⟩ := C' d1 u1
    have := hp c hc cd cd' e1 (by rw [← u2]; exact w1) a i e2
    exact hs'.dof_lt d1 u1 cd' w1 _ (List.mem_of_getElem? this)
  · intro i j hi hj hij
    obtain ⟨c, hc, cd, a, e1, e2⟩ := hs.dof_in_cell hi
    obtain ⟨d1, u1, u2, u3, u4⟩ := h.cell c hc
    obtain ⟨cd', w1, -, -, -⟩ := C' d1 u1
    obtain ⟨c2, hc2, ce, b, f1, f2⟩ := hs.dof_in_cell hj
    obtain ⟨d2, v1, v2, v3, v4⟩ := h.cell c2 hc2
    obtain ⟨ce', x1, -, -, -⟩ := C' d2 v1
    have k1 := hp c hc cd cd' e1 (by rw [← u2]; exact w1) a i e2
    have k2 := hp c2 hc2 ce ce' f1 (by rw [← v2]; exact x1) b j f2
    have := (h.dofs_iff hs hs' hc hc2 u1 v1 u3 v3 u4 v4 e1 f1 w1 x1 (List.getElem?_eq_some_iff.mp e2).1
      (List.getElem?_eq_some_iff.mp f2).1).mpr (by rw [k1, k2, hij])
    rw [e2, f2] at this
    exact Option.some.inj this
  · intro c hc
    obtain ⟨cd, e1, e2, -, -⟩ := C c hc
    obtain ⟨d1, u1, u2, u3, u4⟩ := h.cell c hc
    obtain ⟨cd', w1, w2, -, -⟩ := C' d1 u1
    rw [u2] at w1
    refine ⟨cd, e1, ?_⟩
    rw [w1, Option.some.injEq]
    apply List.ext_getElem?
    intro a
    rw [List.getElem?_map]
    by_cases ha : a < cd.length
    · rw [hp c hc cd cd' e1 w1 a cd[a] (by simp [ha]), List.getElem?_eq_getElem ha]
      rfl
    · rw [List.getElem?_eq_none (by rw [w2, u3, ← e2]; omega), List.getElem?_eq_none (by omega)]
      rfl

end

section
variable {g g' : Grid} {num : Nat → Nat → Nat} (h : g.PartIn g' num)

theorem Grid.PartIn.touches (h : g.PartIn g' num) (wf : g.WF) {c c' c0 c1 : Entity} (hc : c ∈ g.entityIter 2)
    (hc' : c' ∈ g.entityIter 2) (h0 : c0.sub 0 = (c.sub 0).map (num 0)) (h1 : c1.sub 0 = (c'.sub 0).map (num 0)) :
    c0.Touches c1 ↔ c.Touches c' := by
  unfold Entity.Touches
  rw [h0, h1]
  constructor
  · rintro ⟨v, hv, hv'⟩
    obtain ⟨u, hu, rfl⟩ := List.mem_map.mp hv
    obtain ⟨u', hu', he⟩ := List.mem_map.mp hv'
    rw [h.inj 0 (by omega) u' u (wf.sub_lt c' hc' 0 (by omega) u' hu') (wf.sub_lt c hc 0 (by omega) u hu) he] at hu'
    exact ⟨u, hu, hu'⟩
  · rintro ⟨v, hv, hv'⟩
    exact ⟨_, List.mem_map_of_mem hv, List.mem_map_of_mem hv'⟩

theorem Grid.PartIn.connectivity (h : g.PartIn g' num) (wf : g.WF) {c c' c0 c1 : Entity} (hc : c ∈ g.entityIter 2)
    (hc' : c' ∈ g.entityIter 2) (h0 : c0.sub 0 = (c.sub 0).map (num 0)) (h1 : c1.sub 0 = (c'.sub 0).map (num 0))
    (e0 : c0.localIndex = num 2 c.localIndex) (e1 : c1.localIndex = num 2 c'.localIndex) :
    Bempp.connectivity c0 c1 = Bempp.connectivity c c' := by
  have hs : Bempp.sharedVertices c0 c1 = Bempp.sharedVertices c c' := by
    unfold Bempp.sharedVertices
    rw [h0, h1, zipIdx_map_fst, zipIdx_map_fst, List.flatMap_map]
    refine List.flatMap_congr fun x hx => ?_
    rw [List.filter_map, List.map_map]
    have : ((c.sub 0).zipIdx.filter ((fun t => decide (t.1 = num 0 x.1)) ∘ fun y : Nat × Nat => (num 0 y.1, y.2))) =
        (c.sub 0).zipIdx.filter fun t => decide (t.1 = x.1) := by
      refine List.filter_congr fun y hy => ?_
      simp only [Function.comp, decide_eq_decide]
      exact ⟨fun he => h.inj 0 (by omega) _ _ (wf.sub_lt c hc 0 (by omega) y.1 (List.fst_mem_of_mem_zipIdx hy))
        (wf.sub_lt c' hc' 0 (by omega) x.1 (List.fst_mem_of_mem_zipIdx hx)) he, fun he => by rw [he]⟩
    rw [this]
    rfl
  unfold Bempp.connectivity
  rw [hs]
  have : (c0.localIndex = c1.localIndex) = (c.localIndex = c'.localIndex) := by
    rw [e0, e1]
    exact propext ⟨h.inj 2 (by omega) _ _ (wf.lt (by omega) hc) (wf.lt (by omega) hc'), fun he => by rw [he]⟩
  simp only [this]

/-- The cells of the part among those of the grid. -/
theorem Grid.PartIn.cells (h : g.PartIn g' num) (wf : g.WF) : ∃ φ : Entity → Entity, ((g.entityIter 2).map φ).Nodup ∧
      ∀ c ∈ g.entityIter 2, φ c ∈ g'.entityIter 2 ∧ (φ c).localIndex = num 2 c.localIndex ∧
        (φ c).entityType = c.entityType ∧ ∀ d, d ≤ 2 → (φ c).sub d = (c.sub d).map (num d) := by
  classical
  let φ : Entity → Entity := fun c => if hc : c ∈ g.entityIter 2 then (h.cell c hc).choose else c
  have hφ : ∀ c (hc : c ∈ g.entityIter 2), φ c = (h.cell c hc).choose := fun c hc => dif_pos hc
  have hspec : ∀ c ∈ g.entityIter 2, φ c ∈ g'.entityIter 2 ∧ (φ c).localIndex = num 2 c.localIndex ∧
        (φ c).entityType = c.entityType ∧ ∀ d, d ≤ 2 → (φ c).sub d = (c.sub d).map (num d) := by
    intro c hc
    rw [hφ c hc]
    exact (h.cell c hc).choose_spec
  refine ⟨φ, ?_, hspec⟩
  refine List.Nodup.map_on ?_ (wf.nodup (by omega))
  intro c hc c' hc' he
  refine wf.index_inj (by omega) hc hc' (h.inj 2 (by omega) _ _ (wf.lt (by omega) hc) (wf.lt (by omega) hc') ?_)
  rw [← (hspec c hc).2.1, ← (hspec c' hc').2.1, he]

end

/-- A sum over a list without repetitions whose terms vanish outside a sublist. -/
theorem sum_sub {α : Type} [AddCommMonoid T] {l m : List α} (hl : l.Nodup) (hm : m.Nodup) (hs : ∀ x ∈ m, x ∈ l)
    (f : α → T) (hf : ∀ x ∈ l, x ∉ m → f x = 0) : (l.map f).sum = (m.map f).sum := by
  classical
  have hp : (l.filter fun x => decide (x ∈ m)).Perm m := by
    refine (List.perm_ext_iff_of_nodup (hl.filter _) hm).mpr fun x => ?_
    simp only [List.mem_filter, decide_eq_true_eq]
    exact ⟨fun hx => hx.2, fun hx => ⟨hs x hx, hx⟩⟩
  rw [← (hp.map f).sum_eq]
  clear hp hs hl
  induction l with
  | nil => rfl
  | cons x l ih =>
    rw [List.map_cons, List.sum_cons, ih fun y hy => hf y (List.mem_cons_of_mem _ hy)]
    by_cases hx : x ∈ m
    · rw [List.filter_cons_of_pos (by simpa using hx), List.map_cons, List.sum_cons]
    · rw [List.filter_cons_of_neg (by simpa using hx), hf x List.mem_cons_self hx, zero_add]

theorem doubleSum_part [AddCommMonoid T] {test trial test' trial' : FunctionSpace}
    {φT φR : Entity → Entity} {numT numR : Nat → Nat} {pT pR : Nat → Nat}
    (hT : ((test.grid.entityIter 2).map φT).Nodup) (hR : ((trial.grid.entityIter 2).map φR).Nodup)
    (wT : test'.grid.WF) (wR : trial'.grid.WF)
    (nT : ∀ c ∈ test.grid.entityIter 2, φT c ∈ test'.grid.entityIter 2 ∧ (φT c).localIndex = numT c.localIndex)
    (nR : ∀ c ∈ trial.grid.entityIter 2, φR c ∈ trial'.grid.entityIter 2 ∧ (φR c).localIndex = numR c.localIndex)
    (dT : PartDofs test test' numT pT) (dR : PartDofs trial trial' numR pR)
    (lT : ∀ c ∈ test.grid.entityIter 2, ∀ cd, test.cellDofs c.localIndex = some cd → ∀ i ∈ cd, i < test.globalSize)
    (lR : ∀ c ∈ trial.grid.entityIter 2, ∀ cd, trial.cellDofs c.localIndex = some cd → ∀ i ∈ cd, i < trial.globalSize)
    {v v' : Entity → Entity → Nat → Nat → T}
    (hv : ∀ c ∈ test.grid.entityIter 2, ∀ c' ∈ trial.grid.entityIter 2, ∀ a b,
      v' (φT c) (φR c') a b = v c c' a b)
    {i j : Nat} (hi : i < test.globalSize) (hj : j < trial.globalSize)
    (iT : InsidePart test test' numT (pT i)) (iR : InsidePart trial trial' numR (pR j)) :
    doubleSum test' trial' v' (pT i) (pR j) = doubleSum test trial v i j := by
  unfold doubleSum
  rw [sum_sub (m := (test.grid.entityIter 2).map φT) (wT.nodup (by omega)) hT (fun x hx => by
      obtain ⟨c, hc, rfl⟩ := List.mem_map.mp hx
      exact (nT c hc).1), List.map_map]
  · congr 1
    apply List.map_congr_left
    intro c hc
    simp only [Function.comp]
    rw [sum_sub (m := (trial.grid.entityIter 2).map φR) (wR.nodup (by omega)) hR (fun x hx => by
        obtain ⟨c, hc, rfl⟩ := List.mem_map.mp hx
        exact (nR c hc).1), List.map_map]
    · congr 1
      apply List.map_congr_left
      intro c' hc'
      simp only [Function.comp]
      obtain ⟨cd, e1, e2⟩ := dT.cell c hc
      obtain ⟨cd', e3, e4⟩ := dR.cell c' hc'
      rw [(nT c hc).2, (nR c' hc').2, e1, e2, e3, e4]
      simp only [Option.getD_some]
      rw [zipIdx_map_fst, zipIdx_map_fst, List.map_map]
      congr 1
      apply List.map_congr_left
      intro x hx
      simp only [Function.comp]
      rw [List.map_map]
      congr 1
      apply List.map_congr_left
      intro y hy
      simp only [Function.comp]
      have hx' := lT c hc cd e1 _ (List.fst_mem_of_mem_zipIdx hx)
      have hy' := lR c' hc' cd' e3 _ (List.fst_mem_of_mem_zipIdx hy)
      have a1 : (pT x.1 = pT i) = (x.1 = i) := propext ⟨dT.inj _ _ hx' hi, fun e => by rw [e]⟩
      have a2 : (pR y.1 = pR j) = (y.1 = j) := propext ⟨dR.inj _ _ hy' hj, fun e => by rw [e]⟩
      simp only [a1, a2, hv c hc c' hc']
    · intro c' hc' hn
      apply List.sum_eq_zero
      simp only [List.mem_map, forall_exists_index, and_imp, forall_apply_eq_imp_iff₂]
      intro x _
      apply List.sum_eq_zero
      simp only [List.mem_map, forall_exists_index, and_imp, forall_apply_eq_imp_iff₂]
      intro y hy
      rw [if_neg]
      rintro ⟨-, h2⟩
      have hm := List.fst_mem_of_mem_zipIdx hy
      rw [h2] at hm
      cases hcd : trial'.cellDofs c'.localIndex with
      | none => simp [hcd] at hm
      | some cd =>
        obtain ⟨d, hd, e⟩ := iR c' hc' cd hcd (by simpa [hcd] using hm)
        exact hn (List.mem_map.mpr ⟨d, hd, wR.index_inj (by omega) (nR d hd).1 hc' (by rw [(nR d hd).2, e])⟩)
  · intro c' hc' hn
    apply List.sum_eq_zero
    simp only [List.mem_map, forall_exists_index, and_imp, forall_apply_eq_imp_iff₂]
    intro c'' _
    apply List.sum_eq_zero
    simp only [List.mem_map, forall_exists_index, and_imp, forall_apply_eq_imp_iff₂]
    intro x hx
    apply List.sum_eq_zero
    simp only [List.mem_map, forall_exists_index, and_imp, forall_apply_eq_imp_iff₂]
    intro y hy
    rw [if_neg]
    rintro ⟨h2, -⟩
    have hm := List.fst_mem_of_mem_zipIdx hx
    rw [h2] at hm
    cases hcd : test'.cellDofs c'.localIndex with
    | none => simp [hcd] at hm
    | some cd =>
      obtain ⟨d, hd, e⟩ := iT c' hc' cd hcd (by simpa [hcd] using hm)
      exact hn (List.mem_map.mpr ⟨d, hd, wT.index_inj (by omega) (nT d hd).1 hc' (by rw [(nT d hd).2, e])⟩)

end Bempp
