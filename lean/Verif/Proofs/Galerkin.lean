import Verif.Proofs.Dense
/-
The entries of the assembled matrix as sums over pairs of cells.
-/
set_option linter.unusedSectionVars false

namespace Bempp

variable {R T : Type}

/-! ### Grouping by key -/

theorem perm_by_keys {κ α β : Type} [DecidableEq κ] (key : α → κ) (l : List α) (ks : List κ) (hn : ks.Nodup)
    (hk : ∀ x ∈ l, key x ∈ ks) (f : α → List β) :
    (ks.flatMap fun k => (l.filter fun x => key x = k).flatMap f).Perm (l.flatMap f) := by
  induction l with
  | nil => simp
  | cons x l ih =>
    have ih' := ih fun y hy => hk y (by simp [hy])
    have hx := hk x (by simp)
    rw [List.flatMap_cons]
    refine List.Perm.trans ?_ (ih'.append_left (f x))
    clear ih ih' hk
    induction ks with
    | nil => simp at hx
    | cons k ks ihk =>
      rw [List.flatMap_cons, List.flatMap_cons]
      by_cases hxk : key x = k
      · subst hxk
        rw [List.filter_cons_of_pos (by simp), List.flatMap_cons, List.append_assoc]
        refine ((List.Perm.of_eq ?_).append_left _).append_left _
        apply flatMap_congr_mem
        intro k' hk'
        rw [List.filter_cons_of_neg]
        simp only [decide_eq_true_eq]
        rintro rfl
        exact (List.nodup_cons.mp hn).1 hk'
      · rw [List.filter_cons_of_neg (by simpa using hxk)]
        have := ihk (List.nodup_cons.mp hn).2 (by
          rcases List.mem_cons.mp hx with h | h
          · exact absurd h hxk
          · exact h)
        refine (this.append_left _).trans ?_
        rw [← List.append_assoc, ← List.append_assoc]
        exact List.perm_append_comm.append_right _

/-! ### The singular triplets -/

section
variable [Zero R] [Mul R] [Zero T] [Add T] [Mul T]
  {env : Env R T} {asm : Assembler R T} {trial test : Space R T}
  {famT famR : CellType → ElementDofs} {F : MathIntegrand T} {K : MathKernel R T} {GT GR G : Geometry R}
  {BT BR : Basis R T} {Q : Quadrature R} {t : CellType}

/-- The triplets that belong to a pair of touching cells. -/
def cellTriplets (cast : R → T) (F : MathIntegrand T) (K : MathKernel R T) (G : Geometry R)
    (BT BR : Basis R T) (Q : Quadrature R) (famT famR : CellType → ElementDofs)
    (trial test : FunctionSpace) (p : Entity × Entity) : List ((Nat × Nat) × T) :=
  localTriplets test trial (test.dofs p.1.localIndex) (trial.dofs p.2.localIndex)
    ((List.range (famR p.2.entityType).dim).map fun b => (List.range (famT p.1.entityType).dim).map fun a =>
      singularValue cast F K G G BT BR Q p.1.entityType p.2.entityType (connectivity p.1 p.2)
        p.1.localIndex p.2.localIndex a b)

theorem found_key {g : Grid} (wf : g.WF) (vs : g.Vertices) {ev : Nat → Nat × Nat} (ed : g.Edges ev)
    (co : g.Conforming ev) : ∀ x ∈ foundPairs g, x.1 ∈ allKeys g := by
  intro x hx
  rw [(foundPairs_perm wf vs).mem_iff] at hx
  obtain ⟨p, hp, rfl⟩ := List.mem_map.mp hx
  obtain ⟨h1, h2, _, h3⟩ := mem_adjacentPairs.mp hp
  exact mem_allKeys.mpr ⟨wf.types _ h1, wf.types _ h2, (sharedVertices_possible wf ed co h1 h2 h3).1⟩

theorem SingularSetting.triplets_perm (h : SingularSetting env asm trial test famT famR F K G BT BR Q) :
    (singularTriplets env.cast F K G BT BR Q famT famR trial.fs test.fs).Perm
      ((adjacentPairs test.fs.grid).flatMap
        (cellTriplets env.cast F K G BT BR Q famT famR trial.fs test.fs)) := by
  have wf := h.testSpace.wf
  obtain ⟨ev, ed, co⟩ := h.conforming
  have h1 := perm_by_keys (fun e : RuleKey × Nat × Nat => e.1) (foundPairs test.fs.grid)
    (allKeys test.fs.grid) h.keys_nodup (found_key wf h.vertices ed co)
    (fun e => pairTriplets env.cast F K G BT BR Q famT famR trial.fs test.fs e.1 e.2)
  have h2 : singularTriplets env.cast F K G BT BR Q famT famR trial.fs test.fs =
      (allKeys test.fs.grid).flatMap fun k => ((foundPairs test.fs.grid).filter fun x => x.1 = k).flatMap
        fun e => pairTriplets env.cast F K G BT BR Q famT famR trial.fs test.fs e.1 e.2 := by
    unfold singularTriplets
    congr 1
    funext k
    rw [List.flatMap_map]
    apply flatMap_congr_mem
    intro e he
    have := (List.mem_filter.mp he).2
    simp only [decide_eq_true_eq] at this
    rw [this]
  rw [h2]
  refine h1.trans (((foundPairs_perm wf h.vertices).flatMap_right _).trans (List.Perm.of_eq ?_))
  rw [List.flatMap_map]
  apply flatMap_congr_mem
  intro p hp
  obtain ⟨p1, p2, _, p3⟩ := mem_adjacentPairs.mp hp
  have := (sharedVertices_possible wf ed co p1 p2 p3).2
  unfold pairTriplets cellTriplets keyOf
  rw [this]

end

theorem neighbours_cells {test trial : Grid} (wf : trial.WF)
    (hg : test.addr = trial.addr → trial = test) {c c' : Entity} (hc : c ∈ test.entityIter 2)
    (hc' : c' ∈ trial.entityIter 2) :
    neighbours test trial c.localIndex c'.localIndex =
      some (decide (test.addr = trial.addr ∧ c.Touches c')) := by
  unfold neighbours
  by_cases ha : test.addr = trial.addr
  · rw [if_neg (by simp [equalGrids, ha])]
    have e := hg ha
    rw [wf.entity 2 (by omega) c (by rw [e]; exact hc), wf.entity 2 (by omega) c' hc']
    simp only [Option.bind_eq_bind, Option.bind_some, Option.some.injEq]
    rw [Bool.eq_iff_iff]
    simp only [List.any_eq_true, List.contains_iff_mem, decide_eq_true_eq, ha, true_and, Entity.Touches]
    constructor
    · rintro ⟨v, h1, h2⟩; exact ⟨v, h2, h1⟩
    · rintro ⟨v, h1, h2⟩; exact ⟨v, h2, h1⟩
  · rw [if_pos (by simp [equalGrids, ha])]
    simp [ha]

/-! ### Sums -/

section
variable [AddCommMonoid T]

theorem sum_swap {α β : Type} (l : List α) (m : List β) (f : α → β → T) :
    (l.map fun a => (m.map fun b => f a b).sum).sum = (m.map fun b => (l.map fun a => f a b).sum).sum := by
  induction l with
  | nil => simp
  | cons a l ih => simp [ih, List.sum_map_add]

/-- What a list of additions adds to position `a`. -/
def contrib (ops : List (AddOp T)) (a : Nat) : T := (ops.map fun o => if o.addr = a then o.val else 0).sum

theorem contrib_append (l l' : List (AddOp T)) (a : Nat) : contrib (l ++ l') a = contrib l a + contrib l' a := by
  simp [contrib]

theorem contrib_flatMap {α : Type} (l : List α) (f : α → List (AddOp T)) (a : Nat) :
    contrib (l.flatMap f) a = (l.map fun x => contrib (f x) a).sum := by
  induction l with
  | nil => simp [contrib]
  | cons x l ih => rw [List.flatMap_cons, contrib_append, ih]; simp

theorem contrib_perm {l l' : List (AddOp T)} (h : l.Perm l') (a : Nat) : contrib l a = contrib l' a :=
  (h.map _).sum_eq

theorem applyOps_get (ops : List (AddOp T)) (mem : List T) (a : Nat) :
    (applyOps ops mem)[a]? = (mem[a]?).map fun x => x + contrib ops a := by
  induction ops generalizing mem with
  | nil => simp [applyOps, contrib]
  | cons o ops ih =>
    unfold applyOps at ih ⊢
    rw [List.foldl_cons, ih, AddOp.apply_get]
    have e : contrib (o :: ops) a = (if o.addr = a then o.val else 0) + contrib ops a := by simp [contrib]
    rw [e]
    by_cases h : a = o.addr
    · rw [if_pos h, if_pos h.symm, Option.map_map]
      congr 1
      funext x
      simp only [Function.comp, add_assoc]
    · rw [if_neg h, if_neg (fun h' => h h'.symm), zero_add]

/-- What a list of additions adds to position `a`, measured by `φ`. -/
def contribTo {S : Type} (φ : S → T) (ops : List (AddOp S)) (a : Nat) : T :=
  (ops.map fun o => if o.addr = a then φ o.val else 0).sum

theorem contribTo_append {S : Type} (φ : S → T) (l l' : List (AddOp S)) (a : Nat) :
    contribTo φ (l ++ l') a = contribTo φ l a + contribTo φ l' a := by
  simp [contribTo]

theorem contribTo_flatMap {S α : Type} (φ : S → T) (l : List α) (f : α → List (AddOp S)) (a : Nat) :
    contribTo φ (l.flatMap f) a = (l.map fun x => contribTo φ (f x) a).sum := by
  induction l with
  | nil => simp [contribTo]
  | cons x l ih => rw [List.flatMap_cons, contribTo_append, ih]; simp

theorem contribTo_perm {S : Type} (φ : S → T) {l l' : List (AddOp S)} (h : l.Perm l') (a : Nat) :
    contribTo φ l a = contribTo φ l' a :=
  (h.map _).sum_eq

theorem zip_range_map {α β : Type} (l : List α) (h : Nat → β) (k : Nat) :
    l.zip ((List.range' k l.length).map h) = (l.zipIdx k).map fun x => (x.1, h x.2) := by
  induction l generalizing k with
  | nil => rfl
  | cons a l ih => simp [List.range'_succ, ih]

theorem zip_range_map0 {α β : Type} (l : List α) (h : Nat → β) :
    l.zip ((List.range l.length).map h) = l.zipIdx.map fun x => (x.1, h x.2) := by
  rw [List.range_eq_range', zip_range_map]

theorem contribTo_local {S : Type} (φ : S → T) (n m : Nat) (td rd : List Nat) (v : Nat → Nat → S) {i : Nat} (hi : i < n)
    (ht : ∀ x ∈ td, x < n) (j : Nat) :
    contribTo φ (localOps (n, m) td rd ((List.range rd.length).map fun b => (List.range td.length).map fun a =>
      v a b)) (i + n * j) =
    (td.zipIdx.map fun ia => (rd.zipIdx.map fun jb =>
      if ia.1 = i ∧ jb.1 = j then φ (v ia.2 jb.2) else 0).sum).sum := by
  unfold localOps
  rw [zip_range_map0, List.flatMap_map, contribTo_flatMap, sum_swap]
  congr 1
  apply List.map_congr_left
  intro jb _
  simp only
  rw [zip_range_map0, List.map_map]
  unfold contribTo
  rw [List.map_map]
  congr 1
  apply List.map_congr_left
  intro ia hia
  simp only [Function.comp]
  have hx : ia.1 < n := ht _ (List.fst_mem_of_mem_zipIdx hia)
  have : ia.1 + n * jb.1 = i + n * j ↔ ia.1 = i ∧ jb.1 = j := by
    constructor
    · intro e
      have h1 : ia.1 = i := by
        have := congrArg (· % n) e
        simpa [Nat.add_mul_mod_self_left, Nat.mod_eq_of_lt hx, Nat.mod_eq_of_lt hi] using this
      refine ⟨h1, ?_⟩
      rw [h1] at e
      exact Nat.eq_of_mul_eq_mul_left (by omega) (Nat.add_left_cancel e)
    · rintro ⟨rfl, rfl⟩; rfl
  simp only [this]

theorem sum_filter {α : Type} (l : List α) (p : α → Bool) (f : α → T) :
    ((l.filter p).map f).sum = (l.map fun x => if p x then f x else 0).sum := by
  induction l with
  | nil => rfl
  | cons x l ih =>
    by_cases h : p x
    · simp [List.filter_cons_of_pos h, ih, h]
    · simp [List.filter_cons_of_neg h, ih, h]

/-- The contribution of one pair of cells. -/
def pairSum (test trial : FunctionSpace) (value : Entity → Entity → Nat → Nat → T) (i j : Nat)
    (c c' : Entity) : T :=
  ((test.dofs c.localIndex).zipIdx.map fun (ia : Nat × Nat) =>
    ((trial.dofs c'.localIndex).zipIdx.map fun (jb : Nat × Nat) =>
      if ia.1 = i ∧ jb.1 = j then value c c' ia.2 jb.2 else 0).sum).sum

theorem doubleSum_eq (test trial : FunctionSpace) (value : Entity → Entity → Nat → Nat → T) (i j : Nat) :
    doubleSum test trial value i j = ((test.grid.entityIter 2).map fun c =>
      ((trial.grid.entityIter 2).map fun c' => pairSum test trial value i j c c').sum).sum := by
  unfold doubleSum pairSum FunctionSpace.dofs FunctionSpace.cellDofsUnchecked
  simp only [cellDofs_eq]


section
variable {S : Type} [Zero R] [Mul R] [Zero S] [Add S] [Mul S]
  {env : Env R S} {asm : Assembler R S} {trial test : Space R S}
  {famT famR : CellType → ElementDofs} {F : MathIntegrand S} {K : MathKernel R S} {GT GR G : Geometry R}
  {BT BR : Basis R S} {Q : Quadrature R} {t : CellType}

/-- The additions that are made to entry `(i, j)`, for every arithmetic. -/
theorem DenseSetting.contribTo_eq (φ : S → T) (h : DenseSetting env asm trial test famT famR F K GT GR BT BR Q t)
    {tcs rcs : List (List Nat)}
    (ht : tcs.flatten.Perm ((test.fs.grid.entityIter 2).map Entity.localIndex))
    (hr : rcs.flatten.Perm ((trial.fs.grid.entityIter 2).map Entity.localIndex))
    {i : Nat} (hi : i < test.fs.globalSize) (j : Nat) :
    contribTo φ (regularOps env.cast F K GT GR BT BR Q t (famT t).dim (famR t).dim trial.fs test.fs tcs rcs ++
      singularOps env.cast F K GT BT BR Q famT famR trial.fs test.fs) (i + test.fs.globalSize * j) =
    doubleSum test.fs trial.fs (fun c c' a b => φ (cellPairValue env.cast F K GT GR BT BR Q test.fs trial.fs c c' a b)) i j := by
  have hsame : test.fs.grid.addr = trial.fs.grid.addr → trial.fs.grid = test.fs.grid :=
    fun ha => (h.same ha).1.sameGrid
  have htt : ∀ c ∈ test.fs.grid.entityIter 2, c.entityType = t := by
    intro c hc
    have := h.testSpace.wf.types c hc
    rw [h.testType] at this
    simpa using this
  have hrt : ∀ c ∈ trial.fs.grid.entityIter 2, c.entityType = t := by
    intro c hc
    have := h.trialSpace.wf.types c hc
    rw [h.trialType] at this
    simpa using this
  have hreg : contribTo φ (regularOps env.cast F K GT GR BT BR Q t (famT t).dim (famR t).dim trial.fs test.fs
      tcs rcs) (i + test.fs.globalSize * j) =
      ((test.fs.grid.entityIter 2).map fun c => ((trial.fs.grid.entityIter 2).map fun c' =>
        if test.fs.grid.addr = trial.fs.grid.addr ∧ c.Touches c' then 0 else
          pairSum test.fs trial.fs (fun c c' a b => φ (cellPairValue env.cast F K GT GR BT BR Q test.fs trial.fs c c' a b)) i j c c').sum
      ).sum := by
    generalize hO : pairOps env.cast F K GT GR BT BR Q t (famT t).dim (famR t).dim trial.fs test.fs = O
    have hp : (regularOps env.cast F K GT GR BT BR Q t (famT t).dim (famR t).dim trial.fs test.fs tcs
        rcs).Perm ((test.fs.grid.entityIter 2).flatMap fun c => (trial.fs.grid.entityIter 2).flatMap
          fun c' => O c.localIndex c'.localIndex) := by
      unfold regularOps
      rw [hO]
      have h1 : (tcs.flatMap fun testC => rcs.flatMap fun trialC => testC.flatMap fun tc =>
          trialC.flatMap fun rc => O tc rc).Perm (tcs.flatten.flatMap fun tc => rcs.flatten.flatMap
            fun rc => O tc rc) := by
        rw [flatten_flatMap]
        apply flatMap_perm_congr
        intro testC _
        refine (flatMap_swap _ _ _).trans (List.Perm.of_eq ?_)
        congr 1
        funext tc
        rw [flatten_flatMap]
      refine h1.trans ((ht.flatMap_right _).trans ?_)
      rw [List.flatMap_map]
      apply flatMap_perm_congr
      intro c _
      refine (hr.flatMap_right _).trans (List.Perm.of_eq ?_)
      rw [List.flatMap_map]
    rw [contribTo_perm φ hp, contribTo_flatMap]
    congr 1
    apply List.map_congr_left
    intro c hc
    rw [contribTo_flatMap]
    congr 1
    apply List.map_congr_left
    intro c' hc'
    rw [← hO]
    unfold pairOps
    rw [neighbours_cells h.trialSpace.wf hsame hc hc']
    by_cases hn : test.fs.grid.addr = trial.fs.grid.addr ∧ c.Touches c'
    · rw [if_pos hn, if_pos (by simp [hn])]
      rfl
    · rw [if_neg hn, if_neg (by simp [hn])]
      obtain ⟨td, _, t2, t3, _, t4⟩ := h.testSpace.cell hc
      obtain ⟨rd, _, r2, r3, _, _⟩ := h.trialSpace.cell hc'
      rw [htt c hc] at t3
      rw [hrt c' hc'] at r3
      unfold pairSum cellPairValue
      rw [t2, r2, ← t3, ← r3]
      simp only [if_neg hn, htt c hc, hrt c' hc']
      exact contribTo_local φ _ _ td rd _ hi t4 j
  have hsing : contribTo φ (singularOps env.cast F K GT BT BR Q famT famR trial.fs test.fs)
        (i + test.fs.globalSize * j) =
      ((test.fs.grid.entityIter 2).map fun c => ((trial.fs.grid.entityIter 2).map fun c' =>
        if test.fs.grid.addr = trial.fs.grid.addr ∧ c.Touches c' then
          pairSum test.fs trial.fs (fun c c' a b => φ (cellPairValue env.cast F K GT GR BT BR Q test.fs trial.fs c c' a b)) i j c c'
        else 0).sum).sum := by
    unfold singularOps
    by_cases ha : test.fs.grid.addr = trial.fs.grid.addr
    · rw [if_pos ha]
      obtain ⟨hs, hG⟩ := h.same ha
      have hg := hs.sameGrid
      have hp := hs.triplets_perm.map fun x =>
        (⟨x.1.1 + test.fs.globalSize * x.1.2, x.2⟩ : AddOp S)
      rw [show tripletOps test.fs.globalSize (singularTriplets env.cast F K GT BT BR Q famT famR trial.fs
        test.fs) = _ from rfl, tripletOps, contribTo_perm φ hp, List.map_flatMap, contribTo_flatMap]
      have hfil : ((test.fs.grid.entityIter 2).filter fun c => decide (c.ownership = .owned)) =
          test.fs.grid.entityIter 2 := by
        rw [List.filter_eq_self]
        intro c hc
        simpa using h.testSpace.owned 2 (by omega) c hc
      unfold adjacentPairs
      rw [hfil, List.map_flatMap]
      have hsum : ∀ (l : List Entity) (f : Entity → List T), (l.flatMap f).sum =
          (l.map fun c => (f c).sum).sum := by
        intro l f
        induction l with
        | nil => rfl
        | cons x l ih => simp [List.flatMap_cons, ih]
      rw [hsum]
      congr 1
      apply List.map_congr_left
      intro c hc
      rw [List.map_map, sum_filter, hg]
      congr 1
      apply List.map_congr_left
      intro c' hc'
      have hiff : ((c.sub 0).any fun v => (c'.sub 0).contains v) = true ↔
          (test.fs.grid.addr = test.fs.grid.addr ∧ c.Touches c') := by
        simp [Entity.Touches]
      by_cases hn : test.fs.grid.addr = test.fs.grid.addr ∧ c.Touches c'
      · rw [if_pos (hiff.mpr hn), if_pos hn]
        simp only [Function.comp]
        have hc'' : c' ∈ trial.fs.grid.entityIter 2 := by rw [hg]; exact hc'
        obtain ⟨td, _, t2, t3, _, t4⟩ := h.testSpace.cell hc
        obtain ⟨rd, _, r2, r3, _, r4⟩ := h.trialSpace.cell hc''
        have g1 := fun n hn => (h.testSpace.gdof hc n hn).1
        have g2 := fun n hn => (h.trialSpace.gdof hc'' n hn).1
        rw [show (cellTriplets env.cast F K GT BT BR Q famT famR trial.fs test.fs (c, c')).map (fun x =>
            (⟨x.1.1 + test.fs.globalSize * x.1.2, x.2⟩ : AddOp S)) =
            tripletOps (test.fs.globalSize, trial.fs.globalSize).1 (cellTriplets env.cast F K GT BT BR Q famT
              famR trial.fs test.fs (c, c')) from rfl]
        unfold cellTriplets
        rw [localTriplets_ops _ g1 g2]
        unfold pairSum cellPairValue
        have hn' : test.fs.grid.addr = trial.fs.grid.addr ∧ c.Touches c' := ⟨ha, hn.2⟩
        simp only [if_pos hn', t2, r2, ← t3, ← r3, hG]
        exact contribTo_local φ _ _ td rd _ hi t4 j
      · rw [if_neg (fun h => hn (hiff.mp h)), if_neg hn]
    · rw [if_neg ha]
      simp [ha, contribTo]
  rw [contribTo_append, hreg, hsing, doubleSum_eq, ← List.sum_map_add]
  congr 1
  apply List.map_congr_left
  intro c _
  rw [← List.sum_map_add]
  congr 1
  apply List.map_congr_left
  intro c' _
  by_cases hn : test.fs.grid.addr = trial.fs.grid.addr ∧ c.Touches c'
  · rw [if_pos hn, if_pos hn, zero_add]
  · rw [if_neg hn, if_neg hn, add_zero]

end

variable [Zero R] [Mul R] [Mul T]
  {env : Env R T} {asm : Assembler R T} {trial test : Space R T}
  {famT famR : CellType → ElementDofs} {F : MathIntegrand T} {K : MathKernel R T} {GT GR G : Geometry R}
  {BT BR : Basis R T} {Q : Quadrature R} {t : CellType}

theorem DenseSetting.contrib_eq (h : DenseSetting env asm trial test famT famR F K GT GR BT BR Q t)
    {tcs rcs : List (List Nat)}
    (ht : tcs.flatten.Perm ((test.fs.grid.entityIter 2).map Entity.localIndex))
    (hr : rcs.flatten.Perm ((trial.fs.grid.entityIter 2).map Entity.localIndex))
    {i : Nat} (hi : i < test.fs.globalSize) (j : Nat) :
    contrib (regularOps env.cast F K GT GR BT BR Q t (famT t).dim (famR t).dim trial.fs test.fs tcs rcs ++
      singularOps env.cast F K GT BT BR Q famT famR trial.fs test.fs) (i + test.fs.globalSize * j) =
    doubleSum test.fs trial.fs (cellPairValue env.cast F K GT GR BT BR Q test.fs trial.fs) i j :=
  h.contribTo_eq id ht hr hi j

end
end Bempp
