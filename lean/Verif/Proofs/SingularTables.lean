import Verif.Proofs.Regular
/-
The rules and tables of the singular part.
-/
set_option linter.unusedSectionVars false

namespace Bempp

variable {R T : Type}

/-! ### Global numbers exist for all local DOFs -/

theorem numberOwned_length {rank size n off : Nat} {od : List (Nat × Nat × Nat × Nat)}
    {st : FunctionSpace.NumState} (h : FunctionSpace.numberOwned rank size n od off = some st) :
    st.globalDofNumbers.length = n := by
  unfold FunctionSpace.numberOwned at h
  refine foldlM_inv_of_eq _ (fun _ s => s.globalDofNumbers.length = n) _ _ _ h (by simp) ?_
  intro pre x post s s' _ hs hstep
  unfold FunctionSpace.numStep at hstep
  simp only at hstep
  split at hstep
  · split at hstep
    · cases hstep; simpa using hs
    · cases hstep
  · simp only [Option.bind_eq_bind, Option.bind_eq_some_iff] at hstep
    obtain ⟨l, _, e⟩ := hstep
    cases e
    exact hs

theorem yields_foldlM {α β : Type} (f : α → β → Prog α) (P : α → Prop) (l : List β) (a b : α)
    (h : (l.foldlM f a).Yields b) (ha : P a) (hf : ∀ x ∈ l, ∀ a b, P a → (f a x).Yields b → P b) : P b := by
  induction l generalizing a with
  | nil => cases h; exact ha
  | cons x l ih =>
    rw [List.foldlM_cons] at h
    obtain ⟨c, h1, h2⟩ := yields_bind h
    exact ih c h2 (hf x (by simp) a c ha h1) fun y hy => hf y (by simp [hy])

/-- Every local DOF of a space has a global number. -/
theorem globalDofNumbers_length {rank size : Nat} {g : Grid} {fam : CellType → ElementDofs}
    {sp : FunctionSpace} (h : (FunctionSpace.new rank size g fam).Yields sp) :
    sp.globalDofNumbers.length = sp.localSize := by
  unfold FunctionSpace.new at h
  obtain ⟨dm, h1, h⟩ := yields_bind h
  obtain ⟨off, _, h⟩ := yields_bind h
  obtain ⟨st, h3, h⟩ := yields_bind h
  obtain ⟨_, _, h⟩ := yields_bind h
  obtain ⟨gs, _, h⟩ := yields_bind h
  obtain ⟨_, _, h⟩ := yields_bind h
  obtain ⟨_, _, h⟩ := yields_bind h
  obtain ⟨fin, h8, h⟩ := yields_bind h
  cases h
  have h3 := yields_lift h3
  simp only
  unfold FunctionSpace.receiveGhosts at h8
  refine yields_foldlM _ (fun a => a.1.length = dm.size) _ _ _ h8 (numberOwned_length h3) ?_
  intro p _ a b ha hb
  obtain ⟨_, _, hb⟩ := yields_bind hb
  obtain ⟨_, _, hb⟩ := yields_bind hb
  obtain ⟨gh, _, hb⟩ := yields_bind hb
  have hb := yields_lift hb
  refine foldlM_inv_of_eq _ (fun _ s => s.1.length = dm.size) _ _ _ hb ha ?_
  intro pre x post s s' _ hs hstep
  unfold FunctionSpace.ghostStep at hstep
  split at hstep
  · cases hstep; simpa using hs
  · cases hstep

/-- The global number of a local DOF. -/
def FunctionSpace.gdof (sp : FunctionSpace) (i : Nat) : Nat := (sp.globalDofIndex i).getD 0

section
variable {sp : FunctionSpace} {fam : CellType → ElementDofs}

theorem SerialSpace.spaceOn (h : SerialSpace sp fam) : SpaceOn sp fam :=
  ⟨h.wf, h.family, 0, 1, h.yields⟩

theorem SpaceOn.cell (h : SpaceOn sp fam) {c : Entity} (hc : c ∈ sp.grid.entityIter 2) :
    ∃ cd, sp.cellDofsUnchecked c.localIndex = some cd ∧ sp.dofs c.localIndex = cd ∧
      cd.length = (fam c.entityType).dim ∧ cd.Nodup ∧
      ∀ n ∈ cd, sp.globalDofIndex n = some (sp.gdof n) := by
  obtain ⟨nd, t0, fo, _⟩ := h.family
  obtain ⟨rank, size, hy⟩ := h.made
  obtain ⟨_, h2⟩ := C03_cell_dofs h.wf fo hy
  obtain ⟨cd, h3, h4, h5, h6⟩ := h2 c hc
  rw [cellDofs_eq] at h3
  refine ⟨cd, h3, by simp [FunctionSpace.dofs, FunctionSpace.cellDofsUnchecked, h3], h4, h5, ?_⟩
  intro n hn
  have := h6 n hn
  rw [← globalDofNumbers_length hy] at this
  simp [FunctionSpace.gdof, FunctionSpace.globalDofIndex, this]

theorem SpaceOn.element (h : SpaceOn sp fam) (t : CellType) (ht : t ∈ sp.grid.entityTypes 2) :
    sp.element t = some (fam t) := by
  obtain ⟨rank, size, hy⟩ := h.made
  obtain ⟨dm, _, _, _, _, _, _, hel⟩ := new_local hy
  unfold FunctionSpace.element
  rw [hel, h.wf.tdim, lookup_map_self, if_pos ht]

end

/-! ### Rules -/

/-- The connectivity that belongs to a list of local vertex pairs. -/
def conOf (pairs : List (Nat × Nat)) : Connectivity :=
  { connectivityDimension := match pairs.length with
      | 1 => 0
      | 2 => 1
      | _ => 2
    localIndices := pairs }

theorem possiblePairs_possible {tt rt : CellType} (ht : tt = .triangle ∨ tt = .quadrilateral)
    {pairs : List (Nat × Nat)} (h : pairs ∈ possiblePairs tt rt) :
    pairs ≠ [] ∧ (conOf pairs).Possible tt rt := by
  unfold possiblePairs at h
  rw [List.mem_append, List.mem_append] at h
  rcases h with (h | h) | h
  · simp only [List.mem_flatMap, List.mem_map, List.mem_range] at h
    obtain ⟨i, hi, j, hj, rfl⟩ := h
    exact ⟨by simp, .vertex hi hj⟩
  · simp only [List.mem_flatMap, List.mem_cons, List.not_mem_nil, or_false] at h
    obtain ⟨te, hte, re, hre, rfl | rfl⟩ := h
    · exact ⟨by simp, .edge (Or.inl hte) hre⟩
    · exact ⟨by simp, .edge (Or.inr hte) hre⟩
  · split at h
    · rename_i e
      rw [List.mem_singleton] at h
      subst h e
      rcases ht with rfl | rfl
      · exact ⟨by simp [refCount], Connectivity.Possible.same (tt := .triangle) rfl⟩
      · exact ⟨by simp [refCount], Connectivity.Possible.same (tt := .quadrilateral) rfl⟩
    · simp at h

theorem singularRule_eq (env : Env R T) {tt rt : CellType} (ht : tt = .triangle ∨ tt = .quadrilateral)
    (hr : rt = .triangle ∨ rt = .quadrilateral) {pairs : List (Nat × Nat)} (hp : pairs ≠ []) (n : Nat) :
    getSingularQuadratureRule env tt rt pairs n = env.duffy tt rt (conOf pairs) n := by
  unfold getSingularQuadratureRule
  rw [if_neg (by simpa using hp)]
  rcases ht with rfl | rfl <;> rcases hr with rfl | rfl <;> rfl

/-- Key of a singular rule: cell types and local vertex pairs. -/
abbrev RuleKey : Type := CellType × CellType × List (Nat × Nat)

/-- Nodes of the rule of a key. -/
def RuleKey.nodes (Q : Quadrature R) (k : RuleKey) : List (List R × List R × R) :=
  Q.singular k.1 k.2.1 (conOf k.2.2)

/-- The rule of a key. -/
def singRuleOf (asm : Assembler R T) (famT famR : CellType → ElementDofs) (BT BR : Basis R T)
    (Q : Quadrature R) (k : RuleKey) : SingRule R T :=
  { testType := k.1
    trialType := k.2.1
    testPoints := (k.nodes Q).map fun p => p.1
    trialPoints := (k.nodes Q).map fun p => p.2.1
    testTable := BT.table k.1 (famT k.1).dim (numDerivs asm.tableDerivs) ((k.nodes Q).map fun p => p.1)
    trialTable := BR.table k.2.1 (famR k.2.1).dim (numDerivs asm.tableDerivs)
      ((k.nodes Q).map fun p => p.2.1)
    weights := (k.nodes Q).map fun p => p.2.2 }

/-- The keys of a pair of cell types. -/
def keysOf (p : CellType × CellType) : List RuleKey := (possiblePairs p.1 p.2).map fun x => (p.1, p.2, x)

/-- All keys. -/
def allKeys (g : Grid) : List RuleKey :=
  ((g.entityTypes 2).flatMap fun tt => (g.entityTypes 2).map fun rt => (tt, rt)).flatMap keysOf

theorem possiblePairs_nodup {tt rt : CellType} (ht : tt = .triangle ∨ tt = .quadrilateral)
    (hr : rt = .triangle ∨ rt = .quadrilateral) : (possiblePairs tt rt).Nodup := by
  rcases ht with rfl | rfl <;> rcases hr with rfl | rfl <;> decide

theorem typePairs_nodup {l : List CellType} (h : l.Nodup) :
    (l.flatMap fun tt => l.map fun rt => (tt, rt)).Nodup := by
  rw [List.nodup_flatMap]
  refine ⟨fun tt _ => h.map fun a b e => by cases e; rfl, h.imp ?_⟩
  intro a b hab x hx hy
  simp only [List.mem_map] at hx hy
  obtain ⟨r, _, rfl⟩ := hx
  obtain ⟨r', _, e⟩ := hy
  cases e
  exact hab rfl

theorem mem_typePairs {l : List CellType} {p : CellType × CellType} :
    p ∈ (l.flatMap fun tt => l.map fun rt => (tt, rt)) ↔ p.1 ∈ l ∧ p.2 ∈ l := by
  obtain ⟨a, b⟩ := p
  simp

theorem keys_nodup {ps : List (CellType × CellType)} (h : ps.Nodup)
    (ht : ∀ p ∈ ps, (p.1 = .triangle ∨ p.1 = .quadrilateral) ∧ (p.2 = .triangle ∨ p.2 = .quadrilateral)) :
    (ps.flatMap keysOf).Nodup := by
  rw [List.nodup_flatMap]
  refine ⟨fun p hp => ?_, h.imp ?_⟩
  · exact (possiblePairs_nodup (ht p hp).1 (ht p hp).2).map fun a b e => by cases e; rfl
  · intro a b hab x hx hy
    simp only [keysOf, List.mem_map] at hx hy
    obtain ⟨r, _, rfl⟩ := hx
    obtain ⟨r', _, e⟩ := hy
    simp only [Prod.mk.injEq] at e
    exact hab (Prod.ext e.1.symm e.2.1.symm)

theorem insert_new {K V : Type} [DecidableEq K] (m : Map K V) (k : K) (v : V)
    (h : ∀ e ∈ m, e.1 ≠ k) : m.insert k v = (k, v) :: m := by
  unfold Map.insert
  rw [List.filter_eq_self.mpr]
  intro e he
  simpa using h e he

theorem inserts_eq {K : Type} [DecidableEq K] {α : Type} (key : α → K) (pp : List α) (ks : List K) (off j : Nat)
    (hn : (ks ++ pp.map key).Nodup) (ho : off + j = ks.length) :
    (pp.zipIdx j).foldl (fun m p => Map.insert m (key p.1) (off + p.2)) ks.zipIdx.reverse =
      (ks ++ pp.map key).zipIdx.reverse := by
  induction pp generalizing ks j with
  | nil => simp
  | cons x pp ih =>
    rw [List.zipIdx_cons, List.foldl_cons]
    have hx : ∀ e ∈ ks.zipIdx.reverse, e.1 ≠ key x := by
      intro e he h
      rw [List.mem_reverse] at he
      have : e.1 ∈ ks := by
        have := List.mem_zipIdx he
        obtain ⟨_, _, h3⟩ := this
        rw [h3]; exact List.getElem_mem _
      rw [List.map_cons, List.nodup_append] at hn
      exact hn.2.2 _ this _ (by simp) h
    rw [insert_new _ _ _ hx]
    have e : (key x, off + j) :: ks.zipIdx.reverse = (ks ++ [key x]).zipIdx.reverse := by
      rw [List.zipIdx_append]
      simp [ho]
    simp only
    rw [e, ih (ks ++ [key x]) (j + 1) (by simpa using hn) (by simp; omega)]
    simp

/-- The key of an index. -/
theorem lookup_keys {K : Type} [DecidableEq K] {ks : List K} (hn : ks.Nodup) (k : K) (i : Nat) :
    Map.get? ks.zipIdx.reverse k = some i ↔ ks[i]? = some k := by
  have h1 : ∀ k, k ∈ ks → ∃ i, Map.get? ks.zipIdx.reverse k = some i ∧ ks[i]? = some k :=
    fun k hk => lookup_zipIdx_reverse ks k hk
  have hmem : ∀ (m : Map K Nat) (i : Nat), Map.get? m k = some i → (k, i) ∈ m := by
    intro m i
    unfold Map.get?
    induction m with
    | nil => simp
    | cons e m ih =>
      obtain ⟨a, b⟩ := e
      intro h
      rw [List.lookup_cons] at h
      by_cases hk : k = a
      · subst hk; simp at h; subst h; simp
      · have : (k == a) = false := by simpa using hk
        rw [this] at h
        exact List.mem_cons_of_mem _ (ih h)
  constructor
  · intro h
    have := hmem _ _ h
    rw [List.mem_reverse] at this
    exact List.mk_mem_zipIdx_iff_getElem?.mp this
  · intro h
    obtain ⟨i', h2, h3⟩ := h1 k (List.mem_of_getElem? h)
    have hi := (List.getElem?_eq_some_iff.mp h).1
    have : i = i' := by
      have h4 := (List.getElem?_inj hi hn).mp (h.trans h3.symm)
      exact h4
    rw [h2, this]

section
variable {env : Env R T} {asm : Assembler R T} {trial test : Space R T}
  {famT famR : CellType → ElementDofs} {F : MathIntegrand T} {K : MathKernel R T} {G : Geometry R}
  {BT BR : Basis R T} {Q : Quadrature R}

theorem SingularSetting.nodes (h : SingularSetting env asm trial test famT famR F K G BT BR Q)
    {tt rt : CellType} (htt : tt ∈ test.fs.grid.entityTypes 2) (hrt : rt ∈ test.fs.grid.entityTypes 2)
    {pairs : List (Nat × Nat)} (hp : pairs ∈ possiblePairs tt rt) :
    ∀ p ∈ RuleKey.nodes Q (tt, rt, pairs), p.1.length = 2 ∧ p.2.1.length = 2 :=
  (h.rules tt htt rt hrt).points _
    (possiblePairs_possible (h.testSpace.wf.cell_types tt htt) hp).2

theorem SingularSetting.rule (h : SingularSetting env asm trial test famT famR F K G BT BR Q)
    {tt rt : CellType} (htt : tt ∈ test.fs.grid.entityTypes 2) (hrt : rt ∈ test.fs.grid.entityTypes 2)
    {n : Nat} (hn : asm.options.singularQuadratureDegrees.get? (tt, rt) = some n)
    {pairs : List (Nat × Nat)} (hp : pairs ∈ possiblePairs tt rt) :
    makeSingRule env asm trial test tt rt n pairs =
      some (singRuleOf asm famT famR BT BR Q (tt, rt, pairs)) := by
  have htt' := h.testSpace.wf.cell_types tt htt
  have hrt' := h.testSpace.wf.cell_types rt hrt
  obtain ⟨hne, hpos⟩ := possiblePairs_possible htt' hp
  have hnodes := h.nodes htt hrt hp
  obtain ⟨n', hn', hd⟩ := (h.rules tt htt rt hrt).degree
  have : n' = n := by
    unfold Options.getSingularQuadratureDegree at hn'
    rw [hn] at hn'; cases hn'; rfl
  subst this
  have hrg : rt ∈ trial.fs.grid.entityTypes 2 := by rw [h.sameGrid]; exact hrt
  generalize hns : RuleKey.nodes Q (tt, rt, pairs) = ns at hnodes
  have hns' : Q.singular tt rt (conOf pairs) = ns := hns
  have e1 := unpackPoints_eq (fun p : List R × List R × R => p.1) ns fun p hp => (hnodes p hp).1
  have e2 := unpackPoints_eq (fun p : List R × List R × R => p.2.1) ns fun p hp => (hnodes p hp).2
  have p1 : RefPoints (ns.map fun p => p.1) := by
    intro x hx
    obtain ⟨p, hp, rfl⟩ := List.mem_map.mp hx
    exact (hnodes p hp).1
  have p2 : RefPoints (ns.map fun p => p.2.1) := by
    intro x hx
    obtain ⟨p, hp, rfl⟩ := List.mem_map.mp hx
    exact (hnodes p hp).2
  unfold makeSingRule
  rw [singularRule_eq env htt' hrt' hne, hd _ hpos, hns']
  simp only [Option.bind_eq_bind, Option.bind_some, List.length_map, e1, e2,
    h.testSpace.element tt htt, h.trialSpace.element rt hrg]
  have t1 := h.testBasis tt htt asm.tableDerivs _ p1
  have t2 := h.trialBasis rt hrg asm.tableDerivs _ p2
  rw [List.length_map] at t1 t2
  rw [t1, t2]
  simp only [Option.bind_some]
  rw [← hns]
  rfl

theorem SingularSetting.tables (h : SingularSetting env asm trial test famT famR F K G BT BR Q) :
    singTables env asm trial test = some
      ⟨(allKeys test.fs.grid).zipIdx.reverse,
        (allKeys test.fs.grid).map (singRuleOf asm famT famR BT BR Q)⟩ := by
  have wf := h.testSpace.wf
  unfold singTables allKeys
  simp only
  have hps := typePairs_nodup wf.types_nodup
  have e : (test.fs.grid.entityTypes 2).foldlM (fun s tt => (test.fs.grid.entityTypes 2).foldlM
        (fun s rt => addTypePair env asm trial test tt rt s) s) (⟨[], []⟩ : SingTables R T) =
      ((test.fs.grid.entityTypes 2).flatMap fun tt => (test.fs.grid.entityTypes 2).map fun rt =>
        (tt, rt)).foldlM (fun s p => addTypePair env asm trial test p.1 p.2 s) ⟨[], []⟩ := by
    rw [foldlM_flatMap]
    congr 1
    funext s tt
    rw [foldlM_map]
  rw [e]
  generalize hP : ((test.fs.grid.entityTypes 2).flatMap fun tt => (test.fs.grid.entityTypes 2).map
    fun rt => (tt, rt)) = ps at hps
  have hmem : ∀ p ∈ ps, p.1 ∈ test.fs.grid.entityTypes 2 ∧ p.2 ∈ test.fs.grid.entityTypes 2 := by
    intro p hp
    rw [← hP] at hp
    exact mem_typePairs.mp hp
  obtain ⟨s, hs, hs'⟩ := foldlM_inv (fun (s : SingTables R T) (p : CellType × CellType) =>
      addTypePair env asm trial test p.1 p.2 s)
    (fun pre s => s = ⟨(pre.flatMap keysOf).zipIdx.reverse,
      (pre.flatMap keysOf).map (singRuleOf asm famT famR BT BR Q)⟩) ps ⟨[], []⟩ rfl (by
      rintro pre ⟨tt, rt⟩ post s hpre rfl
      obtain ⟨htt, hrt⟩ := hmem (tt, rt) (by rw [hpre]; simp)
      obtain ⟨n, hn, _⟩ := (h.rules tt htt rt hrt).degree
      have hnd : ((pre ++ [(tt, rt)]).flatMap keysOf).Nodup := by
        apply keys_nodup
        · rw [hpre] at hps
          have e : pre ++ (tt, rt) :: post = (pre ++ [(tt, rt)]) ++ post := by simp
          rw [e] at hps
          exact (List.nodup_append.mp hps).1
        · intro p hp
          have := hmem p (by
            rw [hpre]
            rcases List.mem_append.mp hp with hp | hp
            · exact List.mem_append_left _ hp
            · rw [List.mem_singleton.mp hp]; simp)
          exact ⟨wf.cell_types _ this.1, wf.cell_types _ this.2⟩
      have hn' : asm.options.singularQuadratureDegrees.get? (tt, rt) = some n := hn
      refine ⟨_, ?_, rfl⟩
      unfold addTypePair
      simp only [hn', Option.bind_eq_bind, Option.bind_some]
      rw [mapM_some _ (fun pairs => singRuleOf asm famT famR BT BR Q (tt, rt, pairs)) _
        fun pairs hp => h.rule htt hrt hn' hp]
      simp only [Option.bind_some, List.length_map, Option.some.injEq, SingTables.mk.injEq]
      constructor
      · rw [inserts_eq (fun x => ((tt, rt, x) : RuleKey)) (possiblePairs tt rt) _ _ 0
          (by simpa [List.flatMap_append, keysOf] using hnd) (by simp)]
        simp [List.flatMap_append, keysOf]
      · simp [List.flatMap_append, keysOf, List.map_append])
  rw [hs, hs']

theorem SingularSetting.keys_nodup (h : SingularSetting env asm trial test famT famR F K G BT BR Q) :
    (allKeys test.fs.grid).Nodup := by
  have wf := h.testSpace.wf
  refine Bempp.keys_nodup (typePairs_nodup wf.types_nodup) ?_
  intro p hp
  have := mem_typePairs.mp hp
  exact ⟨wf.cell_types _ this.1, wf.cell_types _ this.2⟩

theorem mem_allKeys {g : Grid} {k : RuleKey} : k ∈ allKeys g ↔
    k.1 ∈ g.entityTypes 2 ∧ k.2.1 ∈ g.entityTypes 2 ∧ k.2.2 ∈ possiblePairs k.1 k.2.1 := by
  obtain ⟨a, b, c⟩ := k
  simp only [allKeys, List.mem_flatMap, keysOf, List.mem_map]
  constructor
  · rintro ⟨p, ⟨tt, h1, rt, h2, rfl⟩, x, h3, e⟩
    cases e
    exact ⟨h1, h2, h3⟩
  · rintro ⟨h1, h2, h3⟩
    exact ⟨(a, b), ⟨a, h1, b, h2, rfl⟩, c, h3, rfl⟩

end
end Bempp
