import Verif.Proofs.Split
import Verif.Proofs.Parallel
import Verif.Proofs.CellPair
import Verif.Props.Colouring
import Verif.Spec.Dense
import Mathlib.Data.List.Nodup
/-
The regular part of dense assembly.
-/
set_option linter.unusedSectionVars false

namespace Bempp

variable {R T : Type}

/-! ### Addresses -/

/-- The matrix positions of two DOF lists. -/
def addrs (n : Nat) (td rd : List Nat) : List Nat := rd.flatMap fun j => td.map fun i => i + n * j

theorem map_fst_zip_sublist {α β : Type} (a : List α) (b : List β) :
    ((a.zip b).map Prod.fst).Sublist a := by
  induction a generalizing b with
  | nil => simp
  | cons x a ih =>
    cases b with
    | nil => simp
    | cons y b => simpa using ih b

theorem localOps_addrs (shape : Nat × Nat) (td rd : List Nat) (m : List (List T)) :
    ((localOps shape td rd m).map AddOp.addr).Sublist (addrs shape.1 td rd) := by
  unfold localOps addrs
  induction rd generalizing m with
  | nil => simp
  | cons j rd ih =>
    cases m with
    | nil => simp
    | cons c m =>
      simp only [List.zip_cons_cons, List.flatMap_cons, List.map_append, List.map_map]
      refine List.Sublist.append ?_ (ih m)
      have : (List.map (AddOp.addr ∘ fun e : Nat × T => (⟨e.1 + shape.1 * j, e.2⟩ : AddOp T))
          (td.zip c)) = ((td.zip c).map Prod.fst).map fun i => i + shape.1 * j := by
        rw [List.map_map]; rfl
      rw [this]
      apply List.Sublist.map
      exact map_fst_zip_sublist td c

/-- The DOF list of a cell (empty if there is none). -/
def FunctionSpace.dofs (sp : FunctionSpace) (c : Nat) : List Nat := (sp.cellDofsUnchecked c).getD []

section
variable [Zero R] [Mul R] [Zero T] [Add T] [Mul T]

theorem nonadjacentTest_addrs {env : Env R T} {shape : Nat × Nat} {trial test : Space R T} {rc tc : Nat}
    {st st' : NonsingPair R T × List (List T) × List (AddOp T)}
    (h : nonadjacentTest env shape trial test (trial.fs.dofs rc) rc st tc = some st') :
    ∃ l, st'.2.2 = st.2.2 ++ l ∧
      (l.map AddOp.addr).Sublist (addrs shape.1 (test.fs.dofs tc) (trial.fs.dofs rc)) := by
  unfold nonadjacentTest at h
  simp only [Option.bind_eq_bind, Option.bind_eq_some_iff] at h
  obtain ⟨nb, _, h⟩ := h
  split at h
  · cases h
    exact ⟨[], by simp, by simp⟩
  · simp only [Option.bind_eq_some_iff] at h
    obtain ⟨a, _, am, _, td, htd, h⟩ := h
    cases h
    refine ⟨_, rfl, ?_⟩
    have : test.fs.dofs tc = td := by simp [FunctionSpace.dofs, htd]
    rw [this]
    exact localOps_addrs _ _ _ _

theorem nonadjacentTrial_addrs {env : Env R T} {shape : Nat × Nat} {trial test : Space R T}
    {tcs : List Nat} {rc : Nat} {st st' : NonsingPair R T × List (List T) × List (AddOp T)}
    (h : nonadjacentTrial env shape trial test tcs st rc = some st') :
    ∃ l, st'.2.2 = st.2.2 ++ l ∧ (l.map AddOp.addr).Sublist
      (tcs.flatMap fun tc => addrs shape.1 (test.fs.dofs tc) (trial.fs.dofs rc)) := by
  unfold nonadjacentTrial at h
  simp only [Option.bind_eq_bind, Option.bind_eq_some_iff] at h
  obtain ⟨a, _, rd, hrd, h⟩ := h
  have hd : rd = trial.fs.dofs rc := by simp [FunctionSpace.dofs, hrd]
  rw [hd] at h
  refine foldlM_inv_of_eq _ (fun pre s => ∃ l, s.2.2 = st.2.2 ++ l ∧ (l.map AddOp.addr).Sublist
    (pre.flatMap fun tc => addrs shape.1 (test.fs.dofs tc) (trial.fs.dofs rc))) tcs _ _ h
    ⟨[], by simp, by simp⟩ ?_
  rintro pre x post s s' _ ⟨l, h1, h2⟩ hs
  obtain ⟨l', h3, h4⟩ := nonadjacentTest_addrs hs
  refine ⟨l ++ l', by rw [h3, h1, List.append_assoc], ?_⟩
  rw [List.map_append, List.flatMap_append]
  exact h2.append (by simpa using h4)

/-- A task adds only to positions that belong to its cells. -/
theorem batch_addrs {env : Env R T} {asm : Assembler R T} {shape : Nat × Nat} {ty ty' : CellType}
    {trial test : Space R T} {rcs tcs : List Nat} {q : RegRule R T} {ops : List (AddOp T)}
    (h : assembleBatchNonadjacent env asm shape ty ty' trial rcs test tcs q = some ops) :
    (ops.map AddOp.addr).Sublist (rcs.flatMap fun rc => tcs.flatMap fun tc =>
      addrs shape.1 (test.fs.dofs tc) (trial.fs.dofs rc)) := by
  unfold assembleBatchNonadjacent at h
  simp only at h
  split at h
  · simp only [Option.bind_eq_bind, Option.bind_eq_some_iff] at h
    obtain ⟨tev, _, rev, _, a, _, tel, _, rel, _, st, hst, h⟩ := h
    cases h
    have := foldlM_inv_of_eq _ (fun pre s => (s.2.2.map AddOp.addr).Sublist
      (pre.flatMap fun rc => tcs.flatMap fun tc =>
        addrs shape.1 (test.fs.dofs tc) (trial.fs.dofs rc))) rcs _ _ hst (by simp) ?_
    · exact this
    · rintro pre x post s s' _ h1 hs
      obtain ⟨l', h3, h4⟩ := nonadjacentTrial_addrs hs
      rw [h3, List.map_append, List.flatMap_append]
      exact h1.append (by simpa using h4)
  · cases h

end

theorem mem_addrs {n a : Nat} {td rd : List Nat} (hn : ∀ i ∈ td, i < n) (h : a ∈ addrs n td rd) :
    a % n ∈ td ∧ a / n ∈ rd := by
  unfold addrs at h
  simp only [List.mem_flatMap, List.mem_map] at h
  obtain ⟨j, hj, i, hi, rfl⟩ := h
  have hi' := hn i hi
  have h1 : (i + n * j) % n = i := by rw [Nat.add_mul_mod_self_left, Nat.mod_eq_of_lt hi']
  have h2 : (i + n * j) / n = j := by
    rw [Nat.add_mul_div_left i j (by omega), Nat.div_eq_of_lt hi', Nat.zero_add]
  rw [h1, h2]
  exact ⟨hi, hj⟩

theorem addrs_nodup {n : Nat} {td rd : List Nat} (hn : ∀ i ∈ td, i < n) (ht : td.Nodup) (hr : rd.Nodup) :
    (addrs n td rd).Nodup := by
  unfold addrs
  rw [List.nodup_flatMap]
  refine ⟨fun j _ => ht.map fun a b h => by simpa using h, ?_⟩
  refine hr.imp ?_
  intro j j' hjj a ha hb
  have h1 := (mem_addrs (rd := [j]) hn (by simpa [addrs] using ha)).2
  have h2 := (mem_addrs (rd := [j']) hn (by simpa [addrs] using hb)).2
  simp only [List.mem_singleton] at h1 h2
  omega

/-- What the colouring guarantees about the cells of one colour. -/
structure ColourClass (sp : FunctionSpace) (l : List Nat) : Prop where
  nodup : l.Nodup
  dofs : ∀ c ∈ l, (sp.dofs c).Nodup ∧ ∀ n ∈ sp.dofs c, n < sp.globalSize
  disjoint : ∀ c ∈ l, ∀ c' ∈ l, c ≠ c' → ∀ n ∈ sp.dofs c, n ∉ sp.dofs c'

/-- Positions of all pairs of cells of two colours: no repetition. -/
theorem colour_addrs_nodup {test trial : FunctionSpace} {tcs rcs : List Nat} (ht : ColourClass test tcs)
    (hr : ColourClass trial rcs) :
    (tcs.flatMap fun tc => rcs.flatMap fun rc =>
      addrs test.globalSize (test.dofs tc) (trial.dofs rc)).Nodup := by
  rw [List.nodup_flatMap]
  refine ⟨fun tc htc => ?_, ?_⟩
  · rw [List.nodup_flatMap]
    refine ⟨fun rc hrc => addrs_nodup (ht.dofs tc htc).2 (ht.dofs tc htc).1 (hr.dofs rc hrc).1, ?_⟩
    have hp := hr.nodup
    rw [List.Nodup, List.pairwise_iff_forall_sublist] at hp
    rw [List.pairwise_iff_forall_sublist]
    intro a b hab x ha hb
    have hm := hab.subset
    exact hr.disjoint a (hm (by simp)) b (hm (by simp)) (hp hab) _
      (mem_addrs (ht.dofs tc htc).2 ha).2 (mem_addrs (ht.dofs tc htc).2 hb).2
  · have hp := ht.nodup
    rw [List.Nodup, List.pairwise_iff_forall_sublist] at hp
    rw [List.pairwise_iff_forall_sublist]
    intro a b hab x ha hb
    have hm := hab.subset
    obtain ⟨rc, _, hx⟩ := List.mem_flatMap.mp ha
    obtain ⟨rc', _, hx'⟩ := List.mem_flatMap.mp hb
    exact ht.disjoint a (hm (by simp)) b (hm (by simp)) (hp hab) _
      (mem_addrs (ht.dofs a (hm (by simp))).2 hx).1 (mem_addrs (ht.dofs b (hm (by simp))).2 hx').1

theorem colour_addrs_lt {test trial : FunctionSpace} {tcs rcs : List Nat} (ht : ColourClass test tcs)
    (hr : ColourClass trial rcs) :
    ∀ a ∈ (tcs.flatMap fun tc => rcs.flatMap fun rc =>
      addrs test.globalSize (test.dofs tc) (trial.dofs rc)), a < test.globalSize * trial.globalSize := by
  intro a ha
  simp only [List.mem_flatMap, addrs, List.mem_map] at ha
  obtain ⟨tc, htc, rc, hrc, j, hj, i, hi, rfl⟩ := ha
  have h1 := (ht.dofs tc htc).2 i hi
  have h2 := (hr.dofs rc hrc).2 j hj
  calc i + test.globalSize * j < test.globalSize * (j + 1) := by rw [Nat.mul_add]; omega
    _ ≤ _ := Nat.mul_le_mul_left _ h2

/-! ### Spaces on one process -/

section
variable {sp : FunctionSpace} {fam : CellType → ElementDofs}

theorem SerialSpace.yields (h : SerialSpace sp fam) : (FunctionSpace.new 0 1 sp.grid fam).Yields sp := by
  rw [h.made]; exact .done sp

theorem SerialSpace.serial (h : SerialSpace sp fam) : sp.isSerial = true ∧ sp.globalSize = sp.localSize ∧
    ∀ i, i < sp.localSize → sp.globalDofIndex i = some i := by
  obtain ⟨nd, t0, fo, _⟩ := h.family
  obtain ⟨sp', h1, h2, h3, h4, _⟩ := C18_serial_space h.wf fo h.owned
  rw [h.made] at h1
  cases h1
  exact ⟨h2, h3, fun i hi => (h4 i hi).1⟩

theorem SerialSpace.cell (h : SerialSpace sp fam) {c : Entity} (hc : c ∈ sp.grid.entityIter 2) :
    ∃ cd, sp.cellDofsUnchecked c.localIndex = some cd ∧ sp.dofs c.localIndex = cd ∧
      cd.length = (fam c.entityType).dim ∧ cd.Nodup ∧ ∀ n ∈ cd, n < sp.globalSize := by
  obtain ⟨nd, t0, fo, _⟩ := h.family
  obtain ⟨_, h2⟩ := C03_cell_dofs h.wf fo h.yields
  obtain ⟨cd, h3, h4, h5, h6⟩ := h2 c hc
  rw [cellDofs_eq] at h3
  refine ⟨cd, h3, by simp [FunctionSpace.dofs, FunctionSpace.cellDofsUnchecked, h3], h4, h5, ?_⟩
  rw [h.serial.2.1]; exact h6

theorem SerialSpace.element (h : SerialSpace sp fam) (t : CellType) (ht : t ∈ sp.grid.entityTypes 2) :
    sp.element t = some (fam t) := by
  obtain ⟨dm, _, _, _, _, _, _, hel⟩ := new_local h.yields
  unfold FunctionSpace.element
  rw [hel, h.wf.tdim, lookup_map_self, if_pos ht]

theorem SerialSpace.colouring (h : SerialSpace sp fam) : ∃ col, sp.cellColouring = some col ∧
    (∀ t, (col t).isSome ↔ t ∈ sp.grid.entityTypes 2) ∧
    ∀ t cols, col t = some cols → cols.flatten.Perm
        (((sp.grid.entityIter 2).filter fun c => decide (c.entityType = t)).map Entity.localIndex) := by
  obtain ⟨nd, t0, fo, co⟩ := h.family
  obtain ⟨col, h1, h2, h3, _⟩ := C06_colouring_partition h.wf fo co h.yields
  exact ⟨col, h1, h2, h3⟩

theorem SerialSpace.colourClass (h : SerialSpace sp fam) {col : Colouring}
    (hcol : sp.cellColouring = some col) {t : CellType} {cols : List (List Nat)}
    (ht : col t = some cols) {l : List Nat} (hl : l ∈ cols) :
    ColourClass sp l ∧ ∀ i ∈ l, ∃ c ∈ sp.grid.entityIter 2, c.localIndex = i ∧ c.entityType = t := by
  obtain ⟨nd, t0, fo, co⟩ := h.family
  obtain ⟨ev, ed⟩ := h.edges
  obtain ⟨col', h1, h2, h3, h4⟩ := C06_colouring_partition h.wf fo co h.yields
  rw [hcol] at h1; cases h1
  have hp := h3 t cols ht
  have hcell : ∀ i ∈ l, ∃ c ∈ sp.grid.entityIter 2, c.localIndex = i ∧ c.entityType = t := by
    intro i hi
    have : i ∈ cols.flatten := List.mem_flatten.mpr ⟨l, hl, hi⟩
    rw [hp.mem_iff] at this
    simp only [List.mem_map, List.mem_filter, decide_eq_true_eq] at this
    obtain ⟨c, ⟨hc, hct⟩, hci⟩ := this
    exact ⟨c, hc, hci, hct⟩
  refine ⟨⟨?_, ?_, ?_⟩, hcell⟩
  · have hn : cols.flatten.Nodup := by
      rw [hp.nodup_iff]
      exact h4.sublist (List.filter_sublist.map _)
    exact (List.nodup_flatten.mp hn).1 l hl
  · intro i hi
    obtain ⟨c, hc, rfl, _⟩ := hcell i hi
    obtain ⟨cd, _, h6, _, h7, h8⟩ := h.cell hc
    rw [h6]; exact ⟨h7, h8⟩
  · intro i hi j hj hij
    obtain ⟨c, hc, rfl, hct⟩ := hcell i hi
    obtain ⟨c', hc', rfl, hct'⟩ := hcell j hj
    obtain ⟨cd, h5, h6, _⟩ := h.cell hc
    obtain ⟨cd', h5', h6', _⟩ := h.cell hc'
    obtain ⟨k, hk⟩ := List.getElem?_of_mem hl
    rw [h6, h6']
    exact C07_same_colour_disjoint h.wf ed fo co h.yields col hcol c c' hc hc' hij k
      ⟨cols, l, hct ▸ ht, hk, hi⟩ ⟨cols, l, hct' ▸ ht, hk, hj⟩ cd cd'
      (by rw [cellDofs_eq]; exact h5) (by rw [cellDofs_eq]; exact h5')

end

/-! ### Values -/

theorem flat_get {ν : Type} (f : ν → List R) (ns : List ν) (h : ∀ p ∈ ns, (f p).length = 2) (i j : Nat)
    (hj : j < 2) : (ns.flatMap f)[2 * i + j]? = (ns[i]?).bind fun p => (f p)[j]? := by
  induction ns generalizing i with
  | nil => simp
  | cons n ns ih =>
    have hn := h n (by simp)
    cases i with
    | zero =>
      rw [List.flatMap_cons, List.getElem?_append_left (by omega)]
      simp
    | succ i =>
      rw [List.flatMap_cons, List.getElem?_append_right (by omega), hn,
        show 2 * (i + 1) + j - 2 = 2 * i + j by omega, ih (fun p hp => h p (by simp [hp]))]
      simp

theorem mapM_range_getElem? {α : Type} (l : List α) :
    (List.range l.length).mapM (fun i => l[i]?) = some l := by
  cases hl : l with
  | nil => rfl
  | cons a _ =>
    rw [← hl, mapM_some _ (fun i => l.getD i a)]
    · congr 1
      apply List.ext_getElem <;> simp
      intro i h1
      simp [h1]
    · intro i hi
      have := List.mem_range.mp hi
      simp [this]

theorem mapM_congr_mem {α β : Type} (f g : α → Option β) (l : List α) (h : ∀ x ∈ l, f x = g x) :
    l.mapM f = l.mapM g := by
  induction l with
  | nil => rfl
  | cons x l ih =>
    rw [List.mapM_cons, List.mapM_cons, h x (by simp), ih fun y hy => h y (by simp [hy])]

theorem unpackPoints_eq {ν : Type} (f : ν → List R) (ns : List ν) (h : ∀ p ∈ ns, (f p).length = 2) :
    unpackPoints (ns.flatMap f) ns.length = some (ns.map f) := by
  unfold unpackPoints
  have key : ∀ i ∈ List.range ns.length,
      ((List.range 2).mapM fun j => (ns.flatMap f)[2 * i + j]?) = (ns.map f)[i]? := by
    intro i hi
    have hi' := List.mem_range.mp hi
    have h0 := flat_get f ns h i 0 (by omega)
    have h1 := flat_get f ns h i 1 (by omega)
    have hlen := h ns[i] (List.getElem_mem hi')
    simp only [List.getElem?_eq_getElem hi', Option.bind_some] at h0 h1
    rw [show List.range 2 = [0, 1] from rfl, List.mapM_cons, List.mapM_cons, List.mapM_nil, h0, h1]
    rw [List.getElem?_map, List.getElem?_eq_getElem hi', Option.map_some]
    generalize f ns[i] = x at hlen
    match x, hlen with
    | [a, b], _ => rfl
  have := mapM_range_getElem? (ns.map f)
  rw [List.length_map] at this
  rw [← this]
  exact mapM_congr_mem _ _ _ key

/-- `i` is the index of a cell of type `t`. -/
def Grid.IsCell (g : Grid) (t : CellType) (i : Nat) : Prop :=
  ∃ c ∈ g.entityIter 2, c.localIndex = i ∧ c.entityType = t

section
variable {env : Env R T} {asm : Assembler R T} {trial test : Space R T}
  {famT famR : CellType → ElementDofs} {F : MathIntegrand T} {K : MathKernel R T} {GT GR : Geometry R}
  {BT BR : Basis R T} {Q : Quadrature R} {t : CellType}

theorem DenseSetting.neighbours_isSome (h : DenseSetting env asm trial test famT famR F K GT GR BT BR Q t)
    {tc rc : Nat} (ht : test.fs.grid.IsCell t tc) (hr : trial.fs.grid.IsCell t rc) :
    ∃ b, neighbours test.fs.grid trial.fs.grid tc rc = some b := by
  unfold neighbours
  split
  · exact ⟨_, rfl⟩
  · rename_i he
    have ha : test.fs.grid.addr = trial.fs.grid.addr := by simpa [equalGrids] using he
    have hg := (h.same ha).1.sameGrid
    obtain ⟨c, hc, rfl, _⟩ := ht
    obtain ⟨c', hc', rfl, _⟩ := hr
    have e2 := h.trialSpace.wf.entity 2 (by omega) c' hc'
    have e1 := h.testSpace.wf.entity 2 (by omega) c hc
    rw [← hg] at e1
    rw [e1, e2]
    exact ⟨_, rfl⟩

variable [Zero R] [Mul R] [Zero T] [Add T] [Mul T]

/-- The regular rule data. -/
def regRuleOf (asm : Assembler R T) (famT famR : CellType → ElementDofs) (BT BR : Basis R T)
    (Q : Quadrature R) (t : CellType) : RegRule R T :=
  { testPoints := (Q.regular t).map fun p => p.1
    trialPoints := (Q.regular t).map fun p => p.1
    testWeights := (Q.regular t).map fun p => p.2
    trialWeights := (Q.regular t).map fun p => p.2
    testTable := BT.table t (famT t).dim (numDerivs asm.tableDerivs) ((Q.regular t).map fun p => p.1)
    trialTable := BR.table t (famR t).dim (numDerivs asm.tableDerivs) ((Q.regular t).map fun p => p.1) }

theorem DenseSetting.regRule_eq (h : DenseSetting env asm trial test famT famR F K GT GR BT BR Q t) :
    regRule env asm trial test t t = some (regRuleOf asm famT famR BT BR Q t) := by
  have hd : asm.options.quadratureDegrees.get? t = some (Q.regular t).length := h.rule.degree
  have hp : RefPoints ((Q.regular t).map fun p => p.1) := by
    intro x hx
    obtain ⟨p, hp, rfl⟩ := List.mem_map.mp hx
    exact h.rule.points p hp
  have e1 := unpackPoints_eq (fun p : List R × R => p.1) (Q.regular t) h.rule.points
  have e2 := h.testBasis t (by rw [h.testType]; simp) asm.tableDerivs _ hp
  have e3 := h.trialBasis t (by rw [h.trialType]; simp) asm.tableDerivs _ hp
  rw [List.length_map] at e2 e3
  unfold regRule
  simp only [hd, h.rule.rule, Option.bind_eq_bind, Option.bind_some]
  rw [show ((Q.regular t).flatMap Prod.fst) = (Q.regular t).flatMap fun p => p.1 from rfl, e1]
  simp only [Option.bind_some, h.testSpace.element t (by rw [h.testType]; simp),
    h.trialSpace.element t (by rw [h.trialType]; simp), e2, e3]
  rfl

/-- The `+=` operations for one pair of cells. -/
def pairOps (cast : R → T) (F : MathIntegrand T) (K : MathKernel R T) (GT GR : Geometry R)
    (BT BR : Basis R T) (Q : Quadrature R) (t : CellType) (dt dr : Nat) (trial test : FunctionSpace)
    (tc rc : Nat) : List (AddOp T) :=
  if neighbours test.grid trial.grid tc rc = some true then []
  else localOps (test.globalSize, trial.globalSize) (test.dofs tc) (trial.dofs rc)
    ((List.range dr).map fun b => (List.range dt).map fun a =>
      regularValue cast F K GT GR BT BR Q t t tc rc a b)

theorem DenseSetting.batch (h : DenseSetting env asm trial test famT famR F K GT GR BT BR Q t)
    {tcs rcs : List Nat} (ht : ∀ c ∈ tcs, test.fs.grid.IsCell t c)
    (hr : ∀ c ∈ rcs, trial.fs.grid.IsCell t c) :
    assembleBatchNonadjacent env asm (test.fs.globalSize, trial.fs.globalSize) t t trial rcs test tcs
      (regRuleOf asm famT famR BT BR Q t) = some (rcs.flatMap fun rc => tcs.flatMap fun tc =>
        pairOps env.cast F K GT GR BT BR Q t (famT t).dim (famR t).dim trial.fs test.fs tc rc) := by
  have hp : RefPoints ((Q.regular t).map fun p => p.1) := by
    intro x hx
    obtain ⟨p, hp, rfl⟩ := List.mem_map.mp hx
    exact h.rule.points p hp
  obtain ⟨tev, ht1, ht2⟩ := h.testGeometry t (by rw [h.testType]; simp) _ hp
  obtain ⟨rev, hr1, hr2⟩ := h.trialGeometry t (by rw [h.trialType]; simp) _ hp
  have htev : ∀ c ∈ tcs, tev.Evaluates GT ((Q.regular t).map fun p => p.1) c := by
    intro c hc
    obtain ⟨e, he, rfl, het⟩ := ht c hc
    exact ht2 e he het
  have hrev : ∀ c ∈ rcs, rev.Evaluates GR ((Q.regular t).map fun p => p.1) c := by
    intro c hc
    obtain ⟨e, he, rfl, het⟩ := hr c hc
    exact hr2 e he het
  obtain ⟨a, ha1, ha2, ha3⟩ := NonsingPair.new_ready (asm := asm) (testG := GT) (testB := BT)
    (trialB := BR) (ms := Q.regular t) (ns := Q.regular t) (cells := tcs) (tt := t) (rt := t)
    (dt := (famT t).dim) (dr := (famR t).dim) tev rev htev
  unfold assembleBatchNonadjacent
  simp only [h.testSurface.1, h.testSurface.2, h.trialSurface.1, h.trialSurface.2, and_self, if_true]
  simp only [regRuleOf, ht1, hr1, List.length_map, ha1, h.testSpace.element t (by rw [h.testType]; simp),
    h.trialSpace.element t (by rw [h.trialType]; simp), Option.bind_eq_bind, Option.bind_some]
  generalize hO : pairOps env.cast F K GT GR BT BR Q t (famT t).dim (famR t).dim trial.fs test.fs = O
  obtain ⟨st, hst, _, _, _, hst4⟩ := foldlM_inv
    (nonadjacentTrial env (test.fs.globalSize, trial.fs.globalSize) trial test tcs)
    (fun pre s => s.1.Ready asm GT BT BR (Q.regular t) (Q.regular t) tcs t t (famT t).dim (famR t).dim ∧
      s.1.trialEvaluator = rev ∧ Shape2 (famT t).dim (famR t).dim s.2.1 ∧
      s.2.2 = pre.flatMap fun rc => tcs.flatMap fun tc => O tc rc) rcs
    (a, zeros2 (famT t).dim (famR t).dim, []) ⟨ha2, ha3, shape2_zeros _ _, rfl⟩ (by
      rintro pre rc post s hpre ⟨s1, s2, s3, s4⟩
      have hrc : rc ∈ rcs := by rw [hpre]; simp
      obtain ⟨e1, e2⟩ := NonsingPair.setTrial (trialG := GR) s1 (s2 ▸ hrev rc hrc)
      obtain ⟨er, her, hei, het⟩ := hr rc hrc
      obtain ⟨rd, hrd1, hrd2, _⟩ := h.trialSpace.cell her
      rw [hei] at hrd1 hrd2
      unfold nonadjacentTrial
      simp only [e1, hrd1, Option.bind_eq_bind, Option.bind_some]
      obtain ⟨st, hst, t1, t2, t3, _, t5⟩ := foldlM_inv
        (nonadjacentTest env (test.fs.globalSize, trial.fs.globalSize) trial test rd rc)
        (fun pre' s' => s'.1.Ready asm GT BT BR (Q.regular t) (Q.regular t) tcs t t (famT t).dim
            (famR t).dim ∧
          s'.1.trialEvaluator = rev ∧ Shape2 (famT t).dim (famR t).dim s'.2.1 ∧
          s'.1.trial = GR.atPoints ((Q.regular t).map fun p => p.1) rc ∧
          s'.2.2 = s.2.2 ++ pre'.flatMap fun tc => O tc rc) tcs
        ({ s.1 with trialCell := rc, trial := GR.atPoints ((Q.regular t).map fun p => p.1) rc },
          s.2.1, s.2.2) ⟨e2, s2, s3, rfl, by simp⟩ (by
          rintro pre' tc post' s' hpre' ⟨u1, u2, u3, u4, u5⟩
          have htc : tc ∈ tcs := by rw [hpre']; simp
          obtain ⟨nb, hnb⟩ := h.neighbours_isSome (ht tc htc) (hr rc hrc)
          obtain ⟨et, het', hti, htt⟩ := ht tc htc
          obtain ⟨td, htd1, htd2, _⟩ := h.testSpace.cell het'
          rw [hti] at htd1 htd2
          unfold nonadjacentTest
          simp only [hnb, Option.bind_eq_bind, Option.bind_some]
          cases nb with
          | true =>
            refine ⟨_, rfl, u1, u2, u3, u4, ?_⟩
            rw [u5, ← hO]
            simp [pairOps, hnb]
          | false =>
            obtain ⟨i, f1, f2⟩ := NonsingPair.setTest u1 htc
            have u1' : ({ s'.1 with testCell := i } : NonsingPair R T).Ready asm GT BT BR (Q.regular t)
                (Q.regular t) tcs t t (famT t).dim (famR t).dim :=
              ⟨u1.integrand, u1.kernel, u1.testTable, u1.trialTable, u1.testWeights, u1.trialWeights,
                u1.k, u1.test, u1.testIndices, u1.trial⟩
            obtain ⟨k, hk, f3⟩ := NonsingPair.assemble_eq (trialG := GR) env.cast h.operator u1' f2 u4
              s'.2.1 u3
            simp only [f1, f3, htd1, Option.bind_some, Bool.false_eq_true, if_false]
            refine ⟨_, rfl, ?_, u2, shape2_matrix _ _ _, u4, ?_⟩
            · exact ⟨u1.integrand, u1.kernel, u1.testTable, u1.trialTable, u1.testWeights,
                u1.trialWeights, hk, u1.test, u1.testIndices, u1.trial⟩
            · simp only
              rw [u5, List.append_assoc, List.flatMap_append]
              congr 2
              rw [← hO]
              simp only [List.flatMap_cons, List.flatMap_nil, List.append_nil, pairOps, hnb,
                Option.some.injEq, Bool.false_eq_true, if_false, hrd2, htd2]
              rfl)
      refine ⟨st, hst, t1, t2, t3, ?_⟩
      rw [t5, s4, List.flatMap_append]
      simp)
  rw [hst]
  simp [hst4]

end

end Bempp
