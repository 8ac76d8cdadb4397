import Verif.Proofs.Trace
/-
`FunctionSpace::new` follows the trace; the spaces it returns.
-/
namespace Bempp
open FunctionSpace

section
variable (n : Nat) (G : Nat → Grid) (fam : CellType → ElementDofs) (nd : Nat → Nat → Nat → Nat)
  (D : Nat → DofState)

/-- Final global number of DOF `i` of process `r`. -/
def gnum (r i : Nat) : Nat :=
  match (D r).ownerData[i]? with
  | some o => if o.1 = r then num D r i else num D o.1 (lookupDof D o.1 o.2.1 o.2.2.1 o.2.2.2)
  | none => 0

/-- Final ownership of DOF `i` of process `r`. -/
def gown (r i : Nat) : Ownership :=
  match (D r).ownerData[i]? with
  | some o => if o.1 = r then .owned else .ghost o.1 (lookupDof D o.1 o.2.1 o.2.2.1 o.2.2.2)
  | none => .owned

/-- The space of process `r`. -/
def spaceOf (r : Nat) : FunctionSpace :=
  { grid := G r
    commSize := n
    elements := ((G r).entityTypes (G r).topologyDim).map fun t => (t, fam t)
    entityDofs := (D r).entityDofs
    cellDofsVec := (D r).cellDofs
    localSize := (D r).size
    globalSize := offs D n
    globalDofNumbers := (List.range (D r).size).map (gnum D r)
    ownershipVec := (List.range (D r).size).map (gown D r) }

/-- What the loop invariant of `assign_dofs` gives on all processes. -/
structure AllDofs : Prop where
  eq : ∀ r, r < n → assignDofs r (G r) fam = some (D r)
  inv : ∀ r, r < n → DofInv r (G r) (nd r) (allVisits (G r) fam) (D r)

theorem allDofs_exists (dist : Distributed n G fam nd) : ∃ D, AllDofs n G fam nd D := by
  have h : ∀ r, ∃ s, r < n → assignDofs r (G r) fam = some s ∧
      DofInv r (G r) (nd r) (allVisits (G r) fam) s := by
    intro r
    by_cases hr : r < n
    · obtain ⟨s, h1, h2, _⟩ := assignDofs_inv r (G r) fam (nd r) (dist.wf r hr) (dist.family r hr)
      exact ⟨s, fun _ => ⟨h1, h2⟩⟩
    · exact ⟨⟨0, [], [], []⟩, fun h => absurd h hr⟩
  choose D hD using h
  exact ⟨D, fun r hr => (hD r hr).1, fun r hr => (hD r hr).2⟩

variable {n G fam nd D}

theorem AllDofs.length (hD : AllDofs n G fam nd D) {r : Nat} (hr : r < n) :
    (D r).ownerData.length = (D r).size := by
  obtain ⟨loc, h1, h2, _⟩ := (hD.inv r hr).loc
  rw [h2]; simpa using h1

/-- Everything about the owner entry at position `i`. -/
theorem AllDofs.owner (dist : Distributed n G fam nd) (hD : AllDofs n G fam nd D) {r i : Nat}
    (hr : r < n) {o : Nat × Nat × Nat × Nat} (ho : (D r).ownerData[i]? = some o) :
    ∃ (d e k : Nat) (ent : Entity), d ≤ 2 ∧ ent ∈ (G r).entityIter d ∧ ent.localIndex = e ∧
      ((D r).ent d e).bind (·[k]?) = some i ∧ k < nd r d e ∧
      ((ent.ownership = .owned ∧ o = (r, d, e, k)) ∨
       (∃ p e', ent.ownership = .ghost p e' ∧ o = (p, d, e', k))) := by
  obtain ⟨loc, h1, h2, h3, _⟩ := (hD.inv r hr).loc
  rw [h2, List.getElem?_map] at ho
  simp only [Option.map_eq_some_iff] at ho
  obtain ⟨⟨d, e, k⟩, hx, rfl⟩ := ho
  have hb := (h3 d e k i).mpr hx
  have hb' := hb
  rw [Option.bind_eq_some_iff] at hb
  obtain ⟨l, hl, hk⟩ := hb
  obtain ⟨hd, he⟩ := ent_valid (hD.inv r hr) hl
  obtain ⟨ent, hent, hi, hge⟩ := entity_exists (G r) (dist.wf r hr) hd he
  obtain ⟨m, hm, hml⟩ := ent_length (dist.wf r hr) (dist.family r hr) (hD.inv r hr) hd he
  rw [hl] at hm; cases hm
  refine ⟨d, e, k, ent, hd, hent, hi, hb', ?_, ?_⟩
  · rw [← hml]; exact (List.getElem?_eq_some_iff.mp hk).1
  · unfold ownerOf
    simp only [hge]
    cases ent.ownership with
    | owned => exact Or.inl ⟨rfl, rfl⟩
    | ghost p e' => exact Or.inr ⟨p, e', rfl, rfl⟩

theorem AllDofs.owner_lt (dist : Distributed n G fam nd) (hD : AllDofs n G fam nd D) {r : Nat}
    (hr : r < n) {o : Nat × Nat × Nat × Nat} (ho : o ∈ (D r).ownerData) : o.1 < n := by
  obtain ⟨i, hi⟩ := List.getElem?_of_mem ho
  obtain ⟨d, e, k, ent, hd, hent, _, _, _, h⟩ := hD.owner dist hr hi
  rcases h with ⟨_, rfl⟩ | ⟨p, e', hg, rfl⟩
  · exact hr
  · exact (dist.ghost r hr d hd ent hent p e' hg).1

/-- A ghost's entry on its owner. -/
theorem AllDofs.ghost_target (dist : Distributed n G fam nd) (hD : AllDofs n G fam nd D) {r i : Nat}
    (hr : r < n) {o : Nat × Nat × Nat × Nat} (ho : (D r).ownerData[i]? = some o) (hne : o.1 ≠ r) :
    ∃ l, ((D o.1).ent o.2.1 o.2.2.1).bind (·[o.2.2.2]?) = some l ∧
      l < (D o.1).size ∧ (D o.1).ownerData[l]? = some o := by
  obtain ⟨d, e, k, ent, hd, hent, hei, _, hk, h⟩ := hD.owner dist hr ho
  rcases h with ⟨_, rfl⟩ | ⟨p, e', hg, rfl⟩
  · exact absurd rfl hne
  · obtain ⟨hp, _, ⟨ent', hent', he', hown⟩, hnd⟩ := dist.ghost r hr d hd ent hent p e' hg
    have hlt : e' < (G p).count d := by
      have := ((dist.wf p hp).index d hd).mem_iff.mp (List.mem_map_of_mem hent')
      rw [he'] at this
      simpa using this
    obtain ⟨m, hm, hml⟩ := ent_length (dist.wf p hp) (dist.family p hp) (hD.inv p hp) hd hlt
    have hkm : k < m.length := by rw [hml, hnd, hei]; exact hk
    obtain ⟨loc, h1, h2, h3, _⟩ := (hD.inv p hp).loc
    have hb : ((D p).ent d e').bind (·[k]?) = some m[k] := by simp [hm, hkm]
    have hloc := (h3 d e' k m[k]).mp hb
    refine ⟨m[k], hb, ?_, ?_⟩
    · rw [← h1]; exact (List.getElem?_eq_some_iff.mp hloc).1
    · simp only
      rw [h2, List.getElem?_map, hloc]
      simp only [Option.map_some, Option.some.injEq]
      unfold ownerOf
      have := (dist.wf p hp).entity d hd ent' hent'
      rw [he'] at this
      simp only [this, hown]

theorem mem_ghostList {p : Nat} {od : List (Nat × Nat × Nat × Nat)} {x : Nat × Nat × Nat × Nat} :
    x ∈ ghostList p od ↔ od[x.1]? = some (p, x.2.1, x.2.2.1, x.2.2.2) := by
  unfold ghostList
  simp only [List.mem_map, List.mem_filter, beq_iff_eq, Prod.exists, List.mk_mem_zipIdx_iff_getElem?]
  constructor
  · rintro ⟨p', d, e, k, i, ⟨h, rfl⟩, rfl⟩
    exact h
  · intro h
    exact ⟨p, x.2.1, x.2.2.1, x.2.2.2, x.1, ⟨h, rfl⟩, rfl⟩

theorem answerLocal_ok (dist : Distributed n G fam nd) (hD : AllDofs n G fam nd D) {q p : Nat}
    (hq : q < n) (hne : p ≠ q) :
    answerLocal (D p).entityDofs ((gh D q p).map fun x => x.2.1) ((gh D q p).map fun x => x.2.2.1)
      ((gh D q p).map fun x => x.2.2.2) = some (locAns D q p) := by
  unfold answerLocal locAns
  have hz : ((gh D q p).map fun x => x.2.1).zip (((gh D q p).map fun x => x.2.2.1).zip
      ((gh D q p).map fun x => x.2.2.2)) = (gh D q p).map fun x => (x.2.1, x.2.2.1, x.2.2.2) := by
    rw [List.zip_map', List.zip_map']
  rw [hz, mapM_some _ (fun x => lookupDof D p x.1 x.2.1 x.2.2)]
  · simp [Function.comp_def]
  · intro x hx
    obtain ⟨y, hy, rfl⟩ := List.mem_map.mp hx
    unfold gh at hy
    rw [mem_ghostList] at hy
    obtain ⟨l, hl, _⟩ := hD.ghost_target dist hq hy hne
    simp only at hl ⊢
    unfold lookupDof
    rw [hl]
    unfold DofState.ent at hl
    rw [Option.bind_assoc] at hl
    exact hl

theorem answerGlobal_ok (dist : Distributed n G fam nd) (hD : AllDofs n G fam nd D) {q p : Nat}
    (hq : q < n) (hne : p ≠ q) :
    answerGlobal ((List.range (D p).size).map (num D p)) (locAns D q p) = some (gloAns D q p) := by
  unfold answerGlobal gloAns
  apply mapM_some
  intro i hi
  unfold locAns at hi
  obtain ⟨y, hy, rfl⟩ := List.mem_map.mp hi
  unfold gh at hy
  rw [mem_ghostList] at hy
  obtain ⟨l, hl, hlt, _⟩ := hD.ghost_target dist hq hy hne
  simp only at hl hlt
  have : lookupDof D p y.2.1 y.2.2.1 y.2.2.2 = l := by unfold lookupDof; rw [hl]; rfl
  rw [this, List.getElem?_map, List.getElem?_range hlt]
  rfl

/-- Intermediate state of the last phase: answers of the processes in `pre` are stored. -/
noncomputable def ghostSt (D : Nat → DofState) (r : Nat) (done : Nat → Prop) : List Nat × List Ownership :=
  open Classical in
  ((List.range (D r).size).map fun j => if done j then gnum D r j else num D r j,
   (List.range (D r).size).map fun j => if done j then gown D r j else .owned)

/-- Position `j` of process `r` belongs to one of the processes in `l`. -/
def OwnerIn (D : Nat → DofState) (r : Nat) (l : List Nat) (j : Nat) : Prop :=
  ∃ o, (D r).ownerData[j]? = some o ∧ o.1 ∈ l

theorem ghostSt_congr {r : Nat} {P Q : Nat → Prop} (h : ∀ j, j < (D r).size → (P j ↔ Q j)) :
    ghostSt D r P = ghostSt D r Q := by
  unfold ghostSt
  congr 1
  · apply List.map_congr_left
    intro j hj
    have h := h j (by simpa using hj)
    by_cases hP : P j
    · rw [if_pos hP, if_pos (h.mp hP)]
    · rw [if_neg hP, if_neg fun hq => hP (h.mpr hq)]
  · apply List.map_congr_left
    intro j hj
    have h := h j (by simpa using hj)
    by_cases hP : P j
    · rw [if_pos hP, if_pos (h.mp hP)]
    · rw [if_neg hP, if_neg fun hq => hP (h.mpr hq)]

theorem ghostSt_inner (hD : AllDofs n G fam nd D) {r p : Nat}
    (hr : r < n) (hne : p ≠ r) (pre : List Nat) :
    ((gh D r p).zip ((locAns D r p).zip (gloAns D r p))).foldlM (ghostStep p)
      (ghostSt D r (OwnerIn D r pre)) = some (ghostSt D r (OwnerIn D r (pre ++ [p]))) := by
  have hz : (gh D r p).zip ((locAns D r p).zip (gloAns D r p)) =
      ((D r).ownerData.zipIdx.filter fun x => x.1.1 == p).map fun x =>
        ((x.2, x.1.2.1, x.1.2.2.1, x.1.2.2.2), (lookupDof D p x.1.2.1 x.1.2.2.1 x.1.2.2.2,
          num D p (lookupDof D p x.1.2.1 x.1.2.2.1 x.1.2.2.2))) := by
    unfold gloAns locAns gh ghostList
    rw [List.map_map, List.map_map, List.zip_map', List.zip_map']
    rfl
  rw [hz, foldlM_map]
  have hloop := foldlM_inv (fun st (x : (Nat × Nat × Nat × Nat) × Nat) => ghostStep p st
        ((x.2, x.1.2.1, x.1.2.2.1, x.1.2.2.2), (lookupDof D p x.1.2.1 x.1.2.2.1 x.1.2.2.2,
          num D p (lookupDof D p x.1.2.1 x.1.2.2.1 x.1.2.2.2))))
    (fun pre2 st => st = ghostSt D r fun j => OwnerIn D r pre j ∨ j ∈ pre2.map Prod.snd)
    ((D r).ownerData.zipIdx.filter fun x => x.1.1 == p) (ghostSt D r (OwnerIn D r pre))
    (by simp)
    (by
      rintro pre2 ⟨o, i⟩ post st hl rfl
      have hmem : (o, i) ∈ (D r).ownerData.zipIdx.filter fun x => x.1.1 == p := by rw [hl]; simp
      rw [List.mem_filter, List.mk_mem_zipIdx_iff_getElem?] at hmem
      obtain ⟨hoi, hop⟩ := hmem
      simp only [beq_iff_eq] at hop
      have hi : i < (D r).size := by
        rw [← hD.length hr]; exact (List.getElem?_eq_some_iff.mp hoi).1
      refine ⟨_, ?_, rfl⟩
      unfold ghostStep
      rw [if_pos (by unfold ghostSt; simpa using hi)]
      simp only [Option.some.injEq]
      unfold ghostSt
      simp only [map_range_set]
      have hg : gnum D r i = num D p (lookupDof D p o.2.1 o.2.2.1 o.2.2.2) := by
        unfold gnum; rw [hoi]; simp only [hop]; rw [if_neg hne]
      have hw : gown D r i = .ghost p (lookupDof D p o.2.1 o.2.2.1 o.2.2.2) := by
        unfold gown; rw [hoi]; simp only [hop]; rw [if_neg hne]
      congr 1
      · apply List.map_congr_left
        intro j _
        by_cases hj : j = i
        · subst hj; simp [hg]
        · rw [if_neg hj]
          split
          · rename_i h; rw [if_pos (by rcases h with h | h; exacts [Or.inl h, Or.inr (by simp [h])])]
          · rename_i h
            rw [if_neg (by simpa [hj] using h)]
      · apply List.map_congr_left
        intro j _
        by_cases hj : j = i
        · subst hj; simp [hw]
        · rw [if_neg hj]
          split
          · rename_i h; rw [if_pos (by rcases h with h | h; exacts [Or.inl h, Or.inr (by simp [h])])]
          · rename_i h
            rw [if_neg (by simpa [hj] using h)])
  obtain ⟨st, hst, rfl⟩ := hloop
  rw [hst]
  congr 1
  apply ghostSt_congr
  intro j hj
  simp only [OwnerIn, List.mem_append, List.mem_singleton, List.mem_map, List.mem_filter, beq_iff_eq]
  constructor
  · rintro (⟨o, h1, h2⟩ | ⟨⟨o, i⟩, ⟨h1, h2⟩, rfl⟩)
    · exact ⟨o, h1, Or.inl h2⟩
    · rw [List.mk_mem_zipIdx_iff_getElem?] at h1
      exact ⟨o, h1, Or.inr h2⟩
  · rintro ⟨o, h1, h2 | h2⟩
    · exact Or.inl ⟨o, h1, h2⟩
    · exact Or.inr ⟨(o, j), ⟨List.mk_mem_zipIdx_iff_getElem?.mpr h1, h2⟩, rfl⟩

theorem offs_succ (D : Nat → DofState) (r : Nat) :
    offs D (r + 1) = offs D r + ownedCount r (D r).ownerData := by
  simp [offs, List.range_succ]

/-- `FunctionSpace::new` follows the trace and returns `spaceOf`. -/
theorem new_runs (dist : Distributed n G fam nd) (hD : AllDofs n G fam nd D) {r : Nat} (hr : r < n) :
    Runs (FunctionSpace.new r n (G r) fam) (traceOf n D r) (spaceOf n G fam D r) := by
  obtain ⟨st, hst, h1, h2, h3, h4⟩ := numberOwned_spec r n (D r).ownerData (offs D r)
    (fun o ho => hD.owner_lt dist hr ho)
  rw [hD.length hr] at hst h2
  have h1' : st.dofN = offs D (r + 1) := by rw [h1, offs_succ]
  have h2' : st.globalDofNumbers = (List.range (D r).size).map (num D r) := h2
  have hgh : ∀ p, p ∈ others r n → st.ghosts[p]? = some (gh D r p) := by
    intro p hp
    obtain ⟨hp1, hp2⟩ := mem_others.mp hp
    exact h4 p hp1 hp2
  unfold FunctionSpace.new traceOf
  refine (Runs.lift (hD.eq r hr)).bind ?_
  refine Runs.bind (a := offs D r) ?_ ?_
  · unfold recvOffset trOffRecv
    by_cases h0 : r = 0
    · subst h0; simp only [if_true]; exact .done 0
    · simp only [h0, if_false]
      exact .recv (.done _)
  refine (Runs.lift hst).bind ?_
  refine Runs.bind (a := ()) ?_ ?_
  · unfold sendOffset trOffSend
    by_cases h : r + 1 < n
    · simp only [h, if_true, h1']; exact .send (.done _)
    · simp only [h, if_false]; exact .done _
  refine Runs.bind (a := offs D n) ?_ ?_
  · unfold exchangeSize trSize
    by_cases h : r + 1 = n
    · simp only [h, if_true, h1']
      have := (runs_forM (fun p => Prog.sendTo p [offs D n]) (fun p => [(Act.send p [offs D n], 2 * n)])
        (List.range r) (fun p _ => .send (.done _))).bind (f := fun _ => Prog.done (offs D n)) (Runs.done (offs D n))
      simpa using this
    · simp only [h, if_false]
      exact .recv (.done _)
  refine Runs.bind (a := ()) ?_ ?_
  · unfold sendRequests
    apply runs_forM
    intro p hp
    rw [hgh p hp]
    exact .send (.send (.send (.done _)))
  refine Runs.bind (a := ()) ?_ ?_
  · unfold answerRequests
    apply runs_forM
    intro p hp
    obtain ⟨hp1, hp2⟩ := mem_others.mp hp
    refine .recv (.recv (.recv ?_))
    refine (Runs.lift (answerLocal_ok dist hD hp1 hp2.symm)).bind ?_
    refine (Runs.lift (by rw [h2']; exact answerGlobal_ok dist hD hp1 hp2.symm)).bind ?_
    exact .send (.send (.done _))
  have hfin : ghostSt D r (OwnerIn D r (others r n)) =
      ((List.range (D r).size).map (gnum D r), (List.range (D r).size).map (gown D r)) := by
    have hcase : ∀ j, j < (D r).size → OwnerIn D r (others r n) j ∨
        (gnum D r j = num D r j ∧ gown D r j = .owned) := by
      intro j hj
      rw [← hD.length hr] at hj
      obtain ⟨o, ho⟩ : ∃ o, (D r).ownerData[j]? = some o := ⟨_, List.getElem?_eq_getElem hj⟩
      by_cases h : o.1 = r
      · right; unfold gnum gown; rw [ho]; simp [h]
      · left; exact ⟨o, ho, mem_others.mpr ⟨hD.owner_lt dist hr (List.mem_of_getElem? ho), h⟩⟩
    unfold ghostSt
    congr 1
    · apply List.map_congr_left
      intro j hj
      rcases hcase j (by simpa using hj) with h | h
      · rw [if_pos h]
      · rw [h.1]; split <;> rfl
    · apply List.map_congr_left
      intro j hj
      rcases hcase j (by simpa using hj) with h | h
      · rw [if_pos h]
      · rw [h.2]; split <;> rfl
  have hlast := runs_foldlM (fun acc p => do
        let loc ← Prog.recvVec p
        let glo ← Prog.recvVec p
        let gh ← Prog.lift st.ghosts[p]?
        Prog.lift ((gh.zip (loc.zip glo)).foldlM (ghostStep p) acc))
      (trRep n D r) (others r n) (fun pre => ghostSt D r (OwnerIn D r pre))
      (by
        intro pre p post hl
        have hp : p ∈ others r n := by rw [hl]; simp
        obtain ⟨hp1, hp2⟩ := mem_others.mp hp
        refine .recv (.recv ?_)
        refine (Runs.lift (hgh p hp)).bind ?_
        exact Runs.lift (ghostSt_inner hD hr hp2 pre))
  have h0 : ghostSt D r (OwnerIn D r []) =
      (st.globalDofNumbers, List.replicate (D r).size Ownership.owned) := by
    unfold ghostSt
    rw [h2']
    have : ∀ j, ¬ OwnerIn D r [] j := by rintro j ⟨o, _, h⟩; simp at h
    simp only [this, if_false]
    congr 1
    apply List.ext_getElem?
    intro j
    by_cases hj : j < (D r).size <;> simp [hj]
  rw [h0, hfin] at hlast
  have hb := hlast.bind (β := FunctionSpace) (f := fun (fin : List Nat × List Ownership) => Prog.done
    ({ grid := G r
       commSize := n
       elements := ((G r).entityTypes (G r).topologyDim).map fun t => (t, fam t)
       entityDofs := (D r).entityDofs
       cellDofsVec := (D r).cellDofs
       localSize := (D r).size
       globalSize := offs D n
       globalDofNumbers := fin.1
       ownershipVec := fin.2 } : FunctionSpace)) (Runs.done (spaceOf n G fam D r))
  rw [List.append_nil] at hb
  exact hb

end
end Bempp
