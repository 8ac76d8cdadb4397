import Verif.Proofs.Sync
import Verif.Lemmas.Count
import Verif.Spec.Examples
/-
C19-C21: the distributed numbering.
-/
namespace Bempp
open Examples

variable {n : Nat} {G : Nat → Grid} {fam : CellType → ElementDofs} {nd : Nat → Nat → Nat → Nat}

/-- All `n` processes call `FunctionSpace::new` on their part of the grid. -/
def launch (n : Nat) (G : Nat → Grid) (fam : CellType → ElementDofs) : Config FunctionSpace :=
  Config.init fun r => FunctionSpace.new r n (G r) fam

/-- `sp r` is what process `r` has got at the end of some execution, in any order of the steps. -/
def Finished (n : Nat) (G : Nat → Grid) (fam : CellType → ElementDofs) (sp : Nat → FunctionSpace) :
    Prop :=
  ∃ k c, Config.Reach (Config.Step n) k (launch n G fam) c ∧ ∀ r, r < n → c.prog r = .done (sp r)

/-- **C21** (sends that complete without waiting for the receiver). Whatever the relative speed of the
processes, every execution has at most `K` steps, no process panics, an execution in which not all
processes have returned can continue, and when all have returned their spaces are the same in every
execution and no message is left over. -/
theorem C21_terminates_partial (dist : Distributed n G fam nd) :
    ∃ (K : Nat) (sp : Nat → FunctionSpace), ∀ k c,
      Config.Reach (Config.Step n) k (launch n G fam) c →
        k ≤ K ∧ (∀ r, r < n → c.prog r ≠ .panic) ∧
        ((∃ c', Config.Step n c c') ∨
          ((∀ r, r < n → c.prog r = .done (sp r)) ∧
            ∀ s d, s < n → d < n → c.chan s d = [])) := by
  obtain ⟨D, hD⟩ := allDofs_exists n G fam nd dist
  have hM := traceOf_matching n D
  refine ⟨doneCount n (traceOf n D), spaceOf n G fam D, ?_⟩
  intro k c hk
  obtain ⟨pre, suf, inv, rfl⟩ := net_reach hM (fun r hr => new_runs dist hD hr) hk rfl
  refine ⟨doneCount_le pre suf inv.split, ?_, ?_⟩
  · intro r hr h
    have := inv.runs r hr
    rw [h] at this
    cases this
  · rcases net_progress hM inv with h | h
    · exact Or.inl h
    · right
      refine ⟨h, ?_⟩
      intro s d hs hd
      have hnil : ∀ r, r < n → suf r = [] := by
        intro r hr
        have := inv.runs r hr
        rw [h r hr] at this
        generalize suf r = t at this
        cases this; rfl
      have h1 := inv.chan s d hs hd
      have h2 := forall2_map_fst (hM.chan s d hs hd)
      rw [inv.split s hs, inv.split d hd, hnil s hs, hnil d hd, List.append_nil, List.append_nil, h1]
        at h2
      simpa using h2

/-- **C21 is false for synchronous sends** (which MPI allows): on two or more processes no execution
ever lets a process return, although every execution stops. -/
theorem C21_rendezvous_deadlock (dist : Distributed n G fam nd) (hn : 2 ≤ n) :
    ∃ K : Nat, ∀ k c, Config.Reach (Config.SyncStep n) k (launch n G fam) c →
      k ≤ K ∧ ∀ r, r < n → ∀ sp, c.prog r ≠ .done sp := by
  obtain ⟨D, hD⟩ := allDofs_exists n G fam nd dist
  refine ⟨doneCount n (traceOf n D), ?_⟩
  intro k c hk
  obtain ⟨pre, suf, inv, hcount, _, hpre⟩ := sync_reach hn (fun r hr => new_runs dist hD hr) hk rfl
  refine ⟨?_, ?_⟩
  · have := doneCount_le pre suf inv.split
    omega
  · intro r hr sp h
    have hrun := inv.runs r hr
    rw [h] at hrun
    have hnil : suf r = [] := by
      generalize suf r = t at hrun
      cases hrun; rfl
    obtain ⟨p, m, _, hmem⟩ := req_mem D hn hr
    rw [inv.split r hr, hnil, List.append_nil] at hmem
    have := hpre r hr _ hmem
    simp only at this
    omega

/-- The spaces of a finished execution. -/
theorem finished_spaces (dist : Distributed n G fam nd) {sp : Nat → FunctionSpace}
    (h : Finished n G fam sp) :
    ∃ D, AllDofs n G fam nd D ∧ ∀ r, r < n → sp r = spaceOf n G fam D r := by
  obtain ⟨D, hD⟩ := allDofs_exists n G fam nd dist
  refine ⟨D, hD, ?_⟩
  obtain ⟨k, c, hk, hfin⟩ := h
  obtain ⟨pre, suf, inv, _⟩ := net_reach (traceOf_matching n D) (fun r hr => new_runs dist hD hr) hk rfl
  intro r hr
  have := inv.runs r hr
  rw [hfin r hr] at this
  generalize spaceOf n G fam D r = s at this ⊢
  generalize sp r = s' at this ⊢
  generalize suf r = t at this
  cases this; rfl

section
variable {D : Nat → DofState}

theorem spaceOf_global {r i : Nat} :
    (spaceOf n G fam D r).globalDofIndex i = if i < (D r).size then some (gnum D r i) else none := by
  simp only [FunctionSpace.globalDofIndex, spaceOf, List.getElem?_map]
  split
  · rename_i h; rw [List.getElem?_range h]; rfl
  · rename_i h; rw [List.getElem?_eq_none (by simpa using h)]; rfl

theorem spaceOf_ownership {r i : Nat} :
    (spaceOf n G fam D r).ownership i = if i < (D r).size then some (gown D r i) else none := by
  simp only [FunctionSpace.ownership, spaceOf, List.getElem?_map]
  split
  · rename_i h; rw [List.getElem?_range h]; rfl
  · rename_i h; rw [List.getElem?_eq_none (by simpa using h)]; rfl

theorem spaceOf_owned (hD : AllDofs n G fam nd D) {r i : Nat} (hr : r < n)
    (h : (spaceOf n G fam D r).ownership i = some .owned) :
    i < (D r).size ∧ ∃ o, (D r).ownerData[i]? = some o ∧ o.1 = r := by
  rw [spaceOf_ownership] at h
  split at h
  · rename_i hi
    refine ⟨hi, ?_⟩
    have hi' : i < (D r).ownerData.length := by rw [hD.length hr]; exact hi
    refine ⟨(D r).ownerData[i], by simp [hi'], ?_⟩
    by_contra hne
    simp [gown, hi', hne] at h
  · cases h

theorem gnum_owned {r i : Nat} {o : Nat × Nat × Nat × Nat} (ho : (D r).ownerData[i]? = some o)
    (hr : o.1 = r) :
    gnum D r i = offs D r + ownedCount r ((D r).ownerData.take i) := by
  simp [gnum, num, numOf, ho, hr]

theorem offs_mono (D : Nat → DofState) {a b : Nat} (h : a ≤ b) : offs D a ≤ offs D b := by
  induction h with
  | refl => exact Nat.le_refl _
  | step _ ih => rw [offs_succ]; omega

theorem offs_find (D : Nat → DofState) (n N : Nat) (h : N < offs D n) :
    ∃ r, r < n ∧ offs D r ≤ N ∧ N < offs D (r + 1) := by
  induction n with
  | zero => simp [offs] at h
  | succ n ih =>
    by_cases hlt : N < offs D n
    · obtain ⟨r, h1, h2⟩ := ih hlt
      exact ⟨r, by omega, h2⟩
    · exact ⟨n, by omega, by omega, h⟩

/-- Bounds of the number of an owned DOF. -/
theorem gnum_range {r i : Nat} {o : Nat × Nat × Nat × Nat} (ho : (D r).ownerData[i]? = some o)
    (hr : o.1 = r) : offs D r ≤ gnum D r i ∧ gnum D r i < offs D (r + 1) := by
  rw [gnum_owned ho hr, offs_succ]
  have := countP_take_lt_total (fun o : Nat × Nat × Nat × Nat => o.1 == r) (D r).ownerData ho
    (by simpa using hr)
  unfold ownedCount
  omega

theorem gnum_inj {r i r' i' : Nat} {o o' : Nat × Nat × Nat × Nat}
    (ho : (D r).ownerData[i]? = some o) (hr : o.1 = r) (ho' : (D r').ownerData[i']? = some o')
    (hr' : o'.1 = r') (h : gnum D r i = gnum D r' i') : r = r' ∧ i = i' := by
  have h1 := gnum_range ho hr
  have h2 := gnum_range ho' hr'
  have hrr : r = r' := by
    rcases Nat.lt_trichotomy r r' with hlt | heq | hlt
    · have := offs_mono D (a := r + 1) (b := r') hlt; omega
    · exact heq
    · have := offs_mono D (a := r' + 1) (b := r) hlt; omega
  subst hrr
  refine ⟨rfl, ?_⟩
  rw [gnum_owned ho hr, gnum_owned ho' hr'] at h
  exact countP_take_inj (fun o : Nat × Nat × Nat × Nat => o.1 == r) _ ho ho' (by simpa using hr)
    (by simpa using hr') (by unfold ownedCount at h; omega)

end

/-- **C19.** All processes report the same global size, and the global numbers of the owned DOFs of
all processes together are `0 .. global_size-1`, each taken exactly once. -/
theorem C19_global_numbering (dist : Distributed n G fam nd) {sp : Nat → FunctionSpace}
    (h : Finished n G fam sp) :
    ∃ total, (∀ r, r < n → (sp r).globalSize = total) ∧
      (∀ r, r < n → ∀ i N, (sp r).ownership i = some .owned → (sp r).globalDofIndex i = some N →
        N < total) ∧
      (∀ N, N < total → ∃! x : Nat × Nat, x.1 < n ∧ (sp x.1).ownership x.2 = some .owned ∧
        (sp x.1).globalDofIndex x.2 = some N) := by
  obtain ⟨D, hD, hsp⟩ := finished_spaces dist h
  refine ⟨offs D n, fun r hr => by rw [hsp r hr]; rfl, ?_, ?_⟩
  · intro r hr i N ho hN
    rw [hsp r hr] at ho hN
    obtain ⟨hi, o, ho1, ho2⟩ := spaceOf_owned hD hr ho
    rw [spaceOf_global, if_pos hi] at hN
    cases hN
    have h1 := (gnum_range ho1 ho2).2
    have h2 := offs_mono D (a := r + 1) (b := n) hr
    omega
  · intro N hN
    obtain ⟨r, hr, h1, h2⟩ := offs_find D n N hN
    rw [offs_succ] at h2
    obtain ⟨i, o, hi, hP, hc⟩ := countP_take_exists (fun o : Nat × Nat × Nat × Nat => o.1 == r)
      (D r).ownerData (N - offs D r) (by unfold ownedCount at h2; omega)
    have hor : o.1 = r := by simpa using hP
    have hisz : i < (D r).size := by
      rw [← hD.length hr]; exact (List.getElem?_eq_some_iff.mp hi).1
    refine ⟨(r, i), ⟨hr, ?_, ?_⟩, ?_⟩
    · simp only
      rw [hsp r hr, spaceOf_ownership, if_pos hisz]
      simp [gown, hi, hor]
    · simp only
      rw [hsp r hr, spaceOf_global, if_pos hisz, gnum_owned hi hor]
      unfold ownedCount
      simp only [Option.some.injEq]
      omega
    · rintro ⟨r', i'⟩ ⟨hr', ho', hN'⟩
      simp only at hr' ho' hN'
      rw [hsp r' hr'] at ho' hN'
      obtain ⟨hi', o', ho1', ho2'⟩ := spaceOf_owned hD hr' ho'
      rw [spaceOf_global, if_pos hi'] at hN'
      simp only [Option.some.injEq] at hN'
      have hg : gnum D r i = N := by
        rw [gnum_owned hi hor]; unfold ownedCount; omega
      obtain ⟨rfl, rfl⟩ := gnum_inj hi hor ho1' ho2' (by rw [hg, hN'])
      rfl

/-- **C20.** Let DOF `i` of process `r` be at position `k` of entity `(d, e)`. If the entity is owned
the DOF is `Owned`. If it is a ghost of entity `e'` of process `p`, then the DOF is `Ghost(p, l)` where
`l` is the DOF at position `k` of entity `(d, e')` on process `p`, `l` is `Owned` there and both have
the same global number. -/
theorem C20_ghosts (dist : Distributed n G fam nd) {sp : Nat → FunctionSpace}
    (h : Finished n G fam sp) {r : Nat} (hr : r < n) {d : Nat} (hd : d ≤ 2) (ent : Entity)
    (hent : ent ∈ (G r).entityIter d) (L : List Nat)
    (hL : (sp r).getLocalDofNumbers d ent.localIndex = some L) (k i : Nat) (hk : L[k]? = some i) :
    (ent.ownership = .owned → (sp r).ownership i = some .owned) ∧
    (∀ p e', ent.ownership = .ghost p e' → p < n ∧ p ≠ r ∧
      ∃ L' l N, (sp p).getLocalDofNumbers d e' = some L' ∧ L'[k]? = some l ∧
        (sp r).ownership i = some (.ghost p l) ∧ (sp p).ownership l = some .owned ∧
        (sp r).globalDofIndex i = some N ∧ (sp p).globalDofIndex l = some N) := by
  obtain ⟨D, hD, hsp⟩ := finished_spaces dist h
  obtain ⟨loc, h1, h2, h3, _⟩ := (hD.inv r hr).loc
  have hL' : (D r).ent d ent.localIndex = some L := by
    rw [hsp r hr] at hL; exact hL
  have hloc := (h3 d ent.localIndex k i).mp (by rw [hL']; exact hk)
  have hi : i < (D r).size := by rw [← h1]; exact (List.getElem?_eq_some_iff.mp hloc).1
  have hod : (D r).ownerData[i]? = some (ownerOf r (G r) (d, ent.localIndex, k)) := by
    rw [h2, List.getElem?_map, hloc]; rfl
  have hge := (dist.wf r hr).entity d hd ent hent
  constructor
  · intro ho
    rw [hsp r hr, spaceOf_ownership, if_pos hi]
    simp [gown, hod, ownerOf, hge, ho]
  · intro p e' hg
    obtain ⟨hp, hpr, _, _⟩ := dist.ghost r hr d hd ent hent p e' hg
    refine ⟨hp, hpr, ?_⟩
    have hod' : (D r).ownerData[i]? = some (p, d, e', k) := by
      rw [hod]; simp [ownerOf, hge, hg]
    obtain ⟨l, hl, hlt, hol⟩ := hD.ghost_target dist hr hod' hpr
    simp only at hl hlt hol
    have hlook : lookupDof D p d e' k = l := by unfold lookupDof; rw [hl]; rfl
    have hb := hl
    rw [Option.bind_eq_some_iff] at hb
    obtain ⟨L', hL1, hL2⟩ := hb
    refine ⟨L', l, gnum D p l, ?_, hL2, ?_, ?_, ?_, ?_⟩
    · rw [hsp p hp]; exact hL1
    · rw [hsp r hr, spaceOf_ownership, if_pos hi]
      simp [gown, hod', hpr, hlook]
    · rw [hsp p hp, spaceOf_ownership, if_pos hlt]
      simp [gown, hol]
    · rw [hsp r hr, spaceOf_global, if_pos hi]
      simp [gnum, hod', hpr, hlook, hol]
    · rw [hsp p hp, spaceOf_global, if_pos hlt]

/-- C20, last sentence: different DOFs of one process have different global numbers. -/
theorem C20_local_injective (dist : Distributed n G fam nd) {sp : Nat → FunctionSpace}
    (h : Finished n G fam sp) {r : Nat} (hr : r < n) (i j N : Nat)
    (hi : (sp r).globalDofIndex i = some N) (hj : (sp r).globalDofIndex j = some N) : i = j := by
  obtain ⟨D, hD, hsp⟩ := finished_spaces dist h
  rw [hsp r hr, spaceOf_global] at hi hj
  split at hi
  swap
  · cases hi
  split at hj
  swap
  · cases hj
  rename_i hi' hj'
  have heq : gnum D r i = gnum D r j := by
    simp only [Option.some.injEq] at hi hj; rw [hi, hj]
  -- the owner of a DOF and its number there
  have key : ∀ i, i < (D r).size → ∃ o p l, (D r).ownerData[i]? = some o ∧ p < n ∧ o.1 = p ∧
      gnum D r i = gnum D p l ∧ (D p).ownerData[l]? = some o ∧ (p = r → l = i) := by
    intro i hi
    have hi2 : i < (D r).ownerData.length := by rw [hD.length hr]; exact hi
    have ho : (D r).ownerData[i]? = some (D r).ownerData[i] := by simp [hi2]
    by_cases hor : (D r).ownerData[i].1 = r
    · exact ⟨_, r, i, ho, hr, hor, rfl, ho, fun _ => rfl⟩
    · obtain ⟨l, hl, hlt, hol⟩ := hD.ghost_target dist hr ho hor
      refine ⟨_, (D r).ownerData[i].1, l, ho, hD.owner_lt dist hr (List.getElem_mem hi2), rfl, ?_, hol,
        fun h => absurd h hor⟩
      have hlook : lookupDof D (D r).ownerData[i].1 (D r).ownerData[i].2.1 (D r).ownerData[i].2.2.1
          (D r).ownerData[i].2.2.2 = l := by unfold lookupDof; rw [hl]; rfl
      simp only [gnum, ho, hor, if_false, hlook, hol, if_true]
  obtain ⟨o, p, l, hoi, hp, hop, hg, hol, hpl⟩ := key i hi'
  obtain ⟨o', p', l', hoi', hp', hop', hg', hol', hpl'⟩ := key j hj'
  obtain ⟨rfl, rfl⟩ := gnum_inj hol hop hol' hop' (by rw [← hg, ← hg', heq])
  rw [hol] at hol'
  cases hol'
  -- the same owner entry at two positions
  obtain ⟨d, e, k, ent, hd, hent, hei, hbi, _, hcase⟩ := hD.owner dist hr hoi
  obtain ⟨d', e', k', ent', hd', hent', hei', hbj, _, hcase'⟩ := hD.owner dist hr hoi'
  have hde : d = d' ∧ e = e' ∧ k = k' := by
    rcases hcase with ⟨hown, ho⟩ | ⟨q, x, hgh, ho⟩ <;> rcases hcase' with ⟨hown', ho'⟩ | ⟨q', x', hgh', ho'⟩
    · rw [ho] at ho'
      simp only [Prod.mk.injEq, true_and] at ho'
      exact ho'
    · have := (dist.ghost r hr d' hd' ent' hent' q' x' hgh').2.1
      rw [ho] at ho'
      simp only [Prod.mk.injEq] at ho'
      exact absurd ho'.1.symm this
    · have := (dist.ghost r hr d hd ent hent q x hgh).2.1
      rw [ho] at ho'
      simp only [Prod.mk.injEq] at ho'
      exact absurd ho'.1 this
    · rw [ho] at ho'
      simp only [Prod.mk.injEq] at ho'
      obtain ⟨rfl, rfl, rfl, rfl⟩ := ho'
      refine ⟨rfl, ?_, rfl⟩
      rw [← hei, ← hei']
      exact dist.ghost_inj r hr d hd ent hent ent' hent' q x hgh hgh'
  obtain ⟨rfl, rfl, rfl⟩ := hde
  rw [hbi] at hbj
  cases hbj
  rfl

/-- Some execution finishes, so `Finished` is not vacuous. -/
theorem finished_exists (dist : Distributed n G fam nd) : ∃ sp, Finished n G fam sp := by
  obtain ⟨K, sp, hK⟩ := C21_terminates_partial dist
  refine ⟨sp, ?_⟩
  have : ∀ m, ∃ k c, Config.Reach (Config.Step n) k (launch n G fam) c ∧
      (k ≥ m ∨ ∀ r, r < n → c.prog r = .done (sp r)) := by
    intro m
    induction m with
    | zero => exact ⟨0, _, .refl _, Or.inl (Nat.zero_le _)⟩
    | succ m ih =>
      obtain ⟨k, c, hc, h⟩ := ih
      rcases h with h | h
      · rcases (hK k c hc).2.2 with ⟨c', hc'⟩ | ⟨h', _⟩
        · exact ⟨k + 1, c', .tail hc hc', Or.inl (by omega)⟩
        · exact ⟨k, c, hc, Or.inr h'⟩
      · exact ⟨k, c, hc, Or.inr h⟩
  obtain ⟨k, c, hc, h⟩ := this (K + 1)
  rcases h with h | h
  · have := (hK k c hc).1
    omega
  · exact ⟨k, c, hc, h⟩

/-! ### The hypotheses can be met -/

/-- Two triangles on two processes. Each process owns one triangle and sees the other as a ghost; the
processes number vertices and edges differently. -/
def twoParts (r : Nat) : Grid :=
  if r = 0 then
    mkGrid 10 4 [(.triangle, [0, 1, 2]), (.triangle, [1, 3, 2])] fun d i => match d, i with
      | 0, 3 => .ghost 1 1
      | 1, 3 => .ghost 1 0
      | 1, 4 => .ghost 1 2
      | 2, 1 => .ghost 1 0
      | _, _ => .owned
  else
    mkGrid 11 4 [(.triangle, [0, 1, 2]), (.triangle, [3, 0, 2])] fun d i => match d, i with
      | 0, 0 => .ghost 0 1
      | 0, 2 => .ghost 0 2
      | 0, 3 => .ghost 0 0
      | 1, 1 => .ghost 0 0
      | 1, 3 => .ghost 0 1
      | 1, 4 => .ghost 0 2
      | 2, 1 => .ghost 0 0
      | _, _ => .owned

theorem lt2 {P : Nat → Prop} (h0 : P 0) (h1 : P 1) : ∀ r, r < 2 → P r
  | 0, _ => h0
  | 1, _ => h1

theorem twoParts_wf : ∀ r, r < 2 → (twoParts r).WF := by
  apply lt2 <;> exact
    { tdim := rfl
      index := le2 (by decide) (by decide) (by decide)
      entity := le2 (by intro e he; fin_cases he <;> rfl) (by intro e he; fin_cases he <;> rfl)
        (by intro e he; fin_cases he <;> rfl)
      types := by decide
      sub_lt := by
        intro c hc
        apply le2 <;> revert c <;> decide
      sub_nodup := by
        intro c hc
        apply le2 <;> revert c <;> decide
      sub_length := by
        intro c hc
        apply le2 <;> revert c <;> decide
      sub_self := by decide
      cell_types := by decide
      types_nodup := by decide
      types0 := rfl
      types1 := rfl
      covered := le2 (by decide) (by decide) (by decide) }

/-- The ghost entries of one part, as a finite list that can be checked. -/
def ghostsOf (g : Grid) (d : Nat) : List (Nat × Nat × Nat) :=
  (g.entityIter d).filterMap fun e => match e.ownership with
    | .ghost p i => some (e.localIndex, p, i)
    | .owned => none

theorem mem_ghostsOf {g : Grid} {d : Nat} {e : Entity} (he : e ∈ g.entityIter d) {p i : Nat}
    (h : e.ownership = .ghost p i) : (e.localIndex, p, i) ∈ ghostsOf g d := by
  unfold ghostsOf
  rw [List.mem_filterMap]
  exact ⟨e, he, by rw [h]⟩

theorem twoParts_dist : Distributed 2 twoParts p1 (fun _ d _ => if d = 0 then 1 else 0) where
  pos := by decide
  wf := twoParts_wf
  family := by
    intro r hr
    refine ⟨?_, ?_⟩
    · intro t ht
      refine p1_wf t ?_
      revert ht
      revert t
      revert r
      apply lt2 <;> decide
    · intro c _ d _ i e _ l hl
      simp only [p1] at hl
      split at hl
      · cases hl; split <;> rfl
      · cases hl
  ghost := by
    intro r hr d hd e he p i h
    have hm := mem_ghostsOf he h
    have key : ∀ r, r < 2 → ∀ d, d ≤ 2 → ∀ x ∈ ghostsOf (twoParts r) d, x.2.1 < 2 ∧ x.2.1 ≠ r ∧
        (∃ e' ∈ (twoParts x.2.1).entityIter d, e'.localIndex = x.2.2 ∧ e'.ownership = .owned) := by
      apply lt2 <;> apply le2 <;> decide
    obtain ⟨h1, h2, h3⟩ := key r hr d hd _ hm
    exact ⟨h1, h2, h3, rfl⟩
  ghost_inj := by
    intro r hr d hd e he e' he' p i h h'
    have key : ∀ r, r < 2 → ∀ d, d ≤ 2 → ∀ x ∈ ghostsOf (twoParts r) d,
        ∀ y ∈ ghostsOf (twoParts r) d, x.2 = y.2 → x.1 = y.1 := by
      apply lt2 <;> apply le2 <;> decide
    exact key r hr d hd _ (mem_ghostsOf he h) _ (mem_ghostsOf he' h') rfl

/-- On this grid an execution finishes; process 0 sees the vertex 3 as a ghost of vertex 1 of process 1,
and (C20) their DOFs have the same global number. -/
example : ∃ sp, Finished 2 twoParts p1 sp ∧ ∃ L L' i l N,
    (sp 0).getLocalDofNumbers 0 3 = some L ∧ L[0]? = some i ∧ (sp 1).getLocalDofNumbers 0 1 = some L' ∧
    L'[0]? = some l ∧ (sp 0).ownership i = some (.ghost 1 l) ∧ (sp 0).globalDofIndex i = some N ∧
    (sp 1).globalDofIndex l = some N := by
  obtain ⟨sp, hsp⟩ := finished_exists twoParts_dist
  refine ⟨sp, hsp, ?_⟩
  obtain ⟨D, hD, heq⟩ := finished_spaces twoParts_dist hsp
  obtain ⟨ent, hent, hloc, hown⟩ : ∃ ent ∈ (twoParts 0).entityIter 0, ent.localIndex = 3 ∧
      ent.ownership = .ghost 1 1 := by decide
  obtain ⟨L, hL, hlen⟩ := ent_length (twoParts_wf 0 (by decide)) (twoParts_dist.family 0 (by decide))
    (hD.inv 0 (by decide)) (d := 0) (e := 3) (by decide) (by decide)
  have h0 : 0 < L.length := by rw [hlen]; decide
  have hL' : (sp 0).getLocalDofNumbers 0 ent.localIndex = some L := by
    rw [hloc, heq 0 (by decide)]; exact hL
  obtain ⟨_, hg⟩ := C20_ghosts twoParts_dist hsp (r := 0) (by decide) (d := 0) (by decide) ent hent L hL'
    0 L[0] (by simp [h0])
  obtain ⟨_, _, L', l, N, h1, h2, h3, _, h4, h5⟩ := hg 1 1 hown
  exact ⟨L, L', L[0], l, N, by rw [← hloc]; exact hL', by simp [h0], h1, h2, h3, h4, h5⟩

/-- With synchronous sends the two processes of this grid never return. -/
example : ∃ K : Nat, ∀ k c, Config.Reach (Config.SyncStep 2) k (launch 2 twoParts p1) c →
    k ≤ K ∧ ∀ r, r < 2 → ∀ sp, c.prog r ≠ .done sp :=
  C21_rendezvous_deadlock twoParts_dist (by decide)

end Bempp
