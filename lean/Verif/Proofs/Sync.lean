import Verif.Proofs.Distributed
/-
Synchronous (rendezvous) sends: no process ever finishes.
-/
namespace Bempp
open FunctionSpace

variable {α : Type} {n : Nat} {T : Nat → Trace} {res : Nat → α}

/-- A send and a receive that meet on an empty channel are partners. -/
theorem net_pair (hM : Matching n T) {c : Config α} {pre suf : Nat → Trace}
    (inv : NetInv n T res c pre suf) {s r : Nat} (hs : s < n) (hr : r < n) (hc : c.chan s r = [])
    {m m' : Msg} {τ τ' : Nat} {u v : Trace} (hsuf : suf s = (.send r m, τ) :: u)
    (hsuf' : suf r = (.recv s m', τ') :: v) : m = m' ∧ τ < τ' := by
  have hchan := inv.chan s r hs hr
  rw [hc, List.append_nil] at hchan
  have hlen := congrArg List.length hchan
  simp only [List.length_map] at hlen
  have hF := hM.chan s r hs hr
  rw [inv.split s hs, inv.split r hr, hsuf, hsuf', sendsTo_append, recvsFrom_append] at hF
  obtain ⟨_, hg⟩ := List.forall₂_iff_get.mp hF
  have h1 : (sendsTo r (pre s)).length <
      (sendsTo r (pre s) ++ sendsTo r ((Act.send r m, τ) :: u)).length := by simp [sendsTo]
  have h2 : (sendsTo r (pre s)).length <
      (recvsFrom s (pre r) ++ recvsFrom s ((Act.recv s m', τ') :: v)).length := by
    rw [hlen]; simp [recvsFrom]
  have := hg _ h1 h2
  simp only [List.get_eq_getElem] at this
  rw [List.getElem_append_right (by omega), List.getElem_append_right (by omega)] at this
  simp only [Nat.sub_self, hlen] at this
  have e1 : (sendsTo r ((Act.send r m, τ) :: u))[0]'(by simp [sendsTo]) = (m, τ) := by simp [sendsTo]
  have e2 : (recvsFrom s ((Act.recv s m', τ') :: v))[0]'(by simp [recvsFrom]) = (m', τ') := by
    simp [recvsFrom]
  rw [e1, e2] at this
  exact this

variable {G : Nat → Grid} {fam : CellType → ElementDofs} {nd : Nat → Nat → Nat → Nat} {D : Nat → DofState}

theorem req_mem (D : Nat → DofState) {r : Nat} (hn : 2 ≤ n) (_ : r < n) :
    ∃ p m, p < n ∧ (Act.send p m, 2 * n + 2) ∈ traceOf n D r := by
  obtain ⟨p, hp, hne⟩ : ∃ p, p < n ∧ p ≠ r := by
    by_cases h : r = 0
    · exact ⟨1, by omega, by omega⟩
    · exact ⟨0, by omega, by omega⟩
  refine ⟨p, (gh D r p).map fun x => x.2.1, hp, ?_⟩
  unfold traceOf
  simp only [List.mem_append]
  right; right; right; left
  exact List.mem_flatMap.mpr ⟨p, mem_others.mpr ⟨hp, hne⟩, by simp [trReq]⟩

/-- With synchronous sends no process gets past its first request. -/
theorem sync_reach (hn : 2 ≤ n) {P : Nat → Prog α}
    (hP : ∀ r, r < n → Runs (P r) (traceOf n D r) (res r)) {k : Nat} {c c0 : Config α}
    (h : Config.Reach (Config.SyncStep n) k c0 c) (h0 : c0 = Config.init P) :
    ∃ pre suf, NetInv n (traceOf n D) res c pre suf ∧ doneCount n pre = 2 * k ∧
      (∀ s d, c.chan s d = []) ∧ ∀ r, r < n → ∀ x ∈ pre r, x.2 ≤ 2 * n + 1 := by
  have hM := traceOf_matching n D
  induction h with
  | refl c =>
    subst h0
    exact ⟨fun _ => [], traceOf n D, ⟨fun _ _ => rfl, hP, fun _ _ _ _ => rfl⟩, by simp [doneCount],
      fun _ _ => rfl, by simp⟩
  | @tail k c c1 c2 _ hs ih =>
    obtain ⟨pre, suf, inv, hk, hch, hpre⟩ := ih h0
    cases hs with
    | mk r d m kk k' hr hd hne hp hp' =>
    -- the next actions of the two partners
    have hrun := inv.runs r hr
    rw [hp] at hrun
    have hrun' := inv.runs d hd
    rw [hp'] at hrun'
    cases hsuf : suf r with
    | nil => rw [hsuf] at hrun; cases hrun
    | cons x u =>
    cases hsuf' : suf d with
    | nil => rw [hsuf'] at hrun'; cases hrun'
    | cons y v =>
    rw [hsuf] at hrun
    rw [hsuf'] at hrun'
    cases hrun with
    | @send _ _ _ _ _ τ hrun =>
    cases hrun' with
    | @recv _ m' _ _ _ τ' hrun' =>
    obtain ⟨rfl, hlt⟩ := net_pair hM inv hr hd (hch r d) hsuf hsuf'
    have hτ' : τ' ≤ 2 * n + 1 := by
      by_contra hgt
      obtain ⟨p, mm, _, hmem⟩ := req_mem D hn hd
      have hsrt := hM.sorted d hd
      rw [inv.split d hd, hsuf'] at hmem hsrt
      rcases List.mem_append.mp hmem with h | h
      · have := hpre d hd _ h
        simp only at this; omega
      · rw [List.pairwise_append] at hsrt
        have hsrt := hsrt.2.1
        rw [List.pairwise_cons] at hsrt
        have hτne : τ' ≠ 2 * n + 2 := by
          intro heq
          have hmem2 : (Act.recv r m, τ') ∈ traceOf n D d := by
            rw [inv.split d hd, hsuf']; simp
          obtain ⟨h1, h2, h3, h4, h5, h6⟩ := mem_trace n D hd
          simp only [traceOf, List.mem_append] at hmem2
          rcases hmem2 with h | h | h | h | h | h
          · have := (h1 _ h).1; simp only at this; omega
          · have := (h2 _ h).1; simp only at this; omega
          · have := (h3 _ h).1; simp only at this; omega
          · obtain ⟨_, s, mm, hh, _⟩ := h4 _ h; cases hh
          · have := (h5 _ h).1; simp only at this; omega
          · have := (h6 _ h).1; simp only at this; omega
        rcases List.mem_cons.mp h with h | h
        · cases h
        · have := hsrt.1 _ h
          simp only at this; omega
    refine ⟨fun q => if q = r then pre q ++ [(.send d m, τ)] else
        if q = d then pre q ++ [(.recv r m, τ')] else pre q,
      fun q => if q = r then u else if q = d then v else suf q, ⟨?_, ?_, ?_⟩, ?_, hch, ?_⟩
    · intro q hq
      by_cases h : q = r
      · subst h; simp [inv.split q hq, hsuf]
      · by_cases h2 : q = d
        · subst h2; simp [h, inv.split q hq, hsuf']
        · simp [h, h2, inv.split q hq]
    · intro q hq
      by_cases h : q = r
      · subst h; simpa using hrun
      · by_cases h2 : q = d
        · subst h2; simpa [h] using hrun'
        · simpa [h, h2] using inv.runs q hq
    · intro s q hs hq
      have hold := inv.chan s q hs hq
      rw [hch] at hold
      simp only [hch, List.append_nil] at hold ⊢
      have e1 : ∀ a b, recvsFrom s (a ++ [(Act.send d m, b)]) = recvsFrom s a := by
        intro a b; rw [recvsFrom_append]; simp [recvsFrom]
      have e2 : ∀ a b, sendsTo q (a ++ [(Act.recv r m, b)]) = sendsTo q a := by
        intro a b; rw [sendsTo_append]; simp [sendsTo]
      by_cases h1 : s = r <;> by_cases h2 : q = d
      · subst h1; subst h2
        simp only [if_true, Ne.symm hne, if_false]
        rw [sendsTo_append, recvsFrom_append, List.map_append, List.map_append, hold]
        simp [sendsTo, recvsFrom]
      · subst h1
        simp only [if_true]
        have : sendsTo q (pre s ++ [(Act.send d m, τ)]) = sendsTo q (pre s) := by
          rw [sendsTo_append]; simp [sendsTo, Ne.symm h2]
        rw [this, hold]
        by_cases h3 : q = s
        · simp [h3, e1]
        · simp [h2, h3]
      · subst h2
        simp only [Ne.symm hne, if_false, if_true, h1]
        have : recvsFrom s (pre q ++ [(Act.recv r m, τ')]) = recvsFrom s (pre q) := by
          rw [recvsFrom_append]; simp [recvsFrom, Ne.symm h1]
        rw [this]
        by_cases h3 : s = q
        · subst h3; simpa [e2] using hold
        · simp [h3, hold]
      · simp only [h1, h2, if_false]
        have a1 : sendsTo q (if s = d then pre s ++ [(Act.recv r m, τ')] else pre s) =
            sendsTo q (pre s) := by split <;> simp [e2]
        have a2 : recvsFrom s (if q = r then pre q ++ [(Act.send d m, τ)] else pre q) =
            recvsFrom s (pre q) := by split <;> simp [e1]
        rw [a1, a2, hold]
    · have e1 := doneCount_update n pre d hd (.recv r m, τ')
      have e2 := doneCount_update n (fun q => if q = d then pre q ++ [(Act.recv r m, τ')] else pre q) r hr
        (.send d m, τ)
      have : (fun q => if q = r then pre q ++ [(Act.send d m, τ)] else
          if q = d then pre q ++ [(Act.recv r m, τ')] else pre q) =
          fun q => if q = r then (if q = d then pre q ++ [(Act.recv r m, τ')] else pre q) ++
            [(Act.send d m, τ)] else if q = d then pre q ++ [(Act.recv r m, τ')] else pre q := by
        funext q
        by_cases h : q = r
        · subst h; simp [hne]
        · simp [h]
      rw [this, e2, e1, hk]; omega
    · intro q hq x hx
      by_cases h : q = r
      · subst h
        simp only [if_true, List.mem_append, List.mem_singleton] at hx
        rcases hx with hx | rfl
        · exact hpre q hq x hx
        · simp only; omega
      · by_cases h2 : q = d
        · subst h2
          simp only [h, if_false, if_true, List.mem_append, List.mem_singleton] at hx
          rcases hx with hx | rfl
          · exact hpre q hq x hx
          · exact hτ'
        · simp only [h, h2, if_false] at hx
          exact hpre q hq x hx

end Bempp
