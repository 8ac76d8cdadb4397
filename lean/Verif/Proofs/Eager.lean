import Verif.Proofs.Sync
/-
Messages that are buffered up to a certain length.
-/
namespace Bempp
open FunctionSpace

variable {α : Type} {n : Nat} {res : Nat → α} {D : Nat → DofState}

/-- The other process of an action. -/
def Act.partner : Act → Nat
  | .send d _ => d
  | .recv s _ => s

def Act.side : Act → Nat
  | .send _ _ => 1
  | .recv _ _ => 0

/-- The order of the actions of a process: by time stamp, then by partner, receives before sends. -/
def KeyLe (x y : Act × Nat) : Prop :=
  x.2 < y.2 ∨ (x.2 = y.2 ∧ (x.1.partner < y.1.partner ∨ (x.1.partner = y.1.partner ∧ x.1.side ≤ y.1.side)))

theorem others_sorted (r n : Nat) : (others r n).Pairwise (· < ·) := (List.pairwise_lt_range (n := n)).filter _

theorem trace_sorted {r : Nat} (hr : r < n) : (traceOf n D r).Pairwise KeyLe := by
  obtain ⟨h1, h2, h3, h4, h5, h6⟩ := mem_trace n D hr
  have lt : ∀ {x y : Act × Nat}, x.2 < y.2 → KeyLe x y := fun h => Or.inl h
  unfold traceOf
  rw [List.pairwise_append]
  refine ⟨?_, ?_, ?_⟩
  · unfold trOffRecv; split
    · exact .nil
    · exact List.pairwise_singleton _ _
  · rw [List.pairwise_append]
    refine ⟨?_, ?_, ?_⟩
    · unfold trOffSend; split
      · exact List.pairwise_singleton _ _
      · exact .nil
    · rw [List.pairwise_append]
      refine ⟨?_, ?_, ?_⟩
      · unfold trSize
        split
        · rw [List.pairwise_flatMap]
          refine ⟨fun _ _ => List.pairwise_singleton _ _, List.pairwise_lt_range.imp ?_⟩
          intro a b hab x hx y hy
          rw [List.mem_singleton] at hx hy
          subst hx; subst hy
          exact Or.inr ⟨rfl, Or.inl hab⟩
        · exact List.pairwise_singleton _ _
      · rw [List.pairwise_append]
        refine ⟨?_, ?_, ?_⟩
        · rw [List.pairwise_flatMap]
          refine ⟨?_, (others_sorted r n).imp ?_⟩
          · intro p _
            simp [trReq, KeyLe, Act.partner, Act.side]
          · intro a b hab x hx y hy
            simp only [trReq, List.mem_cons, List.not_mem_nil, or_false] at hx hy
            rcases hx with rfl | rfl | rfl <;> rcases hy with rfl | rfl | rfl <;> exact Or.inr ⟨rfl, Or.inl hab⟩
        · rw [List.pairwise_append]
          refine ⟨?_, ?_, ?_⟩
          · rw [List.pairwise_flatMap]
            refine ⟨?_, (others_sorted r n).imp ?_⟩
            · intro p _
              simp [trAns, KeyLe, Act.partner, Act.side]
            · intro a b hab x hx y hy
              simp only [trAns, List.mem_cons, List.not_mem_nil, or_false] at hx hy
              rcases hx with rfl | rfl | rfl | rfl | rfl <;> rcases hy with rfl | rfl | rfl | rfl | rfl <;>
                exact Or.inr ⟨rfl, Or.inl hab⟩
          · rw [List.pairwise_flatMap]
            refine ⟨?_, (others_sorted r n).imp ?_⟩
            · intro p _
              simp [trRep, KeyLe, Act.partner, Act.side]
            · intro a b hab x hx y hy
              simp only [trRep, List.mem_cons, List.not_mem_nil, or_false] at hx hy
              rcases hx with rfl | rfl <;> rcases hy with rfl | rfl <;> exact Or.inr ⟨rfl, Or.inl hab⟩
          · intro x hx y hy
            exact lt (by rw [(h5 x hx).1, (h6 y hy).1]; omega)
        · intro x hx y hy
          refine lt ?_
          rw [(h4 x hx).1]
          rcases List.mem_append.mp hy with hy | hy
          · rw [(h5 y hy).1]; omega
          · rw [(h6 y hy).1]; omega
      · intro x hx y hy
        refine lt ?_
        have := (h3 x hx).1
        simp only [List.mem_append] at hy
        rcases hy with hy | hy | hy
        · rw [(h4 y hy).1]; omega
        · rw [(h5 y hy).1]; omega
        · rw [(h6 y hy).1]; omega
    · intro x hx y hy
      refine lt ?_
      rw [(h2 x hx).1]
      simp only [List.mem_append] at hy
      rcases hy with hy | hy | hy | hy
      · have := (h3 y hy).1; omega
      · rw [(h4 y hy).1]; omega
      · rw [(h5 y hy).1]; omega
      · rw [(h6 y hy).1]; omega
  · intro x hx y hy
    refine lt ?_
    rw [(h1 x hx).1]
    simp only [List.mem_append] at hy
    rcases hy with hy | hy | hy | hy | hy
    · rw [(h2 y hy).1]; omega
    · have := (h3 y hy).1; omega
    · rw [(h4 y hy).1]; omega
    · rw [(h5 y hy).1]; omega
    · rw [(h6 y hy).1]; omega

/-- A message is received one unit of time after it was sent. -/
theorem chan_exact {s d : Nat} (hs : s < n) (hd : d < n) :
    List.Forall₂ (fun x y => x.1 = y.1 ∧ y.2 = x.2 + 1) (sendsTo d (traceOf n D s)) (recvsFrom s (traceOf n D d)) := by
  rw [sendsTo_traceOf n D hs hd, recvsFrom_traceOf n D hs hd]
  apply List.rel_append
  · by_cases h : d = s + 1
    · simp only [h, if_true]
      exact .cons ⟨rfl, by simp only; omega⟩ .nil
    · simp only [h, if_false]; exact .nil
  apply List.rel_append
  · by_cases h : s + 1 = n ∧ d < s
    · simp only [h]
      exact .cons ⟨rfl, rfl⟩ .nil
    · simp only [h, if_false]; exact .nil
  by_cases h : s = d
  · simp only [h, if_true]; exact .nil
  · simp only [h, if_false]
    repeat' first
      | exact List.Forall₂.nil
      | refine List.Forall₂.cons ⟨rfl, rfl⟩ ?_

section
variable {c : Config α} {pre suf : Nat → Trace}

/-- Actions that come before one that has been done have been done. -/
theorem pre_closed (inv : NetInv n (traceOf n D) res c pre suf) {r : Nat} (hr : r < n) {x y : Act × Nat}
    (hx : x ∈ traceOf n D r) (hy : y ∈ pre r) (h : ¬ KeyLe y x) : x ∈ pre r := by
  have hs := trace_sorted (D := D) hr
  rw [inv.split r hr] at hx hs
  rcases List.mem_append.mp hx with hx | hx
  · exact hx
  · exact absurd ((List.pairwise_append.mp hs).2.2 y hy x hx) h

theorem pre_head (inv : NetInv n (traceOf n D) res c pre suf) {r : Nat} (hr : r < n) {x y : Act × Nat} {u : Trace}
    (hx : x ∈ traceOf n D r) (hy : suf r = y :: u) (h : ¬ KeyLe y x) : x ∈ pre r := by
  have hs := trace_sorted (D := D) hr
  rw [inv.split r hr] at hx hs
  rcases List.mem_append.mp hx with hx | hx
  · exact hx
  · have hs := (List.pairwise_append.mp hs).2.1
    rw [hy] at hx hs
    rcases List.mem_cons.mp hx with rfl | hx
    · exact absurd (Or.inr ⟨rfl, Or.inr ⟨rfl, le_refl _⟩⟩) h
    · exact absurd ((List.pairwise_cons.mp hs).1 x hx) h

theorem mem_sendsTo {d : Nat} {t : Trace} {m : Msg} {τ : Nat} : (m, τ) ∈ sendsTo d t ↔ (Act.send d m, τ) ∈ t := by
  unfold sendsTo
  rw [List.mem_filterMap]
  constructor
  · rintro ⟨⟨a, τ'⟩, h, h'⟩
    cases a with
    | send d' m' =>
      simp only at h'
      split at h'
      · rename_i e; cases h'; rw [← e]; exact h
      · cases h'
    | recv _ _ => cases h'
  · intro h
    exact ⟨_, h, by simp⟩

theorem mem_recvsFrom {s : Nat} {t : Trace} {m : Msg} {τ : Nat} : (m, τ) ∈ recvsFrom s t ↔ (Act.recv s m, τ) ∈ t := by
  unfold recvsFrom
  rw [List.mem_filterMap]
  constructor
  · rintro ⟨⟨a, τ'⟩, h, h'⟩
    cases a with
    | recv d' m' =>
      simp only at h'
      split at h'
      · rename_i e; cases h'; rw [← e]; exact h
      · cases h'
    | send _ _ => cases h'
  · intro h
    exact ⟨_, h, by simp⟩

/-- What was received was sent. -/
theorem matched_send (inv : NetInv n (traceOf n D) res c pre suf) {s d : Nat} (hs : s < n) (hd : d < n) {m : Msg}
    {τ : Nat} (h : (Act.recv s m, τ + 1) ∈ pre d) : (Act.send d m, τ) ∈ pre s := by
  have hF := chan_exact (D := D) hs hd
  have hlen := congrArg List.length (inv.chan s d hs hd)
  simp only [List.length_map, List.length_append] at hlen
  rw [inv.split s hs, inv.split d hd, sendsTo_append, recvsFrom_append] at hF
  obtain ⟨i, hi, hget⟩ := List.getElem_of_mem (mem_recvsFrom.mpr h)
  obtain ⟨_, hg⟩ := List.forall₂_iff_get.mp hF
  have := hg i (by rw [List.length_append]; omega) (by rw [List.length_append]; omega)
  simp only [List.get_eq_getElem] at this
  rw [List.getElem_append_left (by omega), List.getElem_append_left hi, hget] at this
  have hm := List.getElem_mem (l := sendsTo d (pre s)) (n := i) (by omega)
  have e : (sendsTo d (pre s))[i]'(by omega) = (m, τ) := Prod.ext this.1 (by have := this.2; simp only at this ⊢; omega)
  rw [e] at hm
  exact mem_sendsTo.mp hm

/-- What was sent and is no longer under way was received. -/
theorem matched_recv (inv : NetInv n (traceOf n D) res c pre suf) {s d : Nat} (hs : s < n) (hd : d < n) {m : Msg}
    {τ : Nat} (h : (Act.send d m, τ) ∈ pre s) (hc : c.chan s d = []) : (Act.recv s m, τ + 1) ∈ pre d := by
  have hF := chan_exact (D := D) hs hd
  have hlen := congrArg List.length (inv.chan s d hs hd)
  simp only [List.length_map, List.length_append, hc, List.length_nil] at hlen
  rw [inv.split s hs, inv.split d hd, sendsTo_append, recvsFrom_append] at hF
  obtain ⟨i, hi, hget⟩ := List.getElem_of_mem (mem_sendsTo.mpr h)
  obtain ⟨_, hg⟩ := List.forall₂_iff_get.mp hF
  have := hg i (by rw [List.length_append]; omega) (by rw [List.length_append]; omega)
  simp only [List.get_eq_getElem] at this
  rw [List.getElem_append_left hi, List.getElem_append_left (by omega), hget] at this
  have hm := List.getElem_mem (l := recvsFrom s (pre d)) (n := i) (by omega)
  have e : (recvsFrom s (pre d))[i]'(by omega) = (m, τ + 1) := Prod.ext this.1.symm this.2
  rw [e] at hm
  exact mem_recvsFrom.mp hm

/-- What a hand-over does. -/
theorem net_meet (inv : NetInv n (traceOf n D) res c pre suf) {r d : Nat} {m : Msg} {k : Prog α} {k' : Msg → Prog α}
    (hr : r < n) (hd : d < n) (hne : r ≠ d) (hc : c.chan r d = []) (hp : c.prog r = .send d m k)
    (hp' : c.prog d = .recv r k') :
    ∃ τ u v, suf r = (.send d m, τ) :: u ∧ suf d = (.recv r m, τ + 1) :: v ∧
      NetInv n (traceOf n D) res ⟨fun q => if q = r then k else if q = d then k' m else c.prog q, c.chan⟩
        (fun q => if q = d then pre q ++ [(.recv r m, τ + 1)] else if q = r then pre q ++ [(.send d m, τ)] else pre q)
        (fun q => if q = d then v else if q = r then u else suf q) := by
  have hM := traceOf_matching n D
  obtain ⟨τ, u, hs, inv1⟩ := net_send inv hr hp
  have hp1 : (⟨c.setProg r k, c.setChan r d (c.chan r d ++ [m])⟩ : Config α).prog d = .recv r k' := by
    simp only [Config.setProg, if_neg (Ne.symm hne)]
    exact hp'
  have hc1 : (⟨c.setProg r k, c.setChan r d (c.chan r d ++ [m])⟩ : Config α).chan r d = m :: [] := by
    simp [Config.setChan, hc]
  obtain ⟨τ', v, hv, inv2⟩ := net_recv hM inv1 hd hp1 hc1
  rw [if_neg (Ne.symm hne)] at hv
  have hτ : τ' = τ + 1 := by
    have hF := chan_exact (D := D) hr hd
    have hlen := congrArg List.length (inv.chan r d hr hd)
    simp only [List.length_map, List.length_append, hc, List.length_nil] at hlen
    rw [inv.split r hr, inv.split d hd, hs, hv, sendsTo_append, recvsFrom_append] at hF
    obtain ⟨_, hg⟩ := List.forall₂_iff_get.mp hF
    have h1 : (sendsTo d (pre r)).length < (sendsTo d (pre r) ++ sendsTo d ((Act.send d m, τ) :: u)).length := by
      simp [sendsTo]
    have h2 : (sendsTo d (pre r)).length < (recvsFrom r (pre d) ++ recvsFrom r ((Act.recv r m, τ') :: v)).length := by
      rw [hlen]; simp [recvsFrom]
    have := hg _ h1 h2
    simp only [List.get_eq_getElem] at this
    rw [List.getElem_append_right (by omega), List.getElem_append_right (by omega)] at this
    simp only [Nat.sub_self, hlen] at this
    have e1 : (sendsTo d ((Act.send d m, τ) :: u))[0]'(by simp [sendsTo]) = (m, τ) := by simp [sendsTo]
    have e2 : (recvsFrom r ((Act.recv r m, τ') :: v))[0]'(by simp [recvsFrom]) = (m, τ') := by simp [recvsFrom]
    simp only [Nat.add_zero, Nat.sub_self] at this
    rw [e1, e2] at this
    exact this.2
  subst hτ
  refine ⟨τ, u, v, hs, hv, ?_⟩
  convert inv2 using 2
  · funext q
    simp only [Config.setProg]
    by_cases h1 : q = r
    · subst h1; simp [hne]
    · by_cases h2 : q = d
      · subst h2; simp [h1]
      · simp [h1, h2]
  · funext s q
    simp only [Config.setChan]
    by_cases h : s = r ∧ q = d
    · simp [h, hc]
    · simp [h]
  · rename_i q
    by_cases h : q = d
    · subst h; simp [Ne.symm hne]
    · simp [h]

end

/-- No action of the set `B` is ever done, if each is a long send whose partner has to do an action of `B` before it receives, or a
receive whose partner has to do one before it sends. -/
theorem blocked_reach {L : Nat} {P : Nat → Prog α} (hP : ∀ r, r < n → Runs (P r) (traceOf n D r) (res r))
    {B : Nat → Act × Nat → Prop}
    (hB : ∀ r x, r < n → x ∈ traceOf n D r → B r x →
      (∃ d m, x.1 = .send d m ∧ d < n ∧ L < m.length ∧ ∃ y ∈ traceOf n D d, B d y ∧ ∀ m', ¬ KeyLe (.recv r m', x.2 + 1) y) ∨
      (∃ s m τ, x.1 = .recv s m ∧ x.2 = τ + 1 ∧ s < n ∧ ∃ y ∈ traceOf n D s, B s y ∧ ∀ m', ¬ KeyLe (.send r m', τ) y))
    {k : Nat} {c c0 : Config α} (h : Config.Reach (Config.EagerStep n L) k c0 c) (h0 : c0 = Config.init P) :
    ∃ pre suf, NetInv n (traceOf n D) res c pre suf ∧ k ≤ doneCount n pre ∧ ∀ r, r < n → ∀ x ∈ pre r, ¬ B r x := by
  have hM := traceOf_matching n D
  induction h with
  | refl c =>
    subst h0
    exact ⟨fun _ => [], traceOf n D, ⟨fun _ _ => rfl, hP, fun _ _ _ _ => rfl⟩, Nat.zero_le _, by simp⟩
  | @tail k c c1 c2 _ hs ih =>
    obtain ⟨pre, suf, inv, hk, hpre⟩ := ih h0
    cases hs with
    | send r d m kk hr hm hp =>
      obtain ⟨τ, rest, hsuf, inv'⟩ := net_send inv hr hp
      refine ⟨_, _, inv', by rw [doneCount_update n pre r hr]; omega, ?_⟩
      intro q hq x hx hb
      by_cases hqr : q = r
      · subst hqr
        simp only [if_true, List.mem_append, List.mem_singleton] at hx
        rcases hx with hx | rfl
        · exact hpre q hq x hx hb
        · have hmem : (Act.send d m, τ) ∈ traceOf n D q := by rw [inv.split q hq, hsuf]; simp
          rcases hB q _ hq hmem hb with ⟨d', m', h1, _, h2, _⟩ | ⟨_, _, _, h1, _⟩
          · cases h1; omega
          · cases h1
      · simp only [if_neg hqr] at hx
        exact hpre q hq x hx hb
    | recv r s m rest kk hr hp hc =>
      obtain ⟨τ, rest', hsuf, inv'⟩ := net_recv hM inv hr hp hc
      refine ⟨_, _, inv', by rw [doneCount_update n pre r hr]; omega, ?_⟩
      intro q hq x hx hb
      by_cases hqr : q = r
      · subst hqr
        have hx' := hx
        simp only [if_true, List.mem_append, List.mem_singleton] at hx
        rcases hx with hx | rfl
        · exact hpre q hq x hx hb
        · have hmem : (Act.recv s m, τ) ∈ traceOf n D q := by rw [inv.split q hq, hsuf]; simp
          rcases hB q _ hq hmem hb with ⟨_, _, h1, _⟩ | ⟨s', m', τ', h1, h2, hs', y, hy, hby, hle⟩
          · cases h1
          · cases h1
            simp only at h2
            subst h2
            have := matched_send inv' hs' hq hx'
            have hsend : (Act.send q m, τ') ∈ pre s := by
              by_cases hsq : s = q
              · subst hsq
                simp only [if_true, List.mem_append, List.mem_singleton] at this
                rcases this with h | h
                · exact h
                · cases h
              · simpa [if_neg hsq] using this
            exact hpre s hs' y (pre_closed inv hs' hy hsend (hle m)) hby
      · simp only [if_neg hqr] at hx
        exact hpre q hq x hx hb
    | meet r d m kk k' hr hd hne hm hc hp hp' =>
      obtain ⟨τ, u, v, hsr, hsd, inv'⟩ := net_meet inv hr hd hne hc hp hp'
      refine ⟨_, _, inv', ?_, ?_⟩
      · have e1 := doneCount_update n pre r hr (.send d m, τ)
        have e2 := doneCount_update n (fun q => if q = r then pre q ++ [(Act.send d m, τ)] else pre q) d hd
          (.recv r m, τ + 1)
        have : (fun q => if q = d then pre q ++ [(Act.recv r m, τ + 1)] else
            if q = r then pre q ++ [(Act.send d m, τ)] else pre q) =
            fun q => if q = d then (if q = r then pre q ++ [(Act.send d m, τ)] else pre q) ++
              [(Act.recv r m, τ + 1)] else if q = r then pre q ++ [(Act.send d m, τ)] else pre q := by
          funext q
          by_cases h : q = d
          · subst h; simp [Ne.symm hne]
          · simp [h]
        rw [this, e2, e1]; omega
      · intro q hq x hx hb
        by_cases hqd : q = d
        · subst hqd
          simp only [if_true, List.mem_append, List.mem_singleton] at hx
          rcases hx with hx | rfl
          · exact hpre q hq x hx hb
          · have hmem : (Act.recv r m, τ + 1) ∈ traceOf n D q := by rw [inv.split q hq, hsd]; simp
            rcases hB q _ hq hmem hb with ⟨_, _, h1, _⟩ | ⟨s', m', τ', h1, h2, hs', y, hy, hby, hle⟩
            · cases h1
            · cases h1
              simp only [Nat.add_right_cancel_iff] at h2
              subst h2
              exact hpre r hr y (pre_head inv hr hy hsr (hle m)) hby
        · simp only [if_neg hqd] at hx
          by_cases hqr : q = r
          · subst hqr
            simp only [if_true, List.mem_append, List.mem_singleton] at hx
            rcases hx with hx | rfl
            · exact hpre q hq x hx hb
            · have hmem : (Act.send d m, τ) ∈ traceOf n D q := by rw [inv.split q hq, hsr]; simp
              rcases hB q _ hq hmem hb with ⟨d', m', h1, _, _, y, hy, hby, hle⟩ | ⟨_, _, _, h1, _⟩
              · cases h1
                exact hpre d hd y (pre_head inv hd hy hsd (hle m)) hby
              · cases h1
          · simp only [if_neg hqr] at hx
            exact hpre q hq x hx hb


section
variable {c : Config α} {pre suf : Nat → Trace}

/-- A process that waits for a message that is not under way: the sender still has to send it. -/
theorem pending_send (inv : NetInv n (traceOf n D) res c pre suf) {s d : Nat} (hs : s < n) (hd : d < n) {m : Msg} {τ : Nat}
    {u : Trace} (h : suf d = (.recv s m, τ) :: u) (hc : c.chan s d = []) :
    ∃ τ', τ = τ' + 1 ∧ (Act.send d m, τ') ∈ suf s := by
  have hF := chan_exact (D := D) hs hd
  have hlen := congrArg List.length (inv.chan s d hs hd)
  simp only [List.length_map, List.length_append, hc, List.length_nil] at hlen
  rw [inv.split s hs, inv.split d hd, h, sendsTo_append, recvsFrom_append] at hF
  obtain ⟨hl, hg⟩ := List.forall₂_iff_get.mp hF
  have h2 : (recvsFrom s (pre d)).length < (recvsFrom s (pre d) ++ recvsFrom s ((Act.recv s m, τ) :: u)).length := by
    simp [recvsFrom]
  have := hg (recvsFrom s (pre d)).length (by omega) h2
  simp only [List.get_eq_getElem] at this
  rw [List.getElem_append_right (by omega), List.getElem_append_right (by omega)] at this
  simp only [Nat.sub_self] at this
  have e2 : (recvsFrom s ((Act.recv s m, τ) :: u))[0]'(by simp [recvsFrom]) = (m, τ) := by simp [recvsFrom]
  rw [e2] at this
  have hm := List.getElem_mem (l := sendsTo d (suf s)) (n := (recvsFrom s (pre d)).length - (sendsTo d (pre s)).length)
    (by rw [List.length_append, List.length_append] at hl; rw [List.length_append] at h2; omega)
  obtain ⟨z, hz, h1, h2⟩ : ∃ z ∈ sendsTo d (suf s), z.1 = m ∧ τ = z.2 + 1 := ⟨_, hm, this.1, this.2⟩
  refine ⟨z.2, h2, ?_⟩
  rw [← mem_sendsTo, ← h1]
  exact hz

/-- A message that has not been sent has not been received. -/
theorem pending_recv (inv : NetInv n (traceOf n D) res c pre suf) {s d : Nat} (hs : s < n) (hd : d < n) {m : Msg} {τ : Nat}
    {u : Trace} (h : suf s = (.send d m, τ) :: u) : (Act.recv s m, τ + 1) ∈ suf d := by
  have hF := chan_exact (D := D) hs hd
  have hlen := congrArg List.length (inv.chan s d hs hd)
  simp only [List.length_map, List.length_append] at hlen
  rw [inv.split s hs, inv.split d hd, h, sendsTo_append, recvsFrom_append] at hF
  obtain ⟨hl, hg⟩ := List.forall₂_iff_get.mp hF
  have h1 : (sendsTo d (pre s)).length < (sendsTo d (pre s) ++ sendsTo d ((Act.send d m, τ) :: u)).length := by
    simp [sendsTo]
  have := hg (sendsTo d (pre s)).length h1 (by omega)
  simp only [List.get_eq_getElem] at this
  rw [List.getElem_append_right (by omega), List.getElem_append_right (by omega)] at this
  simp only [Nat.sub_self] at this
  have e2 : (sendsTo d ((Act.send d m, τ) :: u))[0]'(by simp [sendsTo]) = (m, τ) := by simp [sendsTo]
  rw [e2] at this
  have hm := List.getElem_mem (l := recvsFrom s (suf d)) (n := (sendsTo d (pre s)).length - (recvsFrom s (pre d)).length)
    (by rw [List.length_append, List.length_append] at hl; rw [List.length_append] at h1; omega)
  rw [← mem_recvsFrom]
  have e : (recvsFrom s (suf d))[(sendsTo d (pre s)).length - (recvsFrom s (pre d)).length]'
    (by rw [List.length_append, List.length_append] at hl; rw [List.length_append] at h1; omega) = (m, τ + 1) :=
    Prod.ext this.1.symm this.2
  rw [e] at hm
  exact hm

theorem prog_send (inv : NetInv n (traceOf n D) res c pre suf) {r : Nat} (hr : r < n) {d : Nat} {m : Msg} {τ : Nat} {u : Trace}
    (h : suf r = (.send d m, τ) :: u) : ∃ k, c.prog r = .send d m k := by
  have := inv.runs r hr
  rw [h] at this
  generalize c.prog r = p at this
  cases this with
  | @send _ _ k _ _ _ _ => exact ⟨k, rfl⟩

theorem prog_recv (inv : NetInv n (traceOf n D) res c pre suf) {r : Nat} (hr : r < n) {s : Nat} {m : Msg} {τ : Nat} {u : Trace}
    (h : suf r = (.recv s m, τ) :: u) : ∃ k, c.prog r = .recv s k := by
  have := inv.runs r hr
  rw [h] at this
  generalize c.prog r = p at this
  cases this with
  | @recv _ _ k _ _ _ _ => exact ⟨k, rfl⟩

theorem send_kind {r : Nat} (_hr : r < n) {d : Nat} {m : Msg} {τ : Nat} (h : (Act.send d m, τ) ∈ traceOf n D r) :
    (τ ≤ 2 * n + 1 ∧ m.length = 1) ∨ (d < n ∧ d ≠ r ∧ τ = 2 * n + 2 ∧ m.length = (gh D r d).length) ∨
      (d < n ∧ d ≠ r ∧ τ = 2 * n + 3 ∧ m.length = (gh D d r).length) := by
  simp only [traceOf, List.mem_append] at h
  rcases h with h | h | h | h | h | h
  · unfold trOffRecv at h
    split at h <;> simp at h
  · unfold trOffSend at h
    split at h
    · simp only [List.mem_singleton, Prod.mk.injEq, Act.send.injEq] at h
      left; rw [h.1.2, h.2]; exact ⟨by omega, rfl⟩
    · simp at h
  · unfold trSize at h
    split at h
    · simp only [List.mem_flatMap, List.mem_range, List.mem_singleton, Prod.mk.injEq, Act.send.injEq] at h
      obtain ⟨p, _, h⟩ := h
      left; rw [h.1.2, h.2]; exact ⟨by omega, rfl⟩
    · simp at h
  · obtain ⟨p, hp, h⟩ := List.mem_flatMap.mp h
    obtain ⟨hp, hne⟩ := mem_others.mp hp
    simp only [trReq, List.mem_cons, List.not_mem_nil, or_false, Prod.mk.injEq, Act.send.injEq] at h
    right; left
    rcases h with ⟨⟨rfl, rfl⟩, rfl⟩ | ⟨⟨rfl, rfl⟩, rfl⟩ | ⟨⟨rfl, rfl⟩, rfl⟩ <;> exact ⟨hp, hne, rfl, by simp⟩
  · obtain ⟨p, hp, h⟩ := List.mem_flatMap.mp h
    obtain ⟨hp, hne⟩ := mem_others.mp hp
    simp only [trAns, List.mem_cons, List.not_mem_nil, or_false, Prod.mk.injEq, Act.send.injEq, reduceCtorEq, false_and,
      false_or] at h
    right; right
    rcases h with ⟨⟨rfl, rfl⟩, rfl⟩ | ⟨⟨rfl, rfl⟩, rfl⟩ <;> exact ⟨hp, hne, rfl, by simp [gloAns, locAns]⟩
  · obtain ⟨p, hp, h⟩ := List.mem_flatMap.mp h
    simp [trRep] at h

theorem recv_kind {r : Nat} (hr : r < n) {s : Nat} {m : Msg} {τ : Nat} (h : (Act.recv s m, τ) ∈ traceOf n D r) :
    τ ≤ 2 * n + 1 ∨ τ = 2 * n + 3 ∨ τ = 2 * n + 4 := by
  obtain ⟨h1, h2, h3, h4, h5, h6⟩ := mem_trace n D hr
  simp only [traceOf, List.mem_append] at h
  rcases h with h | h | h | h | h | h
  · have := (h1 _ h).1; simp only at this; omega
  · have := (h2 _ h).1; simp only at this; omega
  · have := (h3 _ h).1; simp only at this; omega
  · obtain ⟨_, s, mm, hh, _⟩ := h4 _ h; cases hh
  · have := (h5 _ h).1; simp only at this; omega
  · have := (h6 _ h).1; simp only at this; omega

/-- If only process `a` has long requests, an execution that is not finished can continue. -/
theorem eager_progress {L a : Nat} (hL : 1 ≤ L)
    (ha : ∀ r, r < n → r ≠ a → ∀ p, p < n → p ≠ r → (gh D r p).length ≤ L)
    (inv : NetInv n (traceOf n D) res c pre suf) :
    (∃ c', Config.EagerStep n L c c') ∨ ∀ r, r < n → c.prog r = .done (res r) := by
  have hM := traceOf_matching n D
  by_cases hfin : ∀ r, r < n → suf r = []
  · right
    intro r hr
    have := inv.runs r hr
    rw [hfin r hr] at this
    generalize c.prog r = p at this
    cases this; rfl
  left
  by_contra hstuck
  -- a process whose next action has the smallest time stamp
  have hex : ∃ τ, ∃ r, r < n ∧ ∃ x rest, suf r = x :: rest ∧ x.2 = τ := by
    by_contra hno
    apply hfin
    intro r hr
    cases h : suf r with
    | nil => rfl
    | cons x rest => exact absurd ⟨x.2, r, hr, x, rest, h, rfl⟩ hno
  classical
  obtain ⟨r, hr, x, rest, hsuf, hτ⟩ := Nat.find_spec hex
  have hmin : ∀ q, q < n → ∀ y rest', suf q = y :: rest' → x.2 ≤ y.2 := by
    intro q hq y rest' h
    rw [hτ]
    exact Nat.find_le ⟨q, hq, y, rest', h, rfl⟩
  clear hτ
  have mem : ∀ q, q < n → ∀ {y rest'}, suf q = y :: rest' → y ∈ traceOf n D q := by
    intro q hq y rest' h
    rw [inv.split q hq, h]; simp
  have sorted : ∀ q, q < n → ∀ {y rest'}, suf q = y :: rest' → ∀ z ∈ suf q, KeyLe y z := by
    intro q hq y rest' h z hz
    have hs := trace_sorted (D := D) hq
    rw [inv.split q hq] at hs
    have hs := (List.pairwise_append.mp hs).2.1
    rw [h] at hs hz
    rcases List.mem_cons.mp hz with rfl | hz
    · exact Or.inr ⟨rfl, Or.inr ⟨rfl, le_refl _⟩⟩
    · exact (List.pairwise_cons.mp hs).1 z hz
  have stampLe : ∀ {y z}, KeyLe y z → y.2 ≤ z.2 := by
    intro y z h
    rcases h with h | h
    · omega
    · omega
  -- the kinds of actions that cannot go on
  have small : ∀ q, q < n → ∀ d m τ u, suf q = (.send d m, τ) :: u → L < m.length := by
    intro q hq d m τ u h
    by_contra hle
    obtain ⟨k, hk⟩ := prog_send inv hq h
    exact hstuck ⟨_, .send c q d m k hq (by omega) hk⟩
  have empty : ∀ q, q < n → ∀ s m τ u, suf q = (.recv s m, τ) :: u → c.chan s q = [] := by
    intro q hq s m τ u h
    cases hc : c.chan s q with
    | nil => rfl
    | cons m' rest' =>
      obtain ⟨k, hk⟩ := prog_recv inv hq h
      exact absurd ⟨_, .recv c q s m' rest' k hq hk hc⟩ hstuck
  have meet : ∀ s d, s < n → d < n → s ≠ d → ∀ m τ u m' τ' u', suf s = (.send d m, τ) :: u → suf d = (.recv s m', τ') :: u' → False := by
    intro s d hs hd hne m τ u m' τ' u' h h'
    obtain ⟨k, hk⟩ := prog_send inv hs h
    obtain ⟨k', hk'⟩ := prog_recv inv hd h'
    exact hstuck ⟨_, .meet c s d m k k' hs hd hne (small s hs d m τ u h) (empty d hd s m' τ' u' h') hk hk'⟩
  -- long sends
  have long : ∀ q, q < n → ∀ d m τ u, suf q = (.send d m, τ) :: u →
      (q = a ∧ d < n ∧ d ≠ q ∧ τ = 2 * n + 2) ∨ (d = a ∧ d < n ∧ d ≠ q ∧ τ = 2 * n + 3) := by
    intro q hq d m τ u h
    have hl := small q hq d m τ u h
    rcases send_kind hq (mem q hq h) with ⟨_, h1⟩ | ⟨h1, h2, h3, h4⟩ | ⟨h1, h2, h3, h4⟩
    · omega
    · left
      refine ⟨?_, h1, h2, h3⟩
      by_contra hqa
      have := ha q hq hqa d h1 h2
      omega
    · right
      refine ⟨?_, h1, h2, h3⟩
      by_contra hda
      have := ha d h1 hda q hq (Ne.symm h2)
      omega
  -- the head of a list that is not empty
  have head : ∀ q, ∀ z ∈ suf q, ∃ y u, suf q = y :: u := by
    intro q z hz
    cases h : suf q with
    | nil => rw [h] at hz; simp at hz
    | cons y u => exact ⟨y, u, rfl⟩
  -- no waiting at the smallest time stamp
  have norecv : ∀ q, q < n → ∀ s m u τ, suf q = (.recv s m, τ) :: u → x.2 < τ := by
    intro q hq s m u τ h
    have hs := hM.src q hq s m τ (mem q hq h)
    obtain ⟨τ', h1, h2⟩ := pending_send inv hs hq h (empty q hq s m τ u h)
    obtain ⟨y, v, hy⟩ := head s _ h2
    have h3 := stampLe (sorted s hs hy _ h2)
    have h4 := hmin s hs y v hy
    simp only at h3
    omega
  obtain ⟨act, τ⟩ := x
  cases act with
  | recv s m =>
    have := norecv r hr s m rest τ hsuf
    simp only at this
    omega
  | send d m =>
    simp only at hmin norecv
    rcases long r hr d m τ rest hsuf with ⟨rfl, hd, hdr, rfl⟩ | ⟨rfl, hd, hdr, rfl⟩
    · -- a request of `r`
      have hp := pending_recv inv hr hd hsuf
      obtain ⟨⟨act, τ'⟩, u, hy⟩ := head d _ hp
      have hk := sorted d hd hy _ hp
      have hle := stampLe hk
      have hge := hmin d hd _ u hy
      simp only at hle hge
      cases act with
      | send q m' =>
        rcases long d hd q m' τ' u hy with ⟨h1, _⟩ | ⟨rfl, _, _, h3⟩
        · exact hdr h1
        · subst h3
          rcases hk with hk | ⟨_, hk | ⟨_, hk⟩⟩
          · simp at hk
          · simp [Act.partner] at hk
          · simp [Act.side] at hk
      | recv q m' =>
        have hq := hM.src d hd q m' τ' (mem d hd hy)
        obtain ⟨τ'', h1, h2⟩ := pending_send inv hq hd hy (empty d hd q m' τ' u hy)
        obtain ⟨⟨act, σ⟩, v, hz⟩ := head q _ h2
        have h3 := stampLe (sorted q hq hz _ h2)
        have h4 := hmin q hq _ v hz
        simp only at h3 h4
        cases act with
        | recv s' m'' =>
          have := norecv q hq s' m'' v σ hz
          omega
        | send d' m'' =>
          rcases long q hq d' m'' σ v hz with ⟨rfl, _, _, h5⟩ | ⟨_, _, _, h5⟩
          · rw [hsuf] at hz
            cases hz
            exact meet q d hq hd (Ne.symm hdr) _ _ _ _ _ _ hsuf hy
          · omega
    · -- an answer to `a`
      have hp := pending_recv inv hr hd hsuf
      obtain ⟨⟨act, τ'⟩, u, hy⟩ := head d _ hp
      have hk := sorted d hd hy _ hp
      have hle := stampLe hk
      have hge := hmin d hd _ u hy
      simp only at hle hge
      cases act with
      | send q m' =>
        rcases long d hd q m' τ' u hy with ⟨_, _, _, h3⟩ | ⟨rfl, _, h3, _⟩
        · omega
        · exact h3 rfl
      | recv q m' =>
        have hlt := norecv d hd q m' u τ' hy
        have hq := hM.src d hd q m' τ' (mem d hd hy)
        obtain ⟨τ'', h1, h2⟩ := pending_send inv hq hd hy (empty d hd q m' τ' u hy)
        obtain ⟨⟨act, σ⟩, v, hz⟩ := head q _ h2
        have h3 := stampLe (sorted q hq hz _ h2)
        have h4 := hmin q hq _ v hz
        simp only at h3 h4
        cases act with
        | recv s' m'' =>
          have := norecv q hq s' m'' v σ hz
          omega
        | send d' m'' =>
          rcases long q hq d' m'' σ v hz with ⟨_, _, _, h5⟩ | ⟨rfl, _, h6, _⟩
          · omega
          · exact meet q d' hq hd (Ne.symm h6) _ _ _ _ _ _ hz hy

end


theorem nodup_eraseDups {β : Type} [BEq β] [LawfulBEq β] : ∀ (k : Nat) (l : List β), l.length ≤ k → l.eraseDups.Nodup
  | _, [], _ => by simp
  | 0, _ :: _, h => by simp at h
  | k + 1, a :: l, h => by
    rw [List.eraseDups_cons, List.nodup_cons]
    refine ⟨?_, nodup_eraseDups k _ ?_⟩
    · rw [List.mem_eraseDups]; simp
    · have := List.length_filter_le (fun b => !b == a) l
      simp only [List.length_cons] at h
      omega

/-- The length of a request. -/
theorem gh_length {G : Nat → Grid} {fam : CellType → ElementDofs} {nd : Nat → Nat → Nat → Nat}
    (dist : Distributed n G fam nd) (hD : AllDofs n G fam nd D) {r p : Nat} (hr : r < n) (hp : p ≠ r) :
    (gh D r p).length = ghostDofs (G r) (nd r) p := by
  have wf := dist.wf r hr
  obtain ⟨loc, _, h2, _, h4⟩ := (hD.inv r hr).loc
  have e1 : (gh D r p).length = (D r).ownerData.countP fun o => o.1 == p := by
    unfold gh ghostList
    rw [List.length_map, ← List.countP_eq_length_filter]
    have : ((D r).ownerData.zipIdx.map Prod.fst).countP (fun o => o.1 == p) = (D r).ownerData.countP fun o => o.1 == p := by
      rw [List.zipIdx_map_fst]
    rw [← this, List.countP_map]
    rfl
  -- all entities
  let A : List (Nat × Nat) := (List.range 3).flatMap fun d => ((G r).entityIter d).map fun e => (d, e.localIndex)
  have hperm : ((allVisits (G r) fam).map fun v => (v.d, v.e)).eraseDups.Perm A := by
    rw [List.perm_ext_iff_of_nodup (nodup_eraseDups _ _ (le_refl _))]
    · rintro ⟨d, e⟩
      rw [List.mem_eraseDups, List.mem_map]
      simp only [A, List.mem_flatMap, List.mem_range, List.mem_map, Prod.mk.injEq]
      constructor
      · rintro ⟨v, hv, rfl, rfl⟩
        obtain ⟨c, hc, hv⟩ := List.mem_flatMap.mp hv
        obtain ⟨_, _, hd, hi⟩ := mem_visitsOf.mp hv
        have := wf.sub_lt c hc v.d hd v.e (List.mem_of_getElem? hi)
        have := (wf.index v.d hd).mem_iff.mpr (List.mem_range.mpr this)
        obtain ⟨e, he, hee⟩ := List.mem_map.mp this
        exact ⟨v.d, by omega, e, he, rfl, hee⟩
      · rintro ⟨d', hd, ent, hent, rfl, rfl⟩
        have hlt : ent.localIndex < (G r).count d' :=
          List.mem_range.mp ((wf.index d' (by omega)).mem_iff.mp (List.mem_map_of_mem hent))
        obtain ⟨c, hc, hce⟩ := wf.covered d' (by omega) _ hlt
        obtain ⟨i, hi⟩ := List.getElem?_of_mem hce
        exact ⟨⟨c.localIndex, elOf fam c, d', i, ent.localIndex⟩,
          List.mem_flatMap.mpr ⟨c, hc, mem_visitsOf.mpr ⟨rfl, rfl, by simp only; omega, hi⟩⟩, rfl, rfl⟩
    · rw [List.nodup_flatMap]
      refine ⟨?_, ?_⟩
      · intro d hd
        have h1 : ((G r).entityIter d).map (fun e => (d, e.localIndex)) =
            (((G r).entityIter d).map Entity.localIndex).map fun i => (d, i) := by simp
        rw [h1]
        exact ((wf.index d (by have := List.mem_range.mp hd; omega)).nodup_iff.mpr List.nodup_range).map
          fun a b h => (Prod.mk.inj h).2
      · refine List.nodup_range.imp ?_
        intro a b hab x hx hy
        obtain ⟨_, _, rfl⟩ := List.mem_map.mp hx
        obtain ⟨_, _, h⟩ := List.mem_map.mp hy
        exact hab (Prod.mk.inj h).1.symm
  have key : ∀ l : List (Nat × Nat), ((l.flatMap fun x => (List.range (nd r x.1 x.2)).map fun k => (x.1, x.2, k)).map
      (ownerOf r (G r))).countP (fun o => o.1 == p) =
        (l.map fun x => if (ownerOf r (G r) (x.1, x.2, 0)).1 = p then nd r x.1 x.2 else 0).sum := by
    intro l
    induction l with
    | nil => rfl
    | cons x l ih =>
      rw [List.flatMap_cons, List.map_append, List.countP_append, ih, List.map_cons, List.sum_cons]
      congr 1
      have : ∀ k, (ownerOf r (G r) (x.1, x.2, k)).1 = (ownerOf r (G r) (x.1, x.2, 0)).1 := by
        intro k
        unfold ownerOf
        simp only
        split
        · split <;> rfl
        · rfl
      rw [List.map_map, List.countP_map]
      split
      · rename_i h
        rw [List.countP_eq_length.mpr]
        · simp
        · intro k _
          simp [this, h]
      · rename_i h
        rw [List.countP_eq_zero.mpr]
        intro k _
        simp [this, h]
  rw [e1, h2, h4]
  unfold dofPlaces
  rw [key, (hperm.map _).sum_eq]
  unfold ghostDofs
  simp only [A]
  rw [List.map_flatMap]
  have hsum : ∀ (l : List Nat) (f : Nat → List Nat), (l.flatMap f).sum = (l.map fun d => (f d).sum).sum := by
    intro l f
    induction l with
    | nil => rfl
    | cons a l ih => simp [ih]
  rw [hsum]
  congr 1
  apply List.map_congr_left
  intro d hd
  rw [List.map_map]
  congr 1
  apply List.map_congr_left
  intro e he
  have := wf.entity d (by have := List.mem_range.mp hd; omega) e he
  simp only [Function.comp, ownerOf, this]
  cases e.ownership with
  | owned => simp [Ne.symm hp]
  | ghost q i => simp

end Bempp
