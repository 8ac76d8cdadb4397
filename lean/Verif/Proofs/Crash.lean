import Verif.Proofs.Waiting
import Verif.Model.Crash
import Mathlib.Algebra.BigOperators.Group.Finset.Basic
/-
Executions in which processes stop.
-/
namespace Bempp
open FunctionSpace

variable {α : Type} {n : Nat} {T : Nat → Trace} {res : Nat → α} {D : Nat → DofState}

namespace CrashConfig

/-- The state of an execution: process `r` has done `pre r` and still has to do `suf r`; `gone s d` was sent from `s` to `d` and
lost. -/
structure Inv (n : Nat) (T : Nat → Trace) (res : Nat → α) (c : CrashConfig α) (pre suf : Nat → Trace)
    (gone : Nat → Nat → List Msg) : Prop where
  net : NetInv n T res ⟨c.net.prog, fun s d => c.net.chan s d ++ gone s d⟩ pre suf
  alive : ∀ s, c.dead s = false → ∀ d, gone s d = []
  sent : ∀ s d, s < n → c.sent s d = (sendsTo d (pre s)).length
  lost : ∀ s d, c.lost s d = (gone s d).length

theorem sum_range_one (f g : Nat → Nat) {r : Nat} : ∀ {n : Nat}, r < n → (∀ q, q ≠ r → f q = g q) →
    ∑ q ∈ Finset.range n, f q + g r = ∑ q ∈ Finset.range n, g q + f r
  | 0, h, _ => absurd h (Nat.not_lt_zero _)
  | n + 1, h, hq => by
    rw [Finset.sum_range_succ, Finset.sum_range_succ]
    by_cases hr : r = n
    · subst hr
      have : ∑ q ∈ Finset.range r, f q = ∑ q ∈ Finset.range r, g q :=
        Finset.sum_congr rfl fun q hq' => hq q (by rw [Finset.mem_range] at hq'; omega)
      omega
    · have := sum_range_one f g (r := r) (n := n) (by omega) hq
      have := hq n (by omega)
      omega

/-- A number that every step decreases. -/
def fuel (n : Nat) (c : CrashConfig α) (suf : Nat → Trace) : Nat :=
  2 * ∑ r ∈ Finset.range n, (suf r).length + ∑ r ∈ Finset.range n, (if c.dead r then 0 else 1) +
    ∑ s ∈ Finset.range n, ∑ d ∈ Finset.range n, (c.net.chan s d).length

theorem sum_suf {suf : Nat → Trace} {r : Nat} (hr : r < n) {x : Act × Nat} {u : Trace} (h : suf r = x :: u) :
    ∑ q ∈ Finset.range n, (if q = r then u else suf q).length + 1 = ∑ q ∈ Finset.range n, (suf q).length := by
  have := sum_range_one (fun q => (if q = r then u else suf q).length) (fun q => (suf q).length) hr
    (fun q hq => by simp [hq])
  simp only [if_true, h, List.length_cons] at this
  omega

theorem sum_chan (c : Config α) {s d : Nat} (hs : s < n) (hd : d < n) (l : List Msg) :
    ∑ s' ∈ Finset.range n, ∑ d' ∈ Finset.range n, (c.setChan s d l s' d').length + (c.chan s d).length =
      ∑ s' ∈ Finset.range n, ∑ d' ∈ Finset.range n, (c.chan s' d').length + l.length := by
  have h1 := sum_range_one (fun s' => ∑ d' ∈ Finset.range n, (c.setChan s d l s' d').length)
    (fun s' => ∑ d' ∈ Finset.range n, (c.chan s' d').length) hs (fun q hq => by simp [Config.setChan, hq])
  have h2 := sum_range_one (fun d' => (c.setChan s d l s d').length) (fun d' => (c.chan s d').length) hd
    (fun q hq => by simp [Config.setChan, hq])
  simp only [Config.setChan, and_self, if_true] at h2
  simp only [Config.setChan] at h1 ⊢
  omega

theorem inv_init {P : Nat → Prog α} (hP : ∀ r, r < n → Runs (P r) (T r) (res r)) :
    Inv n T res (init (Config.init P)) (fun _ => []) T fun _ _ => [] where
  net := ⟨fun _ _ => rfl, hP, fun _ _ _ _ => rfl⟩
  alive _ _ _ := rfl
  sent _ _ _ := rfl
  lost _ _ := rfl

theorem inv_move (hM : Matching n T) {c c' : CrashConfig α} {pre suf : Nat → Trace} {gone : Nat → Nat → List Msg}
    (inv : Inv n T res c pre suf gone) (h : Move n c c') :
    ∃ pre' suf', Inv n T res c' pre' suf' gone ∧ fuel n c' suf' < fuel n c suf := by
  cases h with
  | send r d m k hr ha hp =>
    obtain ⟨τ, u, hu, hn⟩ := net_send inv.net hr hp
    have hd : d < n := hM.dst r hr d m τ (by rw [inv.net.split r hr, hu]; simp)
    refine ⟨fun q => if q = r then pre q ++ [(.send d m, τ)] else pre q, fun q => if q = r then u else suf q,
      ⟨?_, inv.alive, ?_, inv.lost⟩, ?_⟩
    rotate_left 2
    · unfold fuel
      have h1 := sum_suf hr hu
      have h2 := sum_chan c.net hr hd (c.net.chan r d ++ [m])
      simp only [List.length_append, List.length_singleton] at h2
      dsimp only
      omega
    · have e : (fun s' d' => c.net.setChan r d (c.net.chan r d ++ [m]) s' d' ++ gone s' d') =
          (⟨c.net.prog, fun s d => c.net.chan s d ++ gone s d⟩ : Config α).setChan r d
            (c.net.chan r d ++ gone r d ++ [m]) := by
        funext s' d'
        simp only [Config.setChan]
        split
        · rename_i h'
          obtain ⟨rfl, rfl⟩ := h'
          simp [inv.alive _ ha]
        · rfl
      have hn' := hn
      rw [← e] at hn'
      exact hn'
    · intro s' d' hs'
      simp only [incr]
      by_cases hsr : s' = r
      · subst hsr
        rw [if_pos rfl, sendsTo_append, List.length_append, ← inv.sent s' d' hs']
        by_cases hdd : d' = d
        · subst hdd
          simp [sendsTo]
        · have : d ≠ d' := fun e => hdd e.symm
          simp [sendsTo, hdd, this]
      · simp [hsr, inv.sent s' d' hs']
  | recv r s m rest k hr ha hp hc =>
    obtain ⟨τ, u, hu, hn⟩ := net_recv hM inv.net (m := m) (rest := rest ++ gone s r) hr hp (by simp [hc])
    have hs : s < n := hM.src r hr s m τ (by rw [inv.net.split r hr, hu]; simp)
    refine ⟨fun q => if q = r then pre q ++ [(.recv s m, τ)] else pre q, fun q => if q = r then u else suf q,
      ⟨?_, inv.alive, ?_, inv.lost⟩, ?_⟩
    rotate_left 2
    · unfold fuel
      have h1 := sum_suf hr hu
      have h2 := sum_chan c.net hs hr rest
      rw [hc] at h2
      simp only [List.length_cons] at h2
      dsimp only
      omega
    · have e : (fun s' d' => c.net.setChan s r rest s' d' ++ gone s' d') =
          (⟨c.net.prog, fun s d => c.net.chan s d ++ gone s d⟩ : Config α).setChan s r (rest ++ gone s r) := by
        funext s' d'
        simp only [Config.setChan]
        split
        · rename_i h'
          obtain ⟨rfl, rfl⟩ := h'
          rfl
        · rfl
      have hn' := hn
      rw [← e] at hn'
      exact hn'
    · intro s' d' hs'
      by_cases hsr : s' = r
      · subst hsr
        rw [if_pos rfl, sendsTo_append, List.length_append, ← inv.sent s' d' hs']
        simp [sendsTo]
      · simp [hsr, inv.sent s' d' hs']

theorem inv_step (hM : Matching n T) {c c' : CrashConfig α} {pre suf : Nat → Trace} {gone : Nat → Nat → List Msg}
    (inv : Inv n T res c pre suf gone) (h : Step n c c') :
    ∃ pre' suf' gone', Inv n T res c' pre' suf' gone' ∧ fuel n c' suf' < fuel n c suf := by
  cases h with
  | move h =>
    obtain ⟨pre', suf', h1, h2⟩ := inv_move hM inv h
    exact ⟨pre', suf', gone, h1, h2⟩
  | crash r hr ha =>
    refine ⟨pre, suf, gone, ⟨inv.net, ?_, inv.sent, inv.lost⟩, ?_⟩
    · intro s hs
      by_cases h : s = r
      · simp [h] at hs
      · simp only [h, if_false] at hs
        exact inv.alive s hs
    · have := sum_range_one (fun q => if (if q = r then true else c.dead q) then 0 else 1)
        (fun q => if c.dead q then 0 else 1) hr (fun q hq => by simp [hq])
      simp only [if_true, ha] at this
      unfold fuel
      dsimp only
      simp only [Bool.false_eq_true, if_false] at this
      omega
  | lose s d l m hs hd ha hc =>
    refine ⟨pre, suf, fun s' d' => if s' = s ∧ d' = d then m :: gone s d else gone s' d', ⟨?_, ?_, inv.sent, ?_⟩, ?_⟩
    · convert inv.net using 2
      funext s' d'
      simp only [Config.setChan]
      split
      · rename_i h'
        obtain ⟨rfl, rfl⟩ := h'
        simp [hc]
      · rfl
    · intro s' hs' d'
      have : s' ≠ s := by rintro rfl; rw [ha] at hs'; cases hs'
      simp [this, inv.alive s' hs']
    · intro s' d'
      simp only [incr]
      split
      · rw [inv.lost]; rfl
      · exact inv.lost s' d'
    · have h2 := sum_chan c.net hs hd l
      rw [hc] at h2
      simp only [List.length_append, List.length_singleton] at h2
      unfold fuel
      dsimp only
      omega

theorem inv_reach (hM : Matching n T) {P : Nat → Prog α} (hP : ∀ r, r < n → Runs (P r) (T r) (res r)) {k : Nat}
    {c c0 : CrashConfig α} (h : Reach n k c0 c) (h0 : c0 = init (Config.init P)) :
    ∃ pre suf gone, Inv n T res c pre suf gone ∧ k + fuel n c suf ≤ fuel n c0 T := by
  induction h with
  | refl =>
    subst h0
    exact ⟨_, _, _, inv_init hP, by simp⟩
  | tail _ hs ih =>
    obtain ⟨pre, suf, gone, inv, hf⟩ := ih h0
    obtain ⟨pre', suf', gone', inv', hf'⟩ := inv_step hM inv hs
    exact ⟨pre', suf', gone', inv', by omega⟩

/-- A process that has returned has received everything that was to be sent to it. -/
theorem inv_done {c : CrashConfig α} {pre suf : Nat → Trace} {gone : Nat → Nat → List Msg} (hM : Matching n T)
    (inv : Inv n T res c pre suf gone) {r : Nat} (hr : r < n) {x : α} (h : c.net.prog r = .done x) :
    x = res r ∧ ∀ p, p < n → c.sent p r = (sendsTo r (T p)).length ∧ c.lost p r = 0 := by
  have hrun := inv.net.runs r hr
  simp only [h] at hrun
  cases hs : suf r with
  | cons y u => rw [hs] at hrun; cases hrun
  | nil =>
  rw [hs] at hrun
  cases hrun with
  | done =>
  refine ⟨rfl, fun p hp => ?_⟩
  have hpre : T r = pre r := by rw [inv.net.split r hr, hs, List.append_nil]
  have hc := congrArg List.length (inv.net.chan p r hp hr)
  have hm := (hM.chan p r hp hr).length_eq
  have hle : (sendsTo r (T p)).length = (sendsTo r (pre p)).length + (sendsTo r (suf p)).length := by
    rw [inv.net.split p hp, sendsTo_append, List.length_append]
  simp only [List.length_map, List.length_append] at hc
  rw [hpre] at hm
  rw [inv.sent p r hp, inv.lost]
  omega

/-- An execution without losses that cannot continue: a process returns if it has got everything from those that stopped. -/
theorem inv_stuck {c : CrashConfig α} {pre suf : Nat → Trace} {gone : Nat → Nat → List Msg}
    (inv : Inv n (traceOf n D) res c pre suf gone) (hlost : ∀ s d, s < n → d < n → c.lost s d = 0)
    (hstuck : ¬ ∃ c', Move n c c') {r : Nat} (hr : r < n) (hlive : c.dead r = false)
    (hall : ∀ p, p < n → p ≠ r → c.dead p = true → c.sent p r = (sendsTo r (traceOf n D p)).length) :
    c.net.prog r = .done (res r) := by
  have hempty : ∀ s d, s < n → d < n → gone s d = [] := fun s d hs hd =>
    List.eq_nil_of_length_eq_zero ((inv.lost s d).symm.trans (hlost s d hs hd))
  -- the first pending action of a process that has not stopped is a receive without message
  have hhead : ∀ q, q < n → c.dead q = false → ∀ x u, suf q = x :: u →
      ∃ s m, x.1 = .recv s m ∧ s < n ∧ ∃ τ, x.2 = τ + 1 ∧ (Act.send q m, τ) ∈ suf s := by
    rintro q hq ha ⟨a, τ⟩ u hu
    cases a with
    | send d m =>
      obtain ⟨k, hk⟩ := prog_send inv.net hq hu
      exact absurd ⟨_, Move.send c q d m k hq ha hk⟩ hstuck
    | recv s m =>
      have hs : s < n := (traceOf_matching n D).src q hq s m τ (mem_of_suf inv.net hq (by rw [hu]; simp))
      obtain ⟨k, hk⟩ := prog_recv inv.net hq hu
      have hc : c.net.chan s q = [] := by
        cases hc : c.net.chan s q with
        | nil => rfl
        | cons m' rest => exact absurd ⟨_, Move.recv c q s m' rest k hq ha hk hc⟩ hstuck
      obtain ⟨τ', h1, h2⟩ := pending_send inv.net hs hq hu (by simp [hc, hempty s q hs hq])
      exact ⟨s, m, rfl, hs, τ', h1, h2⟩
  -- nothing that is to be sent to `r` by a process that has stopped is pending
  have hsent : ∀ p, p < n → p ≠ r → c.dead p = true → sendsTo r (suf p) = [] := by
    intro p hp hpr hd
    have h1 := hall p hp hpr hd
    have h2 := congrArg (fun t => (sendsTo r t).length) (inv.net.split p hp)
    simp only [sendsTo_append, List.length_append] at h2
    rw [inv.sent p r hp] at h1
    exact List.eq_nil_of_length_eq_zero (by omega)
  -- so these processes have sent all requests
  have hdead : ∀ p, p < n → p ≠ r → c.dead p = true → ∀ y ∈ suf p, 2 * n + 2 < y.2 := by
    intro p hp hpr hd y hy
    by_contra hlt
    have hx : (gloAns D r p, 2 * n + 3) ∈ sendsTo r (traceOf n D p) := by
      rw [sendsTo_traceOf n D hp hr]
      simp [hpr]
    rw [mem_sendsTo, inv.net.split p hp, List.mem_append] at hx
    rcases hx with hx | hx
    · have hpw := (traceOf_matching n D).sorted p hp
      rw [inv.net.split p hp, List.pairwise_append] at hpw
      have := hpw.2.2 _ hx _ hy
      dsimp only at this
      omega
    · have := mem_sendsTo.2 hx
      rw [hsent p hp hpr hd] at this
      cases this
  have hlate : ∀ τ, τ ≤ 2 * n + 3 → ∀ q, q < n → c.dead q = false → ∀ x u, suf q = x :: u → x.2 = τ → False := by
    intro τ
    induction τ using Nat.strong_induction_on with
    | _ τ ih =>
    intro hτ q hq ha x u hu hx
    obtain ⟨s, m, -, hs, τ', hτ', hp⟩ := hhead q hq ha x u hu
    cases hds : c.dead s with
    | true =>
      have := hdead s hs (by rintro rfl; rw [hlive] at hds; cases hds) hds _ hp
      dsimp only at this
      omega
    | false =>
      obtain ⟨y, v, hy⟩ := exists_head hp
      have := keyLe_stamp (head_le inv.net hs hy hp)
      dsimp only at this
      exact ih y.2 (by omega) (by omega) s hs hds y v hy rfl
  have hrun := inv.net.runs r hr
  cases hsr : suf r with
  | nil =>
    rw [hsr] at hrun
    dsimp only at hrun
    generalize hp : c.net.prog r = P at hrun
    cases hrun
    rfl
  | cons x u =>
    exfalso
    obtain ⟨s, m, hx, hs, τ', hτ', hp⟩ := hhead r hr hlive x u hsr
    have hle : x.2 ≤ 2 * n + 4 := by
      have hmem : x ∈ traceOf n D r := mem_of_suf inv.net hr (by rw [hsr]; simp)
      obtain ⟨a, τ⟩ := x
      dsimp only at hx
      subst hx
      have := recv_kind hr hmem
      dsimp only
      omega
    cases hds : c.dead s with
    | true =>
      have := mem_sendsTo.2 hp
      rw [hsent s hs (by rintro rfl; rw [hlive] at hds; cases hds) hds] at this
      cases this
    | false =>
      obtain ⟨y, v, hy⟩ := exists_head hp
      have := keyLe_stamp (head_le inv.net hs hy hp)
      dsimp only at this
      exact hlate y.2 (by omega) s hs hds y v hy rfl

end CrashConfig
end Bempp
