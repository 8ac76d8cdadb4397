import Verif.Proofs.Eager
import Verif.Spec.Traffic
import Mathlib.Algebra.BigOperators.Fin
import Mathlib.Algebra.BigOperators.Ring.Finset
import Mathlib.Tactic.Ring
/-
C100: the messages of an execution.
-/
namespace Bempp
open Finset

variable {α : Type} {n : Nat} {T : Nat → Trace} {res : Nat → α}

/-- A logged execution is an execution. -/
theorem Logged.reach {c₀ c : Config α} {k : Nat} {log : List Sent} (h : Logged n c₀ k c log) :
    Config.Reach (Config.Step n) k c₀ c := by
  induction h with
  | start => exact .refl _
  | send r d m rest hr _ hp ih => exact .tail ih (.send _ r d m rest hr hp)
  | recv r s m ms rest hr _ hp hc ih => exact .tail ih (.recv _ r s m ms rest hr hp hc)

/-- Every execution has a log. -/
theorem reach_logged {c₀ c : Config α} {k : Nat} (h : Config.Reach (Config.Step n) k c₀ c) :
    ∃ log, Logged n c₀ k c log := by
  induction h with
  | refl => exact ⟨[], .start⟩
  | tail _ hs ih =>
    obtain ⟨log, hl⟩ := ih
    cases hs with
    | send r d m rest hr hp => exact ⟨_, .send r d m rest hr hl hp⟩
    | recv r s m ms rest hr hp hc => exact ⟨_, .recv r s m ms rest hr hl hp hc⟩

theorem sizes_append (l l' : List Sent) (s d : Nat) : sizes (l ++ l') s d = sizes l s d ++ sizes l' s d := by
  simp [sizes]

theorem le_sum_mem {a : Nat} : ∀ {l : List Nat}, a ∈ l → a ≤ l.sum
  | b :: l, h => by
    rw [List.sum_cons]
    rcases List.mem_cons.mp h with h | h
    · omega
    · have := le_sum_mem h; omega

/-- The log follows the traces. -/
theorem logged_inv (hM : Matching n T) {P : Nat → Prog α} (hP : ∀ r, r < n → Runs (P r) (T r) (res r))
    {k : Nat} {c c0 : Config α} {log : List Sent} (h : Logged n c0 k c log) (h0 : c0 = Config.init P) :
    ∃ pre suf, NetInv n T res c pre suf ∧ doneCount n pre = k ∧ (∀ x ∈ log, x.src < n ∧ x.dst < n) ∧
      ∀ s d, s < n → d < n → sizes log s d = (sendsTo d (pre s)).map fun x => x.1.length := by
  induction h with
  | start =>
    obtain ⟨pre, suf, inv, hk⟩ := net_reach hM hP (Config.Reach.refl c0) h0
    refine ⟨pre, suf, inv, hk, by simp, fun s d hs hd => ?_⟩
    have hz : pre s = [] := by
      have : (pre s).length ≤ doneCount n pre := by
        unfold doneCount
        exact le_sum_mem (List.mem_map.mpr ⟨s, List.mem_range.mpr hs, rfl⟩)
      exact List.length_eq_zero_iff.mp (by omega)
    rw [hz]; simp [sizes, sendsTo]
  | @send k c log r d m rest hr _ hp ih =>
    obtain ⟨pre, suf, inv, hk, hb, hl⟩ := ih
    obtain ⟨τ, rs, hsuf, inv'⟩ := net_send inv hr hp
    have hmem : (Act.send d m, τ) ∈ T r := by rw [inv.split r hr, hsuf]; simp
    have hd := hM.dst r hr d m τ hmem
    refine ⟨_, _, inv', by rw [doneCount_update n pre r hr, hk], ?_, ?_⟩
    · intro x hx
      rcases List.mem_append.mp hx with hx | hx
      · exact hb x hx
      · rw [List.mem_singleton] at hx; subst hx; exact ⟨hr, hd⟩
    · intro s e hs he
      rw [sizes_append, hl s e hs he]
      by_cases h : s = r
      · subst h
        rw [if_pos rfl, sendsTo_append, List.map_append]
        congr 1
        by_cases h' : d = e <;> simp [sizes, sendsTo, h']
      · rw [if_neg h]
        have h' : ¬ r = s := fun e => h e.symm
        simp [sizes, h']
  | @recv k c log r s m ms rest hr _ hp hc ih =>
    obtain ⟨pre, suf, inv, hk, hb, hl⟩ := ih
    obtain ⟨τ, rs, hsuf, inv'⟩ := net_recv hM inv hr hp hc
    refine ⟨_, _, inv', by rw [doneCount_update n pre r hr, hk], hb, ?_⟩
    intro s' e hs he
    rw [hl s' e hs he]
    by_cases h : s' = r
    · subst h
      rw [if_pos rfl, sendsTo_append, List.map_append]
      simp [sendsTo]
    · rw [if_neg h]

theorem sum_update (f g : Nat → Nat → Nat) {s d : Nat} (hs : s < n) (hd : d < n) (h : ∀ s' d', ¬ (s' = s ∧ d' = d) → f s' d' = g s' d') :
    (∑ a ∈ range n, ∑ b ∈ range n, f a b) + g s d = (∑ a ∈ range n, ∑ b ∈ range n, g a b) + f s d := by
  have split : ∀ u : Nat → Nat → Nat, ∑ a ∈ range n, ∑ b ∈ range n, u a b =
      u s d + ((∑ b ∈ (range n).erase d, u s b) + ∑ a ∈ (range n).erase s, ∑ b ∈ range n, u a b) := by
    intro u
    rw [← add_sum_erase (range n) _ (mem_range.mpr hs), ← add_sum_erase (range n) (u s) (mem_range.mpr hd), add_assoc]
  rw [split f, split g]
  have e1 : ∑ b ∈ (range n).erase d, f s b = ∑ b ∈ (range n).erase d, g s b :=
    sum_congr rfl fun b hb => h s b fun e => (mem_erase.mp hb).1 e.2
  have e2 : ∑ a ∈ (range n).erase s, ∑ b ∈ range n, f a b = ∑ a ∈ (range n).erase s, ∑ b ∈ range n, g a b :=
    sum_congr rfl fun a ha => sum_congr rfl fun b _ => h a b fun e => (mem_erase.mp ha).1 e.1
  rw [e1, e2]
  omega

/-- Each step sends or receives one message. -/
theorem logged_steps {P : Nat → Prog α} {k : Nat} {c c0 : Config α} {log : List Sent} (h : Logged n c0 k c log)
    (h0 : c0 = Config.init P) (hb : ∀ x ∈ log, x.src < n ∧ x.dst < n) :
    (∀ s d, ¬ (s < n ∧ d < n) → c.chan s d = []) ∧
    k + ∑ s ∈ range n, ∑ d ∈ range n, (c.chan s d).length = 2 * log.length := by
  induction h with
  | start => subst h0; simp [Config.init]
  | @send k c log r d m rest hr _ hp ih =>
    obtain ⟨i1, i2⟩ := ih fun x hx => hb x (by simp [hx])
    have hd : d < n := (hb ⟨r, d, m⟩ (by simp)).2
    refine ⟨?_, ?_⟩
    · intro s e hse
      simp only [Config.setChan]
      rw [if_neg, i1 s e hse]
      rintro ⟨rfl, rfl⟩
      exact hse ⟨hr, hd⟩
    · have := sum_update (n := n) (fun s e => ((c.setChan r d (c.chan r d ++ [m])) s e).length) (fun s e => (c.chan s e).length) hr hd
        (by intro s e hne; simp only [Config.setChan]; rw [if_neg hne])
      have e1 : ((c.setChan r d (c.chan r d ++ [m])) r d).length = (c.chan r d).length + 1 := by
        simp [Config.setChan]
      simp only at this ⊢
      rw [e1] at this
      rw [List.length_append, List.length_singleton]
      omega
  | @recv k c log r s m ms rest hr _ hp hc ih =>
    obtain ⟨i1, i2⟩ := ih hb
    have hs : s < n := by
      by_contra hs
      rw [i1 s r (fun e => hs e.1)] at hc
      cases hc
    refine ⟨?_, ?_⟩
    · intro a e hse
      simp only [Config.setChan]
      rw [if_neg, i1 a e hse]
      rintro ⟨rfl, rfl⟩
      exact hse ⟨hs, hr⟩
    · have := sum_update (n := n) (fun a e => ((c.setChan s r ms) a e).length) (fun a e => (c.chan a e).length) hs hr
        (by intro a e hne; simp only [Config.setChan]; rw [if_neg hne])
      have e1 : ((c.setChan s r ms) s r).length = ms.length := by simp [Config.setChan]
      simp only at this ⊢
      rw [e1, hc, List.length_cons] at this
      omega

/-- A sum over the log is the sum over all channels. -/
theorem log_sum (f : Nat → Nat) : ∀ log : List Sent, (∀ x ∈ log, x.src < n ∧ x.dst < n) →
    (log.map fun x => f x.msg.length).sum =
      ∑ s ∈ range n, ∑ d ∈ range n, ((sizes log s d).map f).sum
  | [], _ => by simp [sizes]
  | x :: log, h => by
    have hx := h x (by simp)
    rw [List.map_cons, List.sum_cons, log_sum f log fun y hy => h y (by simp [hy])]
    have : ∀ s d, ((sizes (x :: log) s d).map f).sum =
        (if x.src = s then if x.dst = d then f x.msg.length else 0 else 0) + ((sizes log s d).map f).sum := by
      intro s d
      unfold sizes
      rw [List.filter_cons]
      by_cases h1 : x.src = s <;> by_cases h2 : x.dst = d <;> simp [h1, h2]
    simp only [this, sum_add_distrib]
    congr 1
    rw [sum_eq_single x.src]
    · rw [sum_eq_single x.dst]
      · simp
      · intro b _ hb; simp [hb.symm]
      · intro hb; exact absurd (mem_range.mpr hx.2) hb
    · intro b _ hb; simp [hb.symm]
    · intro hb; exact absurd (mem_range.mpr hx.1) hb

/-- The offsets: one message to the next process. -/
theorem sum_next (hn : 0 < n) : ∑ s ∈ range n, ∑ d ∈ range n, (if d = s + 1 then 1 else 0) = n - 1 := by
  have : ∀ s ∈ range n, ∑ d ∈ range n, (if d = s + 1 then 1 else 0) = if s + 1 < n then 1 else 0 := by
    intro s _
    rw [sum_ite_eq']
    simp
  rw [sum_congr rfl this]
  obtain ⟨m, rfl⟩ : ∃ m, n = m + 1 := ⟨n - 1, by omega⟩
  rw [sum_range_succ]
  simp only [lt_irrefl, if_false, add_zero, Nat.add_sub_cancel]
  rw [sum_congr rfl (g := fun _ => 1) fun s hs => by rw [if_pos]; have := mem_range.mp hs; omega]
  simp

/-- The total: one message from the last process to each of the others. -/
theorem sum_last (hn : 0 < n) : ∑ s ∈ range n, ∑ d ∈ range n, (if s + 1 = n ∧ d < s then 1 else 0) = n - 1 := by
  obtain ⟨m, rfl⟩ : ∃ m, n = m + 1 := ⟨n - 1, by omega⟩
  rw [sum_range_succ]
  have h0 : ∀ s ∈ range m, ∑ d ∈ range (m + 1), (if s + 1 = m + 1 ∧ d < s then 1 else 0) = 0 := by
    intro s hs
    have := mem_range.mp hs
    refine sum_eq_zero fun d _ => ?_
    rw [if_neg]; omega
  rw [sum_congr rfl h0, sum_range_succ]
  simp only [sum_const_zero, true_and, lt_irrefl, if_false, add_zero, zero_add, Nat.add_sub_cancel]
  rw [sum_congr rfl (g := fun _ => 1) fun s hs => by rw [if_pos]; exact mem_range.mp hs]
  simp

/-- Pairs of different processes. -/
theorem sum_pairs (n : Nat) : ∑ s ∈ range n, ∑ d ∈ range n, (if s = d then 0 else 1) = n * (n - 1) := by
  have : ∀ s ∈ range n, ∑ d ∈ range n, (if s = d then 0 else 1) = n - 1 := by
    intro s hs
    have h1 : ∑ d ∈ range n, (if s = d then 0 else 1) + ∑ d ∈ range n, (if s = d then 1 else 0) = n := by
      rw [← sum_add_distrib, sum_congr rfl (g := fun _ => 1) fun d _ => by split <;> rfl]
      simp
    rw [sum_ite_eq, if_pos hs] at h1
    omega
  rw [sum_congr rfl this]
  simp

/-- Questions and answers have the same lengths. -/
theorem sum_need (need : Nat → Nat → Nat) :
    ∑ s ∈ range n, ∑ d ∈ range n, (if s = d then 0 else 3 * need s d + 2 * need d s) =
      5 * ∑ s ∈ range n, ∑ d ∈ range n, if s = d then 0 else need s d := by
  have h1 : ∀ s d, (if s = d then 0 else 3 * need s d + 2 * need d s) =
      3 * (if s = d then 0 else need s d) + 2 * (if d = s then 0 else need d s) := by
    intro s d
    by_cases h : s = d
    · simp [h]
    · have h' : ¬ d = s := fun e => h e.symm
      simp [h, h']
  simp only [h1, sum_add_distrib, ← mul_sum]
  have h2 : ∑ s ∈ range n, ∑ d ∈ range n, (if d = s then 0 else need d s) =
      ∑ s ∈ range n, ∑ d ∈ range n, if s = d then 0 else need s d := sum_comm
  rw [h2]
  ring

end Bempp
