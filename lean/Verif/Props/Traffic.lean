import Verif.Proofs.Traffic
import Verif.Props.Eager
import Mathlib.Algebra.Order.BigOperators.Group.Finset
/-
C100: how many messages are sent while a space is created, and how long they are.
-/
namespace Bempp
open Examples Finset

variable {n : Nat} {G : Nat → Grid} {fam : CellType → ElementDofs} {nd : Nat → Nat → Nat → Nat}

/-- The lengths of the messages of a trace are the planned ones. -/
theorem trace_sizes (dist : Distributed n G fam nd) {D : Nat → DofState} (hD : AllDofs n G fam nd D) {s d : Nat} (hs : s < n) (hd : d < n) :
    ((sendsTo d (traceOf n D s)).map fun x => x.1.length) = plannedSizes n (fun p q => ghostDofs (G p) (nd p) q) s d := by
  rw [sendsTo_traceOf n D hs hd]
  unfold plannedSizes
  by_cases h : s = d
  · subst h
    simp
  · have e1 := gh_length dist hD hs (fun e : d = s => h e.symm)
    have e2 := gh_length dist hD hd h
    have e3 : (locAns D d s).length = ghostDofs (G d) (nd d) s := by unfold locAns; rw [List.length_map, e2]
    have e4 : (gloAns D d s).length = ghostDofs (G d) (nd d) s := by unfold gloAns; rw [List.length_map, e3]
    simp only [List.map_append, if_neg h, List.map_cons, List.map_nil, List.length_map, e1, e3, e4]
    rw [List.append_assoc]
    congr 1
    · split <;> rfl
    · congr 1
      split <;> rfl

/-- **C100, each channel.** In an execution in which all processes create a space, the messages that a process has sent to another one
have, at every time, the planned lengths, as far as they were sent; when all processes have returned all of them were sent. -/
theorem C100_messages (dist : Distributed n G fam nd) {k : Nat} {c : Config FunctionSpace} {log : List Sent}
    (h : Logged n (launch n G fam) k c log) {s d : Nat} (hs : s < n) (hd : d < n) :
    sizes log s d <+: plannedSizes n (fun p q => ghostDofs (G p) (nd p) q) s d ∧
    ((∀ r, r < n → ∃ sp, c.prog r = .done sp) → sizes log s d = plannedSizes n (fun p q => ghostDofs (G p) (nd p) q) s d) := by
  obtain ⟨D, hD⟩ := allDofs_exists n G fam nd dist
  obtain ⟨pre, suf, inv, _, _, hl⟩ := logged_inv (traceOf_matching n D) (fun r hr => new_runs dist hD hr) h rfl
  rw [hl s d hs hd, ← trace_sizes dist hD hs hd, inv.split s hs]
  refine ⟨?_, fun hdone => ?_⟩
  · rw [sendsTo_append, List.map_append]
    exact List.prefix_append _ _
  · obtain ⟨sp, hsp⟩ := hdone s hs
    have := inv.runs s hs
    rw [hsp] at this
    have hnil : suf s = [] := by
      generalize suf s = t at this
      cases this; rfl
    rw [hnil, List.append_nil]

/-- All messages go from one of the processes to another one. -/
theorem C100_between (dist : Distributed n G fam nd) {k : Nat} {c : Config FunctionSpace} {log : List Sent}
    (h : Logged n (launch n G fam) k c log) : ∀ x ∈ log, x.src < n ∧ x.dst < n ∧ x.src ≠ x.dst := by
  obtain ⟨D, hD⟩ := allDofs_exists n G fam nd dist
  obtain ⟨_, _, _, _, hb, _⟩ := logged_inv (traceOf_matching n D) (fun r hr => new_runs dist hD hr) h rfl
  intro x hx
  refine ⟨(hb x hx).1, (hb x hx).2, fun he => ?_⟩
  have h1 := (C100_messages dist h (hb x hx).1 (hb x hx).2).1
  have h2 : x.msg.length ∈ sizes log x.src x.dst := by
    unfold sizes
    exact List.mem_map.mpr ⟨x, List.mem_filter.mpr ⟨hx, by simp⟩, rfl⟩
  have h3 := h1.subset h2
  rw [he] at h3
  simp [plannedSizes] at h3

theorem planned_count (hn : 0 < n) (need : Nat → Nat → Nat) :
    ∑ s ∈ range n, ∑ d ∈ range n, ((plannedSizes n need s d).map fun _ => 1).sum = 2 * (n - 1) + 5 * (n * (n - 1)) := by
  have : ∀ s d, ((plannedSizes n need s d).map fun _ => 1).sum =
      (if d = s + 1 then 1 else 0) + (if s + 1 = n ∧ d < s then 1 else 0) + 5 * (if s = d then 0 else 1) := by
    intro s d
    unfold plannedSizes
    rw [List.map_append, List.map_append, List.sum_append, List.sum_append]
    congr 1
    · congr 1 <;> split <;> rfl
    · split <;> rfl
  simp only [this, sum_add_distrib, ← mul_sum, sum_next hn, sum_last hn, sum_pairs]
  ring

theorem planned_volume (hn : 0 < n) (need : Nat → Nat → Nat) :
    ∑ s ∈ range n, ∑ d ∈ range n, ((plannedSizes n need s d).map fun x => x).sum =
      2 * (n - 1) + 5 * ∑ s ∈ range n, ∑ d ∈ range n, if s = d then 0 else need s d := by
  have : ∀ s d, ((plannedSizes n need s d).map fun x => x).sum =
      (if d = s + 1 then 1 else 0) + (if s + 1 = n ∧ d < s then 1 else 0) + (if s = d then 0 else 3 * need s d + 2 * need d s) := by
    intro s d
    unfold plannedSizes
    rw [List.map_append, List.map_append, List.sum_append, List.sum_append]
    congr 1
    · congr 1 <;> split <;> rfl
    · split
      · rfl
      · simp; ring
  simp only [this, sum_add_distrib, sum_next hn, sum_last hn, sum_need]
  ring

/-- **C100, totals.** In every execution that ends, whatever the relative speed of the processes, `2(n-1) + 5n(n-1)` messages are sent
with together `2(n-1)` numbers and five numbers for each DOF that a process has of another one. At no earlier time were more sent. -/
theorem C100_totals (dist : Distributed n G fam nd) {k : Nat} {c : Config FunctionSpace} {log : List Sent}
    (h : Logged n (launch n G fam) k c log) :
    log.length ≤ 2 * (n - 1) + 5 * (n * (n - 1)) ∧
    volume log ≤ 2 * (n - 1) + 5 * ∑ p ∈ range n, ∑ q ∈ range n, (if p = q then 0 else ghostDofs (G p) (nd p) q) ∧
    ((∀ r, r < n → ∃ sp, c.prog r = .done sp) →
      log.length = 2 * (n - 1) + 5 * (n * (n - 1)) ∧
      volume log = 2 * (n - 1) + 5 * ∑ p ∈ range n, ∑ q ∈ range n, (if p = q then 0 else ghostDofs (G p) (nd p) q)) := by
  have hb : ∀ x ∈ log, x.src < n ∧ x.dst < n := fun x hx =>
    ⟨(C100_between dist h x hx).1, (C100_between dist h x hx).2.1⟩
  have e1 := log_sum (n := n) (fun _ => 1) log hb
  have e2 := log_sum (n := n) (fun x => x) log hb
  have e3 : (log.map fun _ => 1).sum = log.length := by simp
  rw [e3] at e1
  have e4 : volume log = _ := e2
  rw [e1, e4, ← planned_count dist.pos fun p q => ghostDofs (G p) (nd p) q, ← planned_volume dist.pos]
  have mono : ∀ (f : Nat → Nat) (s d : Nat), s ∈ range n → d ∈ range n → ((sizes log s d).map f).sum ≤
      ((plannedSizes n (fun p q => ghostDofs (G p) (nd p) q) s d).map f).sum := by
    intro f s d hs hd
    obtain ⟨t, ht⟩ := (C100_messages dist h (mem_range.mp hs) (mem_range.mp hd)).1
    rw [← ht, List.map_append, List.sum_append]
    omega
  refine ⟨sum_le_sum fun s hs => sum_le_sum fun d hd => mono _ s d hs hd,
    sum_le_sum fun s hs => sum_le_sum fun d hd => mono _ s d hs hd, fun hdone => ⟨?_, ?_⟩⟩
  all_goals
    refine sum_congr rfl fun s hs => sum_congr rfl fun d hd => ?_
    rw [(C100_messages dist h (mem_range.mp hs) (mem_range.mp hd)).2 hdone]

/-- **C100, steps.** An execution has two steps for each message, one to send and one to receive it, so that all executions that end
have the same number of steps and no message is left over. -/
theorem C100_steps (dist : Distributed n G fam nd) {k : Nat} {c : Config FunctionSpace}
    (h : Config.Reach (Config.Step n) k (launch n G fam) c) :
    k ≤ 2 * (2 * (n - 1) + 5 * (n * (n - 1))) ∧
    ((∀ r, r < n → ∃ sp, c.prog r = .done sp) ↔ k = 2 * (2 * (n - 1) + 5 * (n * (n - 1)))) := by
  obtain ⟨log, hl⟩ := reach_logged h
  have hb : ∀ x ∈ log, x.src < n ∧ x.dst < n := fun x hx =>
    ⟨(C100_between dist hl x hx).1, (C100_between dist hl x hx).2.1⟩
  obtain ⟨_, e⟩ := logged_steps hl rfl hb
  obtain ⟨t1, _, t2⟩ := C100_totals dist hl
  have fin : ∀ {k : Nat} {c : Config FunctionSpace}, Config.Reach (Config.Step n) k (launch n G fam) c →
      (∀ r, r < n → ∃ sp, c.prog r = .done sp) → k = 2 * (2 * (n - 1) + 5 * (n * (n - 1))) := by
    intro k c h hdone
    obtain ⟨log, hl⟩ := reach_logged h
    have hb : ∀ x ∈ log, x.src < n ∧ x.dst < n := fun x hx =>
      ⟨(C100_between dist hl x hx).1, (C100_between dist hl x hx).2.1⟩
    obtain ⟨_, e⟩ := logged_steps hl rfl hb
    obtain ⟨_, _, t2⟩ := C100_totals dist hl
    obtain ⟨K, sp, hK⟩ := C21_terminates_partial dist
    rcases (hK k c h).2.2 with ⟨c', hs⟩ | ⟨_, hz⟩
    · exfalso
      cases hs with
      | send r d m rest hr hp => obtain ⟨x, hx⟩ := hdone r hr; rw [hx] at hp; cases hp
      | recv r s m ms rest hr hp hc => obtain ⟨x, hx⟩ := hdone r hr; rw [hx] at hp; cases hp
    · have : ∑ s ∈ range n, ∑ d ∈ range n, (c.chan s d).length = 0 :=
        sum_eq_zero fun s hs => sum_eq_zero fun d hd => by rw [hz s d (mem_range.mp hs) (mem_range.mp hd)]; rfl
      rw [this, (t2 hdone).1] at e
      omega
  refine ⟨by omega, fin h, fun hk => ?_⟩
  obtain ⟨K, sp, hK⟩ := C21_terminates_partial dist
  rcases (hK k c h).2.2 with ⟨c', hs⟩ | ⟨hd, _⟩
  · exfalso
    obtain ⟨log', hl'⟩ := reach_logged (h.tail hs)
    have hb' : ∀ x ∈ log', x.src < n ∧ x.dst < n := fun x hx =>
      ⟨(C100_between dist hl' x hx).1, (C100_between dist hl' x hx).2.1⟩
    obtain ⟨_, e'⟩ := logged_steps hl' rfl hb'
    obtain ⟨t1', _, _⟩ := C100_totals dist hl'
    omega
  · exact fun r hr => ⟨_, hd r hr⟩

/-! ### The hypotheses can be met -/

/-- Two processes, of which one needs one DOF and the other one three: in every execution 12 messages with 22 numbers. -/
example : ∃ k c log, Logged 2 (launch 2 twoParts p1) k c log ∧ (∀ r, r < 2 → ∃ sp, c.prog r = .done sp) ∧
    k = 24 ∧ log.length = 12 ∧ volume log = 22 ∧ sizes log 0 1 = [1, 1, 1, 1, 3, 3] ∧ sizes log 1 0 = [1, 3, 3, 3, 1, 1] := by
  obtain ⟨sp, k, c, hr, hd⟩ := finished_exists twoParts_dist
  have hdone : ∀ r, r < 2 → ∃ sp, c.prog r = .done sp := fun r h => ⟨_, hd r h⟩
  obtain ⟨log, hl⟩ := reach_logged hr
  have ht := (C100_totals twoParts_dist hl).2.2 hdone
  refine ⟨k, c, log, hl, hdone, (C100_steps twoParts_dist hr).2.mp hdone, ht.1, ht.2.trans (by decide),
    ((C100_messages twoParts_dist hl (s := 0) (d := 1) (by decide) (by decide)).2 hdone).trans (by decide),
    ((C100_messages twoParts_dist hl (s := 1) (d := 0) (by decide) (by decide)).2 hdone).trans (by decide)⟩

end Bempp
