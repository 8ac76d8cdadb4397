import Verif.Proofs.Eager
import Verif.Spec.Waiting
import Mathlib.Data.Set.Finite.Basic
import Mathlib.Data.Finite.Prod
import Mathlib.Data.Fintype.Pigeonhole
import Mathlib.Order.WellFounded
/-
Which processes return if messages are buffered up to a certain length.
-/
namespace Bempp
open FunctionSpace

variable {α : Type} {n : Nat} {res : Nat → α} {D : Nat → DofState} {L : Nat} {long : Nat → Nat → Prop}

namespace Event

theorem before_trans {x y z : Event} (h : x.Before y) (h' : y.Before z) : x.Before z := by
  obtain ⟨h1, h2⟩ := h
  obtain ⟨h3, h4⟩ := h'
  refine ⟨h1.trans h3, ?_⟩
  rcases h2 with h2 | ⟨h2, h2' | ⟨h2', h5, h6⟩⟩
  · rcases h4 with h4 | ⟨h4, _⟩ <;> left <;> omega
  · rcases h4 with h4 | ⟨h4, h4' | ⟨h4', h7, h8⟩⟩
    · left; omega
    · right; exact ⟨by omega, Or.inl (by omega)⟩
    · right; exact ⟨by omega, Or.inl (by omega)⟩
  · rcases h4 with h4 | ⟨h4, h4' | ⟨h4', h7, h8⟩⟩
    · left; omega
    · right; exact ⟨by omega, Or.inl (by omega)⟩
    · rw [h6] at h7; cases h7

theorem other_other (x : Event) : x.other.other = x := by
  obtain ⟨r, t, p⟩ := x
  cases t <;> rfl

theorem other_valid {x : Event} (h : x.Valid n) : x.other.Valid n := ⟨h.2.1, h.1, Ne.symm h.2.2⟩

/-- A number that grows along `Before`. -/
def pos (n : Nat) (x : Event) : Nat := x.task.stage * (2 * n) + (2 * x.partner + if x.task = .reply then 1 else 0)

theorem pos_lt {x y : Event} (hx : x.Valid n) (h : x.Before y) : x.pos n < y.pos n := by
  obtain ⟨_, h⟩ := h
  have hb : 2 * x.partner + (if x.task = .reply then 1 else 0) < 2 * n := by
    have := hx.2.1
    split <;> omega
  unfold pos
  rcases h with h | ⟨h, h' | ⟨h', h1, h2⟩⟩
  · have := Nat.mul_le_mul_right (2 * n) (Nat.succ_le_of_lt h)
    rw [Nat.succ_mul] at this
    omega
  · rw [h]
    split <;> split <;> omega
  · rw [h, h', h1, h2]
    simp

theorem valid_finite (n : Nat) : {x : Event | x.Valid n}.Finite := by
  have : {x : Event | x.Valid n} ⊆ (fun y : (Nat × Nat) × Talk => (⟨y.1.1, y.2, y.1.2⟩ : Event)) ''
      (({i | i < n} ×ˢ {i | i < n}) ×ˢ {Talk.ask, Talk.hear, Talk.reply, Talk.read}) := by
    rintro ⟨r, t, p⟩ ⟨h1, h2, _⟩
    refine ⟨((r, p), t), ⟨⟨h1, h2⟩, ?_⟩, rfl⟩
    cases t <;> simp
  exact (Set.Finite.image _ ((Set.Finite.prod (Set.finite_lt_nat n) (Set.finite_lt_nat n)).prod (by simp))).subset this

/-- An event that can take place. -/
abbrev Free (n : Nat) (long : Nat → Nat → Prop) (x : Event) : Prop := Acc (fun y x : Event => x.Waits n long y) x

theorem waitsOn_free {x y : Event} (h : WaitsOn n long x y) (hx : Free n long x) : Free n long y := by
  induction h with
  | refl => exact hx
  | step _ h ih => exact ih.inv h

theorem waitsOn_trans {x y z : Event} (h : WaitsOn n long x y) (h' : WaitsOn n long y z) : WaitsOn n long x z := by
  induction h' with
  | refl => exact h
  | step _ h2 ih => exact ih.step h2

theorem waitsOn_head {x y : Event} (h : WaitsOn n long x y) : x = y ∨ ∃ u, x.Waits n long u ∧ WaitsOn n long u y := by
  induction h with
  | refl => exact Or.inl rfl
  | step _ h2 ih =>
    right
    rcases ih with rfl | ⟨u, hu, hu'⟩
    · exact ⟨_, h2, .refl⟩
    · exact ⟨u, hu, hu'.step h2⟩

theorem free_iff {x : Event} : Free n long x ↔ ¬ Hangs n long x := by
  constructor
  · rintro h ⟨y, z, h1, h2, h3⟩
    have hy := waitsOn_free h1 h
    clear h1 h x
    induction hy generalizing z with
    | intro y _ ih =>
      rcases waitsOn_head h3 with rfl | ⟨u, hu, hu'⟩
      · exact ih z h2 z h2 .refl
      · exact ih z h2 u hu (hu'.step h2)
  · intro h
    by_contra hx
    have next : ∀ y : {y : Event // ¬ Free n long y}, ∃ z : {y : Event // ¬ Free n long y}, y.1.Waits n long z.1 := by
      rintro ⟨y, hy⟩
      obtain ⟨z, hz, hw⟩ := exists_not_acc_lt_of_not_acc hy
      exact ⟨⟨z, hz⟩, hw⟩
    choose f hf using next
    let g : Nat → {y : Event // ¬ Free n long y} := fun i => f^[i] ⟨x, hx⟩
    have hg : ∀ i, (g i).1.Waits n long (g (i + 1)).1 := by
      intro i
      simp only [g, Function.iterate_succ_apply']
      exact hf _
    have hon : ∀ i k, WaitsOn n long (g i).1 (g (i + k)).1 := by
      intro i k
      induction k with
      | zero => exact .refl
      | succ k ih => exact ih.step (hg _)
    have := (valid_finite n).to_subtype
    obtain ⟨i, j, hij, he⟩ := Finite.exists_ne_map_eq_of_infinite
      (fun i : Nat => (⟨(g (i + 1)).1, (hg i).1⟩ : {x : Event | x.Valid n}))
    have he : (g (i + 1)).1 = (g (j + 1)).1 := congrArg (fun z : {x : Event | x.Valid n} => z.1) he
    have cyc : ∀ i j : Nat, i < j → (g (i + 1)).1 = (g (j + 1)).1 → False := by
      intro i j hlt he
      apply h
      refine ⟨(g (i + 1)).1, (g (i + 2)).1, ?_, hg _, ?_⟩
      · have := hon 0 (i + 1)
        rw [Nat.zero_add] at this
        exact this
      · have := hon (i + 2) (j - (i + 1))
        rw [show i + 2 + (j - (i + 1)) = j + 1 by omega, ← he] at this
        exact this
    rcases Nat.lt_or_gt_of_ne hij with h1 | h1
    · exact cyc i j h1 he
    · exact cyc j i h1 he.symm

/-- Of the events that cannot take place, take the first one in its process. -/
theorem first_stuck : ∀ (m : Nat) {y : Event}, y.pos n ≤ m → y.Valid n → ¬ Free n long y →
    ∃ z : Event, z.Valid n ∧ ¬ Free n long z ∧ (z = y ∨ z.Before y) ∧ ∀ w : Event, w.Valid n → w.Before z → Free n long w := by
  intro m
  induction m with
  | zero =>
    intro y hm hv hy
    exact ⟨y, hv, hy, Or.inl rfl, fun w hw hb => by have := pos_lt hw hb; omega⟩
  | succ m ih =>
    intro y hm hv hy
    by_cases h : ∃ w : Event, w.Valid n ∧ w.Before y ∧ ¬ Free n long w
    · obtain ⟨w, hw, hb, hf⟩ := h
      obtain ⟨z, h1, h2, h3, h4⟩ := ih (by have := pos_lt hw hb; omega) hw hf
      refine ⟨z, h1, h2, Or.inr ?_, h4⟩
      rcases h3 with rfl | h3
      · exact hb
      · exact before_trans h3 hb
    · push Not at h
      exact ⟨y, hv, hy, Or.inl rfl, h⟩

/-- The first event of a process that cannot take place waits for an earlier one of the partner. -/
theorem stuck_waits {x : Event} (hx : x.Valid n) (hf : ¬ Free n long x)
    (hfirst : ∀ w : Event, w.Valid n → w.Before x → Free n long w) :
    (x.Receives ∨ x.SendsLong long) ∧ ∃ z : Event, z.Valid n ∧ ¬ Free n long z ∧ z.Before x.other ∧
      ∀ w : Event, w.Valid n → w.Before z → Free n long w := by
  obtain ⟨y, hy, hv, hw⟩ := exists_not_acc_lt_of_not_acc hf
  rcases hw with h | ⟨h, rfl⟩ | ⟨h, h'⟩
  · exact absurd (hfirst y hv h) hy
  · refine ⟨Or.inl h, ?_⟩
    obtain ⟨z, h1, h2, h3, h4⟩ := first_stuck _ (le_refl _) hv hy
    rcases h3 with rfl | h3
    · -- what is received can be sent
      obtain ⟨u, hu, hu1, hu2⟩ := exists_not_acc_lt_of_not_acc h2
      rcases hu2 with hu2 | ⟨hu2, _⟩ | ⟨_, hu2⟩
      · exact absurd (h4 u hu1 hu2) hu
      · obtain ⟨r, t, p⟩ := x
        cases t <;> simp [Receives, other] at h hu2
      · rw [other_other] at hu2
        exact absurd (hfirst u hu1 hu2) hu
    · exact ⟨z, h1, h2, h3, h4⟩
  · refine ⟨Or.inr h, ?_⟩
    obtain ⟨z, h1, h2, h3, h4⟩ := first_stuck _ (le_refl _) hv hy
    refine ⟨z, h1, h2, ?_, h4⟩
    rcases h3 with rfl | h3
    · exact h'
    · exact before_trans h3 h'

end Event

/-- The action `x` of process `r` is a part of the event `e`. -/
def ActOf (n r : Nat) (x : Act × Nat) (e : Event) : Prop :=
  e.rank = r ∧ x.1.partner = e.partner ∧ x.2 = 2 * n + 2 + e.task.stage ∧
    x.1.side = if e.task = .ask ∨ e.task = .reply then 1 else 0

theorem actOf_unique {r : Nat} {x : Act × Nat} {e f : Event} (h : ActOf n r x e) (h' : ActOf n r x f) : e = f := by
  obtain ⟨er, et, ep⟩ := e
  obtain ⟨fr, ft, fp⟩ := f
  obtain ⟨h1, h2, h3, h4⟩ := h
  obtain ⟨h5, h6, h7, h8⟩ := h'
  simp only at *
  have hs : et.stage = ft.stage := by omega
  have ht : et = ft := by
    rw [h4] at h8
    cases et <;> cases ft <;> simp_all [Talk.stage]
  rw [ht, ← h2, ← h6, h1, h5]

/-- The order of actions and that of events. -/
theorem before_iff {r : Nat} {x y : Act × Nat} {e f : Event} (h : ActOf n r x e) (h' : ActOf n r y f) :
    e.Before f ↔ ¬ KeyLe y x := by
  obtain ⟨er, et, ep⟩ := e
  obtain ⟨fr, ft, fp⟩ := f
  obtain ⟨h1, h2, h3, h4⟩ := h
  obtain ⟨h5, h6, h7, h8⟩ := h'
  simp only [KeyLe, Event.Before] at *
  rw [h2, h3, h4, h6, h7, h8]
  subst h1; subst h5
  cases et <;> cases ft <;> simp [Talk.stage] <;> omega

/-- Every event has actions. -/
theorem event_acts {e : Event} (he : e.Valid n) : ∃ x ∈ traceOf n D e.rank, ActOf n e.rank x e := by
  obtain ⟨r, t, p⟩ := e
  obtain ⟨hr, hp, hne⟩ := he
  simp only at hr hp hne
  unfold traceOf
  simp only [List.mem_append]
  cases t with
  | ask =>
    refine ⟨(Act.send p ((gh D r p).map fun x => x.2.1), 2 * n + 2), ?_, rfl, rfl, rfl, rfl⟩
    right; right; right; left
    exact List.mem_flatMap.mpr ⟨p, mem_others.mpr ⟨hp, hne⟩, by simp [trReq]⟩
  | hear =>
    refine ⟨(Act.recv p ((gh D p r).map fun x => x.2.1), 2 * n + 3), ?_, rfl, rfl, rfl, rfl⟩
    right; right; right; right; left
    exact List.mem_flatMap.mpr ⟨p, mem_others.mpr ⟨hp, hne⟩, by simp [trAns]⟩
  | reply =>
    refine ⟨(Act.send p (locAns D p r), 2 * n + 3), ?_, rfl, rfl, rfl, rfl⟩
    right; right; right; right; left
    exact List.mem_flatMap.mpr ⟨p, mem_others.mpr ⟨hp, hne⟩, by simp [trAns]⟩
  | read =>
    refine ⟨(Act.recv p (locAns D r p), 2 * n + 4), ?_, rfl, rfl, rfl, rfl⟩
    right; right; right; right; right
    exact List.mem_flatMap.mpr ⟨p, mem_others.mpr ⟨hp, hne⟩, by simp [trRep]⟩

/-- Every action after the start is a part of an event. -/
theorem act_event {r : Nat} (hr : r < n) {x : Act × Nat} (hx : x ∈ traceOf n D r) (h : 2 * n + 2 ≤ x.2) :
    ∃ e : Event, e.Valid n ∧ ActOf n r x e := by
  obtain ⟨h1, h2, h3, _, _, _⟩ := mem_trace n D hr
  simp only [traceOf, List.mem_append] at hx
  rcases hx with hx | hx | hx | hx | hx | hx
  · have := (h1 x hx).1; omega
  · have := (h2 x hx).1; omega
  · have := (h3 x hx).1; omega
  · obtain ⟨p, hp, hx⟩ := List.mem_flatMap.mp hx
    obtain ⟨hp, hne⟩ := mem_others.mp hp
    simp only [trReq, List.mem_cons, List.not_mem_nil, or_false] at hx
    refine ⟨⟨r, .ask, p⟩, ⟨hr, hp, hne⟩, ?_⟩
    rcases hx with rfl | rfl | rfl <;> exact ⟨rfl, rfl, rfl, rfl⟩
  · obtain ⟨p, hp, hx⟩ := List.mem_flatMap.mp hx
    obtain ⟨hp, hne⟩ := mem_others.mp hp
    simp only [trAns, List.mem_cons, List.not_mem_nil, or_false] at hx
    rcases hx with hx | hx | hx | hx | hx
    · exact ⟨⟨r, .hear, p⟩, ⟨hr, hp, hne⟩, by subst hx; exact ⟨rfl, rfl, rfl, rfl⟩⟩
    · exact ⟨⟨r, .hear, p⟩, ⟨hr, hp, hne⟩, by subst hx; exact ⟨rfl, rfl, rfl, rfl⟩⟩
    · exact ⟨⟨r, .hear, p⟩, ⟨hr, hp, hne⟩, by subst hx; exact ⟨rfl, rfl, rfl, rfl⟩⟩
    · exact ⟨⟨r, .reply, p⟩, ⟨hr, hp, hne⟩, by subst hx; exact ⟨rfl, rfl, rfl, rfl⟩⟩
    · exact ⟨⟨r, .reply, p⟩, ⟨hr, hp, hne⟩, by subst hx; exact ⟨rfl, rfl, rfl, rfl⟩⟩
  · obtain ⟨p, hp, hx⟩ := List.mem_flatMap.mp hx
    obtain ⟨hp, hne⟩ := mem_others.mp hp
    simp only [trRep, List.mem_cons, List.not_mem_nil, or_false] at hx
    refine ⟨⟨r, .read, p⟩, ⟨hr, hp, hne⟩, ?_⟩
    rcases hx with rfl | rfl <;> exact ⟨rfl, rfl, rfl, rfl⟩

/-- Which messages are long. -/
theorem sendsLong_iff {r d : Nat} (hr : r < n) {m : Msg} {τ : Nat} (hx : (Act.send d m, τ) ∈ traceOf n D r) {e : Event}
    (h : ActOf n r (.send d m, τ) e) : e.SendsLong (fun p q => L < (gh D p q).length) ↔ L < m.length := by
  obtain ⟨er, et, ep⟩ := e
  obtain ⟨h1, h2, h3, h4⟩ := h
  simp only [Act.partner, Act.side] at h1 h2 h3 h4
  subst h1; subst h2
  rcases send_kind hr hx with ⟨h, _⟩ | ⟨_, _, h5, h6⟩ | ⟨_, _, h5, h6⟩
  · omega
  · rw [h6]
    cases et <;> simp [Event.SendsLong, Talk.stage] at h3 h4 ⊢ <;> omega
  · rw [h6]
    cases et <;> simp [Event.SendsLong, Talk.stage] at h3 h4 ⊢ <;> omega

theorem actOf_recv {r s : Nat} {m : Msg} {τ : Nat} {e : Event} (h : ActOf n r (.recv s m, τ + 1) e) :
    e.Receives ∧ ActOf n s (.send r m, τ) e.other := by
  obtain ⟨er, et, ep⟩ := e
  obtain ⟨h1, h2, h3, h4⟩ := h
  simp only [Act.partner, Act.side] at h1 h2 h3 h4
  cases et <;> simp [Talk.stage, Event.Receives, Event.other, ActOf, Act.partner, Act.side] at h3 h4 ⊢ <;>
    exact ⟨h2.symm, h1.symm, h3⟩

theorem actOf_send {r d : Nat} {m : Msg} {τ : Nat} {e : Event} (h : ActOf n r (.send d m, τ) e) :
    ¬ e.Receives ∧ ActOf n d (.recv r m, τ + 1) e.other := by
  obtain ⟨er, et, ep⟩ := e
  obtain ⟨h1, h2, h3, h4⟩ := h
  simp only [Act.partner, Act.side] at h1 h2 h3 h4
  cases et <;> simp [Talk.stage, Event.Receives, Event.other, ActOf, Act.partner, Act.side] at h3 h4 ⊢ <;>
    exact ⟨h2.symm, h1.symm, by omega⟩

/-- Events that are not free never take place. -/
theorem never_done {P : Nat → Prog α} (hP : ∀ r, r < n → Runs (P r) (traceOf n D r) (res r)) {k : Nat} {c : Config α}
    (h : Config.Reach (Config.EagerStep n L) k (Config.init P) c) :
    ∃ pre suf, NetInv n (traceOf n D) res c pre suf ∧ k ≤ doneCount n pre ∧ ∀ r, r < n → ∀ x ∈ pre r, ∀ e : Event,
      e.Valid n → ActOf n r x e → e.Free n fun p q => L < (gh D p q).length := by
  let B : Nat → Act × Nat → Prop := fun r x => ∃ e : Event, e.Valid n ∧ ActOf n r x e ∧
    ¬ e.Free n (fun p q => L < (gh D p q).length) ∧
    ∀ w : Event, w.Valid n → w.Before e → w.Free n fun p q => L < (gh D p q).length
  obtain ⟨pre, suf, inv, hk, hpre⟩ := blocked_reach (B := B) (L := L) hP (by
    rintro r ⟨act, τ⟩ hr hx ⟨e, hv, hp, hf, hfirst⟩
    obtain ⟨h1, z, hz1, hz2, hz3, hz4⟩ := Event.stuck_waits hv hf hfirst
    have hrank : z.rank = e.partner := hz3.1
    cases act with
    | send d m =>
      left
      obtain ⟨h2, h3⟩ := actOf_send hp
      have hd : d = z.rank := by rw [hrank]; exact hp.2.1
      subst hd
      refine ⟨z.rank, m, rfl, hz1.1, (sendsLong_iff hr hx hp).mp (h1.resolve_left h2), ?_⟩
      obtain ⟨y, hy, hyz⟩ := event_acts (D := D) hz1
      refine ⟨y, hy, ⟨z, hz1, hyz, hz2, hz4⟩, fun m' => ?_⟩
      have h3' : ActOf n z.rank (.recv r m', τ + 1) e.other := h3
      exact (before_iff hyz h3').mp hz3
    | recv s m =>
      right
      have h0 : 0 < τ := by have := hp.2.2.1; simp only at this; omega
      obtain ⟨τ', rfl⟩ : ∃ τ', τ = τ' + 1 := ⟨τ - 1, by omega⟩
      obtain ⟨_, h3⟩ := actOf_recv hp
      have hd : s = z.rank := by rw [hrank]; exact hp.2.1
      subst hd
      refine ⟨z.rank, m, τ', rfl, rfl, hz1.1, ?_⟩
      obtain ⟨y, hy, hyz⟩ := event_acts (D := D) hz1
      refine ⟨y, hy, ⟨z, hz1, hyz, hz2, hz4⟩, fun m' => ?_⟩
      have h3' : ActOf n z.rank (.send r m', τ') e.other := h3
      exact (before_iff hyz h3').mp hz3) h rfl
  refine ⟨pre, suf, inv, hk, ?_⟩
  intro r hr x hx e hv hp
  by_contra hf
  obtain ⟨z, h1, h2, h3, h4⟩ := Event.first_stuck _ (le_refl _) hv hf
  rcases h3 with rfl | h3
  · exact hpre r hr x hx ⟨z, h1, hp, h2, h4⟩
  · have hrank : z.rank = r := h3.1.trans hp.1
    subst hrank
    obtain ⟨y, hy, hyz⟩ := event_acts (D := D) h1
    exact hpre _ hr y (pre_closed inv hr hy hx ((before_iff hyz hp).mp h3)) ⟨z, h1, hyz, h2, h4⟩

theorem early_send {r : Nat} (hr : r < n) {d : Nat} {m : Msg} {τ : Nat} (h : (Act.send d m, τ) ∈ traceOf n D r)
    (hτ : τ < 2 * n + 2) : (τ = 2 * r + 1 ∧ d = r + 1 ∧ d < n) ∨ (τ = 2 * n ∧ r + 1 = n ∧ d < r) := by
  obtain ⟨_, _, _, h4, h5, h6⟩ := mem_trace n D hr
  simp only [traceOf, List.mem_append] at h
  rcases h with h | h | h | h | h | h
  · unfold trOffRecv at h
    split at h <;> simp at h
  · unfold trOffSend at h
    split at h
    · simp only [List.mem_singleton, Prod.mk.injEq, Act.send.injEq] at h
      left; exact ⟨h.2, h.1.1, by omega⟩
    · simp at h
  · unfold trSize at h
    split at h
    · simp only [List.mem_flatMap, List.mem_range, List.mem_singleton, Prod.mk.injEq, Act.send.injEq] at h
      obtain ⟨p, hp, h⟩ := h
      right; exact ⟨h.2, by omega, by omega⟩
    · simp at h
  · have := (h4 _ h).1; simp only at this; omega
  · have := (h5 _ h).1; simp only at this; omega
  · have := (h6 _ h).1; simp only at this; omega

section
variable {c : Config α} {pre suf : Nat → Trace}

theorem head_le (inv : NetInv n (traceOf n D) res c pre suf) {r : Nat} (hr : r < n) {y : Act × Nat} {u : Trace}
    (h : suf r = y :: u) {z : Act × Nat} (hz : z ∈ suf r) : KeyLe y z := by
  have hs := trace_sorted (D := D) hr
  rw [inv.split r hr] at hs
  have hs := (List.pairwise_append.mp hs).2.1
  rw [h] at hs hz
  rcases List.mem_cons.mp hz with rfl | hz
  · exact Or.inr ⟨rfl, Or.inr ⟨rfl, le_refl _⟩⟩
  · exact (List.pairwise_cons.mp hs).1 z hz

theorem keyLe_stamp {y z : Act × Nat} (h : KeyLe y z) : y.2 ≤ z.2 := by
  rcases h with h | h <;> omega

theorem exists_head {r : Nat} {z : Act × Nat} (hz : z ∈ suf r) : ∃ y u, suf r = y :: u := by
  cases h : suf r with
  | nil => rw [h] at hz; simp at hz
  | cons y u => exact ⟨y, u, rfl⟩

theorem mem_of_suf (inv : NetInv n (traceOf n D) res c pre suf) {r : Nat} (hr : r < n) {x : Act × Nat} (hx : x ∈ suf r) :
    x ∈ traceOf n D r := by
  rw [inv.split r hr]; exact List.mem_append_right _ hx

/-- What an execution that cannot continue looks like. -/
structure IsStuck (n L : Nat) (c : Config α) (suf : Nat → Trace) : Prop where
  small : ∀ q, q < n → ∀ d m τ u, suf q = (Act.send d m, τ) :: u → L < m.length
  empty : ∀ q, q < n → ∀ s m τ u, suf q = (Act.recv s m, τ) :: u → c.chan s q = []
  meet : ∀ s d, s < n → d < n → s ≠ d → ∀ m τ u m' τ' u', suf s = (Act.send d m, τ) :: u →
    suf d = (Act.recv s m', τ') :: u' → False

theorem isStuck (inv : NetInv n (traceOf n D) res c pre suf) (hstuck : ¬ ∃ c', Config.EagerStep n L c c') : IsStuck n L c suf := by
  have small : ∀ q, q < n → ∀ d m τ u, suf q = (Act.send d m, τ) :: u → L < m.length := by
    intro q hq d m τ u h
    by_contra hle
    obtain ⟨k, hk⟩ := prog_send inv hq h
    exact hstuck ⟨_, .send c q d m k hq (by omega) hk⟩
  have empty : ∀ q, q < n → ∀ s m τ u, suf q = (Act.recv s m, τ) :: u → c.chan s q = [] := by
    intro q hq s m τ u h
    cases hc : c.chan s q with
    | nil => rfl
    | cons m' rest' =>
      obtain ⟨k, hk⟩ := prog_recv inv hq h
      exact absurd ⟨_, .recv c q s m' rest' k hq hk hc⟩ hstuck
  refine ⟨small, empty, ?_⟩
  intro s d hs hd hne m τ u m' τ' u' h h'
  obtain ⟨k, hk⟩ := prog_send inv hs h
  obtain ⟨k', hk'⟩ := prog_recv inv hd h'
  exact hstuck ⟨_, .meet c s d m k k' hs hd hne (small s hs d m τ u h) (empty d hd s m' τ' u' h') hk hk'⟩

/-- Nothing hangs before the requests. -/
theorem stuck_start (inv : NetInv n (traceOf n D) res c pre suf) (st : IsStuck n L c suf) :
    ∀ r, r < n → ∀ x ∈ suf r, 2 * n + 2 ≤ x.2 := by
  have hM := traceOf_matching n D
  by_contra hno
  have hex : ∃ τ, ∃ r, r < n ∧ ∃ x rest, suf r = x :: rest ∧ x.2 = τ ∧ τ < 2 * n + 2 := by
    push Not at hno
    obtain ⟨r, hr, x, hx, hlt⟩ := hno
    obtain ⟨y, u, hy⟩ := exists_head hx
    exact ⟨y.2, r, hr, y, u, hy, rfl, by have := keyLe_stamp (head_le inv hr hy hx); omega⟩
  classical
  obtain ⟨r, hr, x, rest, hsuf, hτ, hlt⟩ := Nat.find_spec hex
  have hmin : ∀ q, q < n → ∀ y rest', suf q = y :: rest' → x.2 ≤ y.2 := by
    intro q hq y rest' h
    by_cases hy : y.2 < 2 * n + 2
    · rw [hτ]
      exact Nat.find_le ⟨q, hq, y, rest', h, rfl, hy⟩
    · omega
  rw [← hτ] at hlt
  clear hτ
  have norecv : ∀ q, q < n → ∀ s m u τ, suf q = (.recv s m, τ) :: u → x.2 < τ := by
    intro q hq s m u τ h
    have hs := hM.src q hq s m τ (mem_of_suf inv hq (h ▸ List.mem_cons_self))
    obtain ⟨τ', h1, h2⟩ := pending_send inv hs hq h (st.empty q hq s m τ u h)
    obtain ⟨y, v, hy⟩ := exists_head h2
    have h3 := keyLe_stamp (head_le inv hs hy h2)
    have h4 := hmin s hs y v hy
    simp only at h3
    omega
  obtain ⟨act, τ⟩ := x
  cases act with
  | recv s m =>
    have := norecv r hr s m rest τ hsuf
    simp only at this
    omega
  | send d m =>
    simp only at hmin norecv hlt
    have hr1 := early_send hr (mem_of_suf inv hr (hsuf ▸ List.mem_cons_self)) hlt
    have hd : d < n := by omega
    have hp := pending_recv inv hr hd hsuf
    obtain ⟨⟨act, τ'⟩, u, hy⟩ := exists_head hp
    have hle := keyLe_stamp (head_le inv hd hy hp)
    have hge := hmin d hd _ u hy
    simp only at hle hge
    cases act with
    | send q m' =>
      have hmem := mem_of_suf inv hd (hy ▸ List.mem_cons_self)
      by_cases h2 : τ' < 2 * n + 2
      · have := early_send hd hmem h2
        omega
      · omega
    | recv q m' =>
      have hq := hM.src d hd q m' τ' (mem_of_suf inv hd (hy ▸ List.mem_cons_self))
      have hlt' := norecv d hd q m' u τ' hy
      obtain ⟨τ'', h1, h2⟩ := pending_send inv hq hd hy (st.empty d hd q m' τ' u hy)
      have h5 := early_send hq (mem_of_suf inv hq h2) (by omega)
      have hqr : q = r := by omega
      subst hqr
      exact st.meet q d hq hd (by omega) _ _ _ _ _ _ hsuf hy

/-- Free events have taken place when the execution cannot continue. -/
theorem free_done (inv : NetInv n (traceOf n D) res c pre suf) (hstuck : ¬ ∃ c', Config.EagerStep n L c c') {e : Event}
    (hf : e.Free n fun p q => L < (gh D p q).length) (hv : e.Valid n) : ∀ x ∈ suf e.rank, ¬ ActOf n e.rank x e := by
  have hM := traceOf_matching n D
  have st := isStuck inv hstuck
  have late := stuck_start inv st
  induction hf with
  | intro e _ ih =>
    intro x hx hp
    -- the next action of a process all whose earlier events have taken place
    have head : ∀ f : Event, f.Valid n → (∀ g : Event, g.Valid n → g.Before f → ∀ x ∈ suf g.rank, ¬ ActOf n g.rank x g) →
        ∀ z ∈ suf f.rank, ActOf n f.rank z f → ∃ y u, suf f.rank = y :: u ∧ ActOf n f.rank y f := by
      intro f hfv hbef z hz hpz
      obtain ⟨y, u, hy⟩ := exists_head hz
      have hmem : y ∈ suf f.rank := hy ▸ List.mem_cons_self
      obtain ⟨g, hg, hpy⟩ := act_event hfv.1 (mem_of_suf inv hfv.1 hmem) (late _ hfv.1 y hmem)
      have hle := head_le inv hfv.1 hy hz
      by_cases hb : g.Before f
      · have hgr : g.rank = f.rank := hb.1
        exact absurd (hgr.symm ▸ hpy) (hbef g hg hb y (hgr.symm ▸ hmem))
      · refine ⟨y, u, hy, ?_⟩
        have h1 : ¬ f.Before g := fun h => (before_iff hpz hpy).mp h hle
        have : g = f := by
          obtain ⟨gr, gt, gp⟩ := g
          obtain ⟨fr, ft, fp⟩ := f
          obtain ⟨rfl, _⟩ := hpy
          simp only [Event.Before, true_and, not_or, not_and] at hb h1
          cases gt <;> cases ft <;> simp [Talk.stage] at hb h1 ⊢ <;> omega
        rw [← this]
        rw [this]
        exact this ▸ hpy
    obtain ⟨⟨act, τ⟩, u, hy, hpy⟩ := head e hv (fun g hg hb => ih g ⟨hg, Or.inl hb⟩ hg) x hx hp
    have hmem := mem_of_suf inv hv.1 (hy ▸ List.mem_cons_self)
    cases act with
    | send d m =>
      have hlong := st.small _ hv.1 d m τ u hy
      obtain ⟨h2, h3⟩ := actOf_send hpy
      have hd : d = e.other.rank := hpy.2.1
      have hov := Event.other_valid hv
      have hsl := (sendsLong_iff hv.1 hmem hpy).mpr hlong
      have hrecv := pending_recv inv hv.1 hov.1 (hd ▸ hy)
      obtain ⟨⟨act', τ'⟩, v, hz, hpz⟩ := head e.other hov
        (fun g hg hb => ih g ⟨hg, Or.inr (Or.inr ⟨hsl, hb⟩)⟩ hg) _ hrecv (hd ▸ h3)
      cases act' with
      | send d' m' =>
        have := hpz.2.2.2
        rw [← h3.2.2.2] at this
        simp [Act.side] at this
      | recv s' m' =>
        have hs' : s' = e.rank := hpz.2.1
        exact st.meet e.rank e.other.rank hv.1 hov.1 (Ne.symm hv.2.2) _ _ _ _ _ _ (hd ▸ hy) (hs' ▸ hz)
    | recv s m =>
      have hs : s = e.other.rank := hpy.2.1
      have hov := Event.other_valid hv
      obtain ⟨τ', rfl, hsend⟩ := pending_send inv hov.1 hv.1 (hs ▸ hy) (hs ▸ st.empty _ hv.1 s m τ u hy)
      obtain ⟨h2, h3⟩ := actOf_recv hpy
      exact ih e.other ⟨hov, Or.inr (Or.inl ⟨h2, rfl⟩)⟩ hov _ hsend (hs ▸ h3)

end

end Bempp
