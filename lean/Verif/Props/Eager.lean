import Verif.Props.Distributed
import Verif.Proofs.Eager
/-
C21 for MPI implementations that buffer messages up to some length only.
-/
namespace Bempp
open Examples

variable {n L : Nat} {G : Nat → Grid} {fam : CellType → ElementDofs} {nd : Nat → Nat → Nat → Nat}

/-- **C21.** Whatever the length up to which messages are buffered: every execution stops, no process panics, and a process that
returns has the space that it has in the executions with unlimited buffers. -/
theorem C21_eager_safe (dist : Distributed n G fam nd) (L : Nat) :
    ∃ (K : Nat) (sp : Nat → FunctionSpace), Finished n G fam sp ∧ ∀ k c,
      Config.Reach (Config.EagerStep n L) k (launch n G fam) c →
        k ≤ K ∧ (∀ r, r < n → c.prog r ≠ .panic) ∧ ∀ r, r < n → ∀ s, c.prog r = .done s → s = sp r := by
  obtain ⟨sp, hsp⟩ := finished_exists dist
  obtain ⟨D, hD, he⟩ := finished_spaces dist hsp
  refine ⟨doneCount n (traceOf n D), sp, hsp, ?_⟩
  intro k c hk
  obtain ⟨pre, suf, inv, hcount, _⟩ := blocked_reach (B := fun _ _ => False) (fun r hr => new_runs dist hD hr)
    (fun _ _ _ _ h => h.elim) hk rfl
  refine ⟨?_, ?_, ?_⟩
  · have := doneCount_le pre suf inv.split
    omega
  · intro r hr h
    have := inv.runs r hr
    rw [h] at this
    cases this
  · intro r hr s h
    have := inv.runs r hr
    rw [h] at this
    rw [he r hr]
    generalize spaceOf n G fam D r = s' at this ⊢
    generalize suf r = t at this
    cases this; rfl

/-- **C21** (messages of up to `L` numbers are buffered). If no process but one needs more than `L` DOFs of another process, then
every execution that has not finished can continue (and stops, by `C21_eager_safe`), and at the end no message is left over. -/
theorem C21_eager_terminates_partial (dist : Distributed n G fam nd) (hL : 1 ≤ L) (a : Nat)
    (ha : ∀ r, r < n → r ≠ a → ∀ p, p < n → p ≠ r → ghostDofs (G r) (nd r) p ≤ L) :
    ∃ sp : Nat → FunctionSpace, Finished n G fam sp ∧ ∀ k c,
      Config.Reach (Config.EagerStep n L) k (launch n G fam) c →
        (∃ c', Config.EagerStep n L c c') ∨
          ((∀ r, r < n → c.prog r = .done (sp r)) ∧ ∀ s d, s < n → d < n → c.chan s d = []) := by
  obtain ⟨sp, hsp⟩ := finished_exists dist
  obtain ⟨D, hD, he⟩ := finished_spaces dist hsp
  refine ⟨sp, hsp, ?_⟩
  intro k c hk
  obtain ⟨pre, suf, inv, _, _⟩ := blocked_reach (B := fun _ _ => False) (fun r hr => new_runs dist hD hr)
    (fun _ _ _ _ h => h.elim) hk rfl
  rcases eager_progress hL (a := a) (fun r hr hra p hp hpr => by rw [gh_length dist hD hr hpr]; exact ha r hr hra p hp hpr)
    inv with h | h
  · exact Or.inl h
  · right
    refine ⟨fun r hr => by rw [h r hr, he r hr], ?_⟩
    intro s d hs hd
    have hnil : ∀ r, r < n → suf r = [] := by
      intro r hr
      have := inv.runs r hr
      rw [h r hr] at this
      generalize suf r = t at this
      cases this; rfl
    have h1 := inv.chan s d hs hd
    have h2 := forall2_map_fst ((traceOf_matching n D).chan s d hs hd)
    rw [inv.split s hs, inv.split d hd, hnil s hs, hnil d hd, List.append_nil, List.append_nil, h1] at h2
    simpa using h2

section
variable {D : Nat → DofState}

theorem req_in {r p : Nat} (hp : p < n) (h : p ≠ r) :
    (Act.send p ((gh D r p).map fun x => x.2.1), 2 * n + 2) ∈ traceOf n D r := by
  unfold traceOf
  simp only [List.mem_append]
  right; right; right; left
  exact List.mem_flatMap.mpr ⟨p, mem_others.mpr ⟨hp, h⟩, by simp [trReq]⟩

theorem ans_in {r p : Nat} (hp : p < n) (h : p ≠ r) :
    (Act.send p (locAns D p r), 2 * n + 3) ∈ traceOf n D r ∧
      (Act.recv p ((gh D p r).map fun x => x.2.1), 2 * n + 3) ∈ traceOf n D r := by
  unfold traceOf
  simp only [List.mem_append]
  constructor <;>
  · right; right; right; right; left
    exact List.mem_flatMap.mpr ⟨p, mem_others.mpr ⟨hp, h⟩, by simp [trAns]⟩

theorem rep_in {r p : Nat} (hp : p < n) (h : p ≠ r) :
    (Act.recv p (locAns D r p), 2 * n + 4) ∈ traceOf n D r := by
  unfold traceOf
  simp only [List.mem_append]
  right; right; right; right; right
  exact List.mem_flatMap.mpr ⟨p, mem_others.mpr ⟨hp, h⟩, by simp [trRep]⟩

/-- A set of blocked actions that contains an action of every process. -/
theorem deadlock_of (dist : Distributed n G fam nd) (hD : AllDofs n G fam nd D) {B : Nat → Act × Nat → Prop}
    (hB : ∀ r x, r < n → x ∈ traceOf n D r → B r x →
      (∃ d m, x.1 = .send d m ∧ d < n ∧ L < m.length ∧ ∃ y ∈ traceOf n D d, B d y ∧ ∀ m', ¬ KeyLe (.recv r m', x.2 + 1) y) ∨
      (∃ s m τ, x.1 = .recv s m ∧ x.2 = τ + 1 ∧ s < n ∧ ∃ y ∈ traceOf n D s, B s y ∧ ∀ m', ¬ KeyLe (.send r m', τ) y))
    (hall : ∀ r, r < n → ∃ x ∈ traceOf n D r, B r x) {k : Nat} {c : Config FunctionSpace}
    (hk : Config.Reach (Config.EagerStep n L) k (launch n G fam) c) : ∀ r, r < n → ∀ sp, c.prog r ≠ .done sp := by
  obtain ⟨pre, suf, inv, _, hno⟩ := blocked_reach (fun r hr => new_runs dist hD hr) hB hk rfl
  intro r hr sp h
  have hrun := inv.runs r hr
  rw [h] at hrun
  have hnil : suf r = [] := by
    generalize suf r = t at hrun
    cases hrun; rfl
  obtain ⟨x, hx, hb⟩ := hall r hr
  rw [inv.split r hr, hnil, List.append_nil] at hx
  exact hno r hr x hx hb

end

/-- **C21 is false if messages are buffered up to a length only.** If every process of some set needs more than `L` DOFs of another
process of the set (for example two processes of each other), no process ever returns. -/
theorem C21_eager_deadlock (dist : Distributed n G fam nd) {S : Nat → Prop} (hS : ∃ r, S r)
    (hcycle : ∀ r, S r → r < n ∧ ∃ p, p < n ∧ p ≠ r ∧ S p ∧ L < ghostDofs (G r) (nd r) p) :
    ∀ k c, Config.Reach (Config.EagerStep n L) k (launch n G fam) c → ∀ r, r < n → ∀ sp, c.prog r ≠ .done sp := by
  obtain ⟨D, hD⟩ := allDofs_exists n G fam nd dist
  intro k c hk
  obtain ⟨r0, hr0⟩ := hS
  let B : Nat → Act × Nat → Prop := fun q x =>
    (S q ∧ ∃ p m, p < n ∧ p ≠ q ∧ S p ∧ L < ghostDofs (G q) (nd q) p ∧ x = (.send p m, 2 * n + 2)) ∨
    (S r0 ∧ r0 ≠ q ∧ ∃ m, x = (.recv r0 m, 2 * n + 4))
  have first : ∀ q, S q → ∃ x ∈ traceOf n D q, B q x ∧ x.2 = 2 * n + 2 := by
    intro q hq
    obtain ⟨_, p, hp, hpq, hsp, hl⟩ := hcycle q hq
    exact ⟨_, req_in hp hpq, Or.inl ⟨hq, p, _, hp, hpq, hsp, hl, rfl⟩, rfl⟩
  refine deadlock_of (B := B) dist hD ?_ ?_ hk
  · intro q x hq hx hb
    rcases hb with ⟨hsq, p, m, hp, hpq, hsp, hl, rfl⟩ | ⟨_, hne, m, rfl⟩
    · left
      refine ⟨p, m, rfl, hp, ?_, ?_⟩
      · rcases send_kind hq hx with ⟨h, _⟩ | ⟨_, _, _, h⟩ | ⟨_, _, h, _⟩
        · omega
        · rw [h, gh_length dist hD hq hpq]; exact hl
        · omega
      · obtain ⟨y, hy, hby, h2⟩ := first p hsp
        refine ⟨y, hy, hby, fun m' h => ?_⟩
        rcases h with h | ⟨h, _⟩ <;> simp only at h <;> omega
    · right
      obtain ⟨y, hy, hby, h2⟩ := first r0 hr0
      refine ⟨r0, m, 2 * n + 3, rfl, rfl, (hcycle r0 hr0).1, y, hy, hby, fun m' h => ?_⟩
      rcases h with h | ⟨h, _⟩ <;> simp only at h <;> omega
  · intro q hq
    by_cases h : q = r0
    · subst h
      obtain ⟨x, hx, hb, _⟩ := first q hr0
      exact ⟨x, hx, hb⟩
    · exact ⟨_, rep_in (hcycle r0 hr0).1 (Ne.symm h), Or.inr ⟨hr0, Ne.symm h, _, rfl⟩⟩

/-- **C21, the same.** If two processes need more than `L` DOFs of a process with a lower rank than theirs, no process ever
returns. -/
theorem C21_fan_in_deadlock (dist : Distributed n G fam nd) {p q r : Nat} (hpq : p < q) (hqr : q < r) (hr : r < n)
    (hq' : L < ghostDofs (G q) (nd q) p) (hr' : L < ghostDofs (G r) (nd r) p) :
    ∀ k c, Config.Reach (Config.EagerStep n L) k (launch n G fam) c → ∀ r, r < n → ∀ sp, c.prog r ≠ .done sp := by
  obtain ⟨D, hD⟩ := allDofs_exists n G fam nd dist
  intro k c hk
  have hq : q < n := by omega
  have hp : p < n := by omega
  let B : Nat → Act × Nat → Prop := fun z x =>
    (z = r ∧ ∃ m, x = (.send p m, 2 * n + 2)) ∨ (z = p ∧ ∃ m, x = (.send q m, 2 * n + 3)) ∨
    (z = q ∧ ∃ m, x = (.recv r m, 2 * n + 3)) ∨ (z ≠ r ∧ ∃ m, x = (.recv r m, 2 * n + 4))
  refine deadlock_of (B := B) dist hD ?_ ?_ hk
  · intro z x hz hx hb
    rcases hb with ⟨rfl, m, rfl⟩ | ⟨rfl, m, rfl⟩ | ⟨rfl, m, rfl⟩ | ⟨hne, m, rfl⟩
    · left
      refine ⟨p, m, rfl, hp, ?_, _, (ans_in (p := q) hq (by omega)).1, Or.inr (Or.inl ⟨rfl, _, rfl⟩), fun m' h => ?_⟩
      · rcases send_kind hz hx with ⟨h, _⟩ | ⟨_, _, _, h⟩ | ⟨_, _, h, _⟩
        · omega
        · rw [h, gh_length dist hD hz (by omega)]; exact hr'
        · omega
      · rcases h with h | ⟨_, h | ⟨h, _⟩⟩ <;> simp only [Act.partner] at h <;> omega
    · left
      refine ⟨q, m, rfl, hq, ?_, _, (ans_in (p := r) hr (by omega)).2, Or.inr (Or.inr (Or.inl ⟨rfl, _, rfl⟩)), fun m' h => ?_⟩
      · rcases send_kind hz hx with ⟨h, _⟩ | ⟨_, _, h, _⟩ | ⟨_, _, _, h⟩
        · omega
        · omega
        · rw [h, gh_length dist hD hq (by omega)]; exact hq'
      · rcases h with h | ⟨h, _⟩ <;> simp only at h <;> omega
    · right
      refine ⟨r, m, 2 * n + 2, rfl, rfl, hr, _, req_in hp (by omega), Or.inl ⟨rfl, _, rfl⟩, fun m' h => ?_⟩
      rcases h with h | ⟨_, h | ⟨h, _⟩⟩ <;> simp only [Act.partner] at h <;> omega
    · right
      refine ⟨r, m, 2 * n + 3, rfl, rfl, hr, _, req_in hp (by omega), Or.inl ⟨rfl, _, rfl⟩, fun m' h => ?_⟩
      rcases h with h | ⟨h, _⟩ <;> simp only at h <;> omega
  · intro z hz
    by_cases h : z = r
    · subst h
      exact ⟨_, req_in hp (by omega), Or.inl ⟨rfl, _, rfl⟩⟩
    · exact ⟨_, rep_in hr (Ne.symm h), Or.inr (Or.inr (Or.inr ⟨h, _, rfl⟩))⟩

/-- **C21, the same.** If a process needs more than `L` DOFs of one with a higher rank, and that one of one with a still higher
rank, no process ever returns. -/
theorem C21_chain_deadlock (dist : Distributed n G fam nd) {p q r : Nat} (hpq : p < q) (hqr : q < r) (hr : r < n)
    (hp' : L < ghostDofs (G p) (nd p) q) (hq' : L < ghostDofs (G q) (nd q) r) :
    ∀ k c, Config.Reach (Config.EagerStep n L) k (launch n G fam) c → ∀ r, r < n → ∀ sp, c.prog r ≠ .done sp := by
  obtain ⟨D, hD⟩ := allDofs_exists n G fam nd dist
  intro k c hk
  have hq : q < n := by omega
  have hp : p < n := by omega
  let B : Nat → Act × Nat → Prop := fun z x =>
    (z = p ∧ ∃ m, x = (.send q m, 2 * n + 2)) ∨ (z = q ∧ ∃ m, x = (.send r m, 2 * n + 2)) ∨
    (z = r ∧ ∃ m, x = (.recv p m, 2 * n + 3)) ∨ (z ≠ p ∧ ∃ m, x = (.recv p m, 2 * n + 4))
  refine deadlock_of (B := B) dist hD ?_ ?_ hk
  · intro z x hz hx hb
    rcases hb with ⟨rfl, m, rfl⟩ | ⟨rfl, m, rfl⟩ | ⟨rfl, m, rfl⟩ | ⟨hne, m, rfl⟩
    · left
      refine ⟨q, m, rfl, hq, ?_, _, req_in hr (by omega), Or.inr (Or.inl ⟨rfl, _, rfl⟩), fun m' h => ?_⟩
      · rcases send_kind hz hx with ⟨h, _⟩ | ⟨_, _, _, h⟩ | ⟨_, _, h, _⟩
        · omega
        · rw [h, gh_length dist hD hz (by omega)]; exact hp'
        · omega
      · rcases h with h | ⟨h, _⟩ <;> simp only at h <;> omega
    · left
      refine ⟨r, m, rfl, hr, ?_, _, (ans_in (p := p) hp (by omega)).2, Or.inr (Or.inr (Or.inl ⟨rfl, _, rfl⟩)), fun m' h => ?_⟩
      · rcases send_kind hz hx with ⟨h, _⟩ | ⟨_, _, _, h⟩ | ⟨_, _, h, _⟩
        · omega
        · rw [h, gh_length dist hD hz (by omega)]; exact hq'
        · omega
      · rcases h with h | ⟨_, h | ⟨h, _⟩⟩ <;> simp only [Act.partner] at h <;> omega
    · right
      refine ⟨p, m, 2 * n + 2, rfl, rfl, hp, _, req_in hq (by omega), Or.inl ⟨rfl, _, rfl⟩, fun m' h => ?_⟩
      rcases h with h | ⟨_, h | ⟨h, _⟩⟩ <;> simp only [Act.partner] at h <;> omega
    · right
      refine ⟨p, m, 2 * n + 3, rfl, rfl, hp, _, req_in hq (by omega), Or.inl ⟨rfl, _, rfl⟩, fun m' h => ?_⟩
      rcases h with h | ⟨h, _⟩ <;> simp only at h <;> omega
  · intro z hz
    by_cases h : z = p
    · subst h
      exact ⟨_, req_in hq (by omega), Or.inl ⟨rfl, _, rfl⟩⟩
    · exact ⟨_, rep_in hp (Ne.symm h), Or.inr (Or.inr (Or.inr ⟨h, _, rfl⟩))⟩

/-- **C21 on two processes.** Some execution finishes, and then all do, exactly if one of the processes needs at most `L` DOFs of
the other one. -/
theorem C21_two_processes (dist : Distributed 2 G fam nd) (hL : 1 ≤ L) :
    (∀ k c, Config.Reach (Config.EagerStep 2 L) k (launch 2 G fam) c →
      (∃ c', Config.EagerStep 2 L c c') ∨ ∀ r, r < 2 → ∃ sp, c.prog r = .done sp) ↔
    ghostDofs (G 0) (nd 0) 1 ≤ L ∨ ghostDofs (G 1) (nd 1) 0 ≤ L := by
  constructor
  · intro h
    by_contra hno
    push Not at hno
    have dead := C21_eager_deadlock (L := L) dist (S := fun r => r < 2) ⟨0, by decide⟩ (by
      intro r hr
      refine ⟨hr, 1 - r, ?_⟩
      match r, hr with
      | 0, _ => exact ⟨by decide, by decide, by decide, hno.1⟩
      | 1, _ => exact ⟨by decide, by decide, by decide, hno.2⟩)
    obtain ⟨K, _, _, hK⟩ := C21_eager_safe dist L
    have : ∀ m, ∃ k c, Config.Reach (Config.EagerStep 2 L) k (launch 2 G fam) c ∧ k = m := by
      intro m
      induction m with
      | zero => exact ⟨0, _, .refl _, rfl⟩
      | succ m ih =>
        obtain ⟨k, c, hc, rfl⟩ := ih
        rcases h k c hc with ⟨c', hc'⟩ | h'
        · exact ⟨k + 1, c', .tail hc hc', rfl⟩
        · obtain ⟨sp, hsp⟩ := h' 0 (by decide)
          exact absurd hsp (dead k c hc 0 (by decide) sp)
    obtain ⟨k, c, hc, hk⟩ := this (K + 1)
    have := (hK k c hc).1
    omega
  · intro h k c hc
    obtain ⟨a, ha⟩ : ∃ a, ∀ r, r < 2 → r ≠ a → ∀ p, p < 2 → p ≠ r → ghostDofs (G r) (nd r) p ≤ L := by
      rcases h with h | h
      · refine ⟨1, fun r hr hra p hp hpr => ?_⟩
        obtain rfl : r = 0 := by omega
        obtain rfl : p = 1 := by omega
        exact h
      · refine ⟨0, fun r hr hra p hp hpr => ?_⟩
        obtain rfl : r = 1 := by omega
        obtain rfl : p = 0 := by omega
        exact h
    obtain ⟨sp, _, hsp⟩ := C21_eager_terminates_partial dist hL a ha
    rcases hsp k c hc with h | ⟨h, _⟩
    · exact Or.inl h
    · exact Or.inr fun r hr => ⟨_, h r hr⟩

/-! ### The hypotheses can be met -/

/-- On the two processes of `twoParts` (one needs one DOF, the other one three) buffers for messages of one number are enough;
without buffers both wait for ever. -/
example : ghostDofs (twoParts 0) (fun d _ => if d = 0 then 1 else 0) 1 = 1 ∧
    ghostDofs (twoParts 1) (fun d _ => if d = 0 then 1 else 0) 0 = 3 := by decide

example : ∀ k c, Config.Reach (Config.EagerStep 2 1) k (launch 2 twoParts p1) c →
    (∃ c', Config.EagerStep 2 1 c c') ∨ ∀ r, r < 2 → ∃ sp, c.prog r = .done sp :=
  (C21_two_processes twoParts_dist (le_refl 1)).mpr (Or.inl (by decide))

example : ∀ k c, Config.Reach (Config.EagerStep 2 0) k (launch 2 twoParts p1) c → ∀ r, r < 2 → ∀ sp, c.prog r ≠ .done sp :=
  C21_eager_deadlock twoParts_dist (S := fun r => r < 2) ⟨0, by decide⟩ (by
    intro r hr
    refine ⟨hr, 1 - r, ?_⟩
    match r, hr with
    | 0, _ => decide
    | 1, _ => decide)

theorem lt3 {P : Nat → Prop} (h0 : P 0) (h1 : P 1) (h2 : P 2) : ∀ r, r < 3 → P r
  | 0, _ => h0
  | 1, _ => h1
  | 2, _ => h2

/-- Three triangles on three processes; the second and the third one share an edge with the first one, whose vertices belong to
process 0. -/
def fanParts (r : Nat) : Grid :=
  if r = 0 then mkGrid 20 3 [(.triangle, [0, 1, 2])] fun _ _ => .owned
  else if r = 1 then
    mkGrid 21 3 [(.triangle, [0, 1, 2])] fun d i => match d, i with
      | 0, 0 => .ghost 0 0
      | 0, 1 => .ghost 0 2
      | 1, 2 => .ghost 0 1
      | _, _ => .owned
  else
    mkGrid 22 3 [(.triangle, [0, 1, 2])] fun d i => match d, i with
      | 0, 0 => .ghost 0 1
      | 0, 1 => .ghost 0 0
      | 1, 2 => .ghost 0 2
      | _, _ => .owned

/-- Four triangles on three processes; process 0 shares an edge with process 1, to which it belongs, and process 1 one with
process 2, to which it belongs. -/
def chainParts (r : Nat) : Grid :=
  if r = 0 then
    mkGrid 20 3 [(.triangle, [0, 1, 2])] fun d i => match d, i with
      | 0, 0 => .ghost 1 2
      | 0, 1 => .ghost 1 3
      | 1, 2 => .ghost 1 3
      | _, _ => .owned
  else if r = 1 then
    mkGrid 21 4 [(.triangle, [0, 1, 2]), (.triangle, [1, 3, 2])] fun d i => match d, i with
      | 0, 0 => .ghost 2 0
      | 0, 1 => .ghost 2 2
      | 1, 2 => .ghost 2 1
      | _, _ => .owned
  else mkGrid 22 3 [(.triangle, [0, 1, 2])] fun _ _ => .owned

theorem fanParts_wf : ∀ r, r < 3 → (fanParts r).WF := by
  apply lt3 <;> exact
    { tdim := rfl
      index := le2 (by decide) (by decide) (by decide)
      entity := le2 (by intro e he; fin_cases he <;> rfl) (by intro e he; fin_cases he <;> rfl)
        (by intro e he; fin_cases he <;> rfl)
      types := by decide
      sub_lt := by
        intro c hc
        apply le2 <;> revert c <;> decide
      sub_nodup := by
        intro c hc
        apply le2 <;> revert c <;> decide
      sub_length := by
        intro c hc
        apply le2 <;> revert c <;> decide
      sub_self := by decide
      cell_types := by decide
      types_nodup := by decide
      types0 := rfl
      types1 := rfl
      covered := le2 (by decide) (by decide) (by decide) }

theorem chainParts_wf : ∀ r, r < 3 → (chainParts r).WF := by
  apply lt3 <;> exact
    { tdim := rfl
      index := le2 (by decide) (by decide) (by decide)
      entity := le2 (by intro e he; fin_cases he <;> rfl) (by intro e he; fin_cases he <;> rfl)
        (by intro e he; fin_cases he <;> rfl)
      types := by decide
      sub_lt := by
        intro c hc
        apply le2 <;> revert c <;> decide
      sub_nodup := by
        intro c hc
        apply le2 <;> revert c <;> decide
      sub_length := by
        intro c hc
        apply le2 <;> revert c <;> decide
      sub_self := by decide
      cell_types := by decide
      types_nodup := by decide
      types0 := rfl
      types1 := rfl
      covered := le2 (by decide) (by decide) (by decide) }

theorem p1_on_triangles {g : Grid} (h : ∀ t ∈ g.entityTypes 2, t = .triangle) : FamilyOn g p1 fun d _ => if d = 0 then 1 else 0 where
  elem := fun t ht => p1_wf t (by rw [h t ht]; decide)
  count := by
    intro c _ d _ i e _ l hl
    simp only [p1] at hl
    split at hl
    · cases hl; split <;> rfl
    · cases hl

theorem fanParts_dist : Distributed 3 fanParts p1 (fun _ d _ => if d = 0 then 1 else 0) where
  pos := by decide
  wf := fanParts_wf
  family := lt3 (p1_on_triangles (by decide)) (p1_on_triangles (by decide)) (p1_on_triangles (by decide))
  ghost := by
    intro r hr d hd e he p i h
    have key : ∀ r, r < 3 → ∀ d, d ≤ 2 → ∀ x ∈ ghostsOf (fanParts r) d, x.2.1 < 3 ∧ x.2.1 ≠ r ∧
        (∃ e' ∈ (fanParts x.2.1).entityIter d, e'.localIndex = x.2.2 ∧ e'.ownership = .owned) := by
      apply lt3 <;> apply le2 <;> decide
    obtain ⟨h1, h2, h3⟩ := key r hr d hd _ (mem_ghostsOf he h)
    exact ⟨h1, h2, h3, rfl⟩
  ghost_inj := by
    intro r hr d hd e he e' he' p i h h'
    have key : ∀ r, r < 3 → ∀ d, d ≤ 2 → ∀ x ∈ ghostsOf (fanParts r) d,
        ∀ y ∈ ghostsOf (fanParts r) d, x.2 = y.2 → x.1 = y.1 := by
      apply lt3 <;> apply le2 <;> decide
    exact key r hr d hd _ (mem_ghostsOf he h) _ (mem_ghostsOf he' h') rfl

theorem chainParts_dist : Distributed 3 chainParts p1 (fun _ d _ => if d = 0 then 1 else 0) where
  pos := by decide
  wf := chainParts_wf
  family := lt3 (p1_on_triangles (by decide)) (p1_on_triangles (by decide)) (p1_on_triangles (by decide))
  ghost := by
    intro r hr d hd e he p i h
    have key : ∀ r, r < 3 → ∀ d, d ≤ 2 → ∀ x ∈ ghostsOf (chainParts r) d, x.2.1 < 3 ∧ x.2.1 ≠ r ∧
        (∃ e' ∈ (chainParts x.2.1).entityIter d, e'.localIndex = x.2.2 ∧ e'.ownership = .owned) := by
      apply lt3 <;> apply le2 <;> decide
    obtain ⟨h1, h2, h3⟩ := key r hr d hd _ (mem_ghostsOf he h)
    exact ⟨h1, h2, h3, rfl⟩
  ghost_inj := by
    intro r hr d hd e he e' he' p i h h'
    have key : ∀ r, r < 3 → ∀ d, d ≤ 2 → ∀ x ∈ ghostsOf (chainParts r) d,
        ∀ y ∈ ghostsOf (chainParts r) d, x.2 = y.2 → x.1 = y.1 := by
      apply lt3 <;> apply le2 <;> decide
    exact key r hr d hd _ (mem_ghostsOf he h) _ (mem_ghostsOf he' h') rfl

/-- Buffers for single numbers are not enough here. -/
example : ∀ k c, Config.Reach (Config.EagerStep 3 1) k (launch 3 fanParts p1) c → ∀ r, r < 3 → ∀ sp, c.prog r ≠ .done sp :=
  C21_fan_in_deadlock fanParts_dist (p := 0) (q := 1) (r := 2) (by decide) (by decide) (by decide) (by decide) (by decide)

example : ∀ k c, Config.Reach (Config.EagerStep 3 1) k (launch 3 chainParts p1) c → ∀ r, r < 3 → ∀ sp, c.prog r ≠ .done sp :=
  C21_chain_deadlock chainParts_dist (p := 0) (q := 1) (r := 2) (by decide) (by decide) (by decide) (by decide) (by decide)

/-- Buffers for two numbers are enough. -/
example : ∃ sp : Nat → FunctionSpace, Finished 3 chainParts p1 sp ∧ ∀ k c,
    Config.Reach (Config.EagerStep 3 2) k (launch 3 chainParts p1) c →
      (∃ c', Config.EagerStep 3 2 c c') ∨
        ((∀ r, r < 3 → c.prog r = .done (sp r)) ∧ ∀ s d, s < 3 → d < 3 → c.chan s d = []) :=
  C21_eager_terminates_partial chainParts_dist (by decide) 3 (by
    intro r hr _ p hp _
    revert p
    revert r
    decide)

end Bempp
