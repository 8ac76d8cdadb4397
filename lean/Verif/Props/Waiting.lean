import Verif.Props.Eager
import Verif.Proofs.Waiting
/-
C64: which processes return from `FunctionSpace::new` if MPI buffers messages up to some length only.
-/
namespace Bempp
open Examples

variable {n L : Nat} {G : Nat → Grid} {fam : CellType → ElementDofs} {nd : Nat → Nat → Nat → Nat}

theorem waits_congr {long long' : Nat → Nat → Prop} (h : ∀ p q, p < n → q < n → q ≠ p → (long p q ↔ long' p q)) {x y : Event}
    (hx : x.Valid n) (hw : x.Waits n long y) : x.Waits n long' y := by
  obtain ⟨hy, hw⟩ := hw
  refine ⟨hy, hw.imp_right (Or.imp_right fun ⟨h1, h2⟩ => ⟨?_, h2⟩)⟩
  exact h1.imp (And.imp_right (h _ _ hx.1 hx.2.1 hx.2.2).mp) (And.imp_right (h _ _ hx.2.1 hx.1 (Ne.symm hx.2.2)).mp)

theorem free_congr {long long' : Nat → Nat → Prop} (h : ∀ p q, p < n → q < n → q ≠ p → (long p q ↔ long' p q)) {x : Event}
    (hx : x.Valid n) (hf : x.Free n long) : x.Free n long' := by
  induction hf with
  | intro x _ ih =>
    exact .intro _ fun y hy => ih y (waits_congr (fun p q hp hq hpq => (h p q hp hq hpq).symm) hx hy) hy.1

/-- **C64.** All processes call `FunctionSpace::new`; MPI buffers messages of up to `L` numbers, and a longer one is handed over only
when the receiver is ready. Whether process `r` returns depends neither on the order of the steps nor on the relative speed of the
processes, but only on how many DOFs the processes need of each other: if nothing that `r` has to do waits, directly or not, for
something that waits for itself, then `r` has returned, with the same space as always, in every execution that cannot continue (and
all executions come to that point, `C21_eager_safe`); otherwise it returns in no execution. -/
theorem C64_returns_iff (dist : Distributed n G fam nd) (L : Nat) :
    ∃ sp : Nat → FunctionSpace, Finished n G fam sp ∧ ∀ r, r < n →
      ((∀ e : Event, e.Valid n → e.rank = r → ¬ e.Hangs n fun p q => L < ghostDofs (G p) (nd p) q) →
        ∀ k c, Config.Reach (Config.EagerStep n L) k (launch n G fam) c → (¬ ∃ c', Config.EagerStep n L c c') →
          c.prog r = .done (sp r)) ∧
      ((∃ e : Event, e.Valid n ∧ e.rank = r ∧ e.Hangs n fun p q => L < ghostDofs (G p) (nd p) q) →
        ∀ k c, Config.Reach (Config.EagerStep n L) k (launch n G fam) c → ∀ s, c.prog r ≠ .done s) := by
  obtain ⟨sp, hsp⟩ := finished_exists dist
  obtain ⟨D, hD, he⟩ := finished_spaces dist hsp
  have hl : ∀ p q, p < n → q < n → q ≠ p → (L < ghostDofs (G p) (nd p) q ↔ L < (gh D p q).length) :=
    fun p q hp _ hpq => by rw [gh_length dist hD hp hpq]
  refine ⟨sp, hsp, fun r hr => ⟨?_, ?_⟩⟩
  · intro hfree k c hk hstuck
    obtain ⟨pre, suf, inv, _, _⟩ := never_done (fun r hr => new_runs dist hD hr) hk
    have late := stuck_start inv (isStuck inv hstuck)
    have hnil : suf r = [] := by
      cases h : suf r with
      | nil => rfl
      | cons y u =>
        have hmem : y ∈ suf r := h ▸ List.mem_cons_self
        obtain ⟨e, hv, hp⟩ := act_event hr (mem_of_suf inv hr hmem) (late r hr y hmem)
        have hrank := hp.1
        subst hrank
        exact absurd hp (free_done inv hstuck (free_congr hl hv (Event.free_iff.mpr (hfree e hv rfl))) hv y hmem)
    have := inv.runs r hr
    rw [hnil] at this
    rw [he r hr]
    generalize c.prog r = p at this
    cases this; rfl
  · rintro ⟨e, hv, rfl, hh⟩ k c hk s hdone
    obtain ⟨pre, suf, inv, _, hpre⟩ := never_done (fun r hr => new_runs dist hD hr) hk
    have hrun := inv.runs e.rank hr
    rw [hdone] at hrun
    have hnil : suf e.rank = [] := by
      generalize suf e.rank = t at hrun
      cases hrun; rfl
    obtain ⟨x, hx, hp⟩ := event_acts (D := D) hv
    rw [inv.split _ hr, hnil, List.append_nil] at hx
    exact Event.free_iff.mp (free_congr (fun p q hp hq hpq => (hl p q hp hq hpq).symm) hv (hpre _ hr x hx e hv hp)) hh

/-- **C64, all processes.** Every execution goes on until all processes have returned exactly if no event waits for itself. -/
theorem C64_all_return_iff (dist : Distributed n G fam nd) (L : Nat) :
    (∀ k c, Config.Reach (Config.EagerStep n L) k (launch n G fam) c →
      (∃ c', Config.EagerStep n L c c') ∨ ∀ r, r < n → ∃ sp, c.prog r = .done sp) ↔
    ∀ e : Event, e.Valid n → ¬ e.Hangs n fun p q => L < ghostDofs (G p) (nd p) q := by
  obtain ⟨sp, _, h⟩ := C64_returns_iff dist L
  constructor
  · intro hall e hv hh
    have dead := (h e.rank hv.1).2 ⟨e, hv, rfl, hh⟩
    obtain ⟨K, _, _, hK⟩ := C21_eager_safe dist L
    have : ∀ m, ∃ k c, Config.Reach (Config.EagerStep n L) k (launch n G fam) c ∧ k = m := by
      intro m
      induction m with
      | zero => exact ⟨0, _, .refl _, rfl⟩
      | succ m ih =>
        obtain ⟨k, c, hc, rfl⟩ := ih
        rcases hall k c hc with ⟨c', hc'⟩ | h'
        · exact ⟨k + 1, c', .tail hc hc', rfl⟩
        · obtain ⟨sp, hsp⟩ := h' e.rank hv.1
          exact absurd hsp (dead k c hc sp)
    obtain ⟨k, c, hc, hk⟩ := this (K + 1)
    have := (hK k c hc).1
    omega
  · intro hno k c hk
    by_cases hs : ∃ c', Config.EagerStep n L c c'
    · exact Or.inl hs
    · exact Or.inr fun r hr => ⟨_, (h r hr).1 (fun e hv _ => hno e hv) k c hk hs⟩

/-! ### The hypotheses can be met -/

/-- On two processes an event hangs if and only if both need more than `L` DOFs of each other. -/
example (dist : Distributed 2 G fam nd) (hL : 1 ≤ L) :
    (∃ e : Event, e.Valid 2 ∧ e.Hangs 2 fun p q => L < ghostDofs (G p) (nd p) q) ↔
      L < ghostDofs (G 0) (nd 0) 1 ∧ L < ghostDofs (G 1) (nd 1) 0 := by
  have h := (C64_all_return_iff dist L).symm.trans (C21_two_processes dist hL)
  constructor
  · rintro ⟨e, hv, hh⟩
    by_contra hno
    exact h.mpr (by omega) e hv hh
  · intro h'
    by_contra hno
    push Not at hno
    have := h.mp hno
    omega

theorem lt4 {P : Nat → Prop} (h0 : P 0) (h1 : P 1) (h2 : P 2) (h3 : P 3) : ∀ r, r < 4 → P r
  | 0, _ => h0
  | 1, _ => h1
  | 2, _ => h2
  | 3, _ => h3

/-- Five triangles on four processes; process 2 shares an edge with process 0, to which it belongs, process 3 one with process 2, to
which it belongs, and process 1 nothing. -/
def treeParts (r : Nat) : Grid :=
  if r ≤ 1 then mkGrid (20 + r) 3 [(.triangle, [0, 1, 2])] fun _ _ => .owned
  else if r = 2 then
    mkGrid 22 4 [(.triangle, [0, 1, 2]), (.triangle, [1, 3, 2])] fun d i => match d, i with
      | 0, 0 => .ghost 0 0
      | 0, 1 => .ghost 0 2
      | 1, 2 => .ghost 0 1
      | _, _ => .owned
  else
    mkGrid 23 3 [(.triangle, [0, 1, 2])] fun d i => match d, i with
      | 0, 0 => .ghost 2 2
      | 0, 1 => .ghost 2 3
      | 1, 2 => .ghost 2 3
      | _, _ => .owned

theorem treeParts_wf : ∀ r, r < 4 → (treeParts r).WF := by
  apply lt4 <;> exact
    { tdim := rfl
      index := le2 (by decide) (by decide) (by decide)
      entity := le2 (by intro e he; fin_cases he <;> rfl) (by intro e he; fin_cases he <;> rfl)
        (by intro e he; fin_cases he <;> rfl)
      types := by decide
      sub_lt := by
        intro c hc
        apply le2 <;> revert c <;> decide
      sub_nodup := by
        intro c hc
        apply le2 <;> revert c <;> decide
      sub_length := by
        intro c hc
        apply le2 <;> revert c <;> decide
      sub_self := by decide
      cell_types := by decide
      types_nodup := by decide
      types0 := rfl
      types1 := rfl
      covered := le2 (by decide) (by decide) (by decide) }

theorem treeParts_dist : Distributed 4 treeParts p1 (fun _ d _ => if d = 0 then 1 else 0) where
  pos := by decide
  wf := treeParts_wf
  family := lt4 (p1_on_triangles (by decide)) (p1_on_triangles (by decide)) (p1_on_triangles (by decide))
    (p1_on_triangles (by decide))
  ghost := by
    intro r hr d hd e he p i h
    have key : ∀ r, r < 4 → ∀ d, d ≤ 2 → ∀ x ∈ ghostsOf (treeParts r) d, x.2.1 < 4 ∧ x.2.1 ≠ r ∧
        (∃ e' ∈ (treeParts x.2.1).entityIter d, e'.localIndex = x.2.2 ∧ e'.ownership = .owned) := by
      apply lt4 <;> apply le2 <;> decide
    obtain ⟨h1, h2, h3⟩ := key r hr d hd _ (mem_ghostsOf he h)
    exact ⟨h1, h2, h3, rfl⟩
  ghost_inj := by
    intro r hr d hd e he e' he' p i h h'
    have key : ∀ r, r < 4 → ∀ d, d ≤ 2 → ∀ x ∈ ghostsOf (treeParts r) d,
        ∀ y ∈ ghostsOf (treeParts r) d, x.2 = y.2 → x.1 = y.1 := by
      apply lt4 <;> apply le2 <;> decide
    exact key r hr d hd _ (mem_ghostsOf he h) _ (mem_ghostsOf he' h') rfl

/-- Processes 2 and 3 ask for two DOFs. -/
theorem treeParts_long : ∀ p, p < 4 → ∀ q, q < 4 → q ≠ p →
    (1 < ghostDofs (treeParts p) (fun d _ => if d = 0 then 1 else 0) q ↔ (p = 2 ∧ q = 0) ∨ (p = 3 ∧ q = 2)) := by
  apply lt4 <;> apply lt4 <;> decide

instance (n : Nat) : DecidablePred (Event.Valid n) := fun _ => inferInstanceAs (Decidable (_ ∧ _))
instance (x y : Event) : Decidable (x.Before y) := inferInstanceAs (Decidable (_ ∧ _))
instance (x : Event) : Decidable x.Receives := inferInstanceAs (Decidable (_ ∨ _))
instance (long : Nat → Nat → Prop) [∀ p q, Decidable (long p q)] (x : Event) : Decidable (x.SendsLong long) :=
  inferInstanceAs (Decidable (_ ∨ _))
instance (n : Nat) (long : Nat → Nat → Prop) [∀ p q, Decidable (long p q)] (x y : Event) : Decidable (x.Waits n long y) :=
  inferInstanceAs (Decidable (_ ∧ _))

/-- All events of `n` processes. -/
def allEvents (n : Nat) : List Event :=
  (List.range n).flatMap fun r => (List.range n).flatMap fun p =>
    [Talk.ask, .hear, .reply, .read].map fun t => ⟨r, t, p⟩

theorem mem_allEvents {e : Event} (h : e.Valid n) : e ∈ allEvents n := by
  obtain ⟨r, t, p⟩ := e
  simp only [allEvents, List.mem_flatMap, List.mem_range, List.mem_map]
  refine ⟨r, h.1, p, h.2.1, t, ?_, rfl⟩
  cases t <;> simp

/-- Events that take place one after the other. -/
theorem free_of_order {long : Nat → Nat → Prop} (l done : List Event) (hdone : ∀ e ∈ done, e.Free n long)
    (h : ∀ i, (hi : i < l.length) → ∀ y ∈ allEvents n, l[i].Waits n long y → y ∈ done ∨ y ∈ l.take i) :
    ∀ e ∈ l, e.Free n long := by
  have : ∀ i, (hi : i < l.length) → l[i].Free n long := by
    intro i
    induction i using Nat.strongRecOn with
    | ind i ih =>
      intro hi
      refine .intro _ fun y hy => ?_
      rcases h i hi y (mem_allEvents hy.1) hy with h1 | h1
      · exact hdone y h1
      · obtain ⟨j, hj, rfl⟩ := List.mem_iff_getElem.mp h1
        rw [List.length_take] at hj
        rw [List.getElem_take]
        exact ih j (by omega) (by omega)
  intro e he
  obtain ⟨i, hi, rfl⟩ := List.mem_iff_getElem.mp he
  exact this i hi

/-- Buffers for single numbers are not enough for `treeParts`: processes 0, 2 and 3 never return. Process 1 always does. -/
theorem treeParts_one : ∃ sp : Nat → FunctionSpace, Finished 4 treeParts p1 sp ∧ ∀ k c,
    Config.Reach (Config.EagerStep 4 1) k (launch 4 treeParts p1) c →
      (∀ s, c.prog 0 ≠ .done s ∧ c.prog 2 ≠ .done s ∧ c.prog 3 ≠ .done s) ∧
      ((∃ c', Config.EagerStep 4 1 c c') ∨ c.prog 1 = .done (sp 1)) := by
  obtain ⟨sp, hsp, h⟩ := C64_returns_iff treeParts_dist 1
  have cong : ∀ p q, p < 4 → q < 4 → q ≠ p →
      ((p = 2 ∧ q = 0) ∨ (p = 3 ∧ q = 2) ↔ 1 < ghostDofs (treeParts p) (fun d _ => if d = 0 then 1 else 0) q) :=
    fun p q hp hq hpq => (treeParts_long p hp q hq hpq).symm
  -- the cycle
  have cyc : Event.Hangs 4 (fun p q => 1 < ghostDofs (treeParts p) (fun d _ => if d = 0 then 1 else 0) q) ⟨0, .reply, 2⟩ := by
    refine ⟨⟨0, .reply, 2⟩, ⟨2, .reply, 3⟩, .refl, waits_congr cong (by decide) (by decide), ?_⟩
    refine .step (y := ⟨0, .reply, 3⟩) (.step (y := ⟨3, .read, 0⟩) (.step .refl ?_) ?_) ?_ <;>
      exact waits_congr cong (by decide) (by decide)
  have via : ∀ {x : Event}, x.Valid 4 → x.Waits 4 (fun p q => (p = 2 ∧ q = 0) ∨ (p = 3 ∧ q = 2)) ⟨0, .reply, 2⟩ →
      Event.Hangs 4 (fun p q => 1 < ghostDofs (treeParts p) (fun d _ => if d = 0 then 1 else 0) q) x := by
    intro x hx hw
    obtain ⟨y, z, h1, h2⟩ := cyc
    exact ⟨y, z, Event.waitsOn_trans (.step .refl (waits_congr cong hx hw)) h1, h2⟩
  have free := free_of_order (n := 4) (long := fun p q => (p = 2 ∧ q = 0) ∨ (p = 3 ∧ q = 2))
    [⟨0, .ask, 1⟩, ⟨0, .ask, 2⟩, ⟨0, .ask, 3⟩, ⟨1, .ask, 0⟩, ⟨1, .ask, 2⟩, ⟨1, .ask, 3⟩, ⟨1, .hear, 0⟩, ⟨1, .reply, 0⟩,
     ⟨3, .ask, 0⟩, ⟨3, .ask, 1⟩, ⟨0, .hear, 1⟩, ⟨0, .reply, 1⟩, ⟨2, .ask, 0⟩, ⟨2, .ask, 1⟩, ⟨2, .ask, 3⟩, ⟨2, .hear, 0⟩,
     ⟨2, .reply, 0⟩, ⟨0, .hear, 2⟩, ⟨1, .hear, 2⟩, ⟨1, .reply, 2⟩, ⟨2, .hear, 1⟩, ⟨2, .reply, 1⟩, ⟨3, .ask, 2⟩, ⟨3, .hear, 0⟩,
     ⟨3, .reply, 0⟩, ⟨1, .hear, 3⟩, ⟨1, .reply, 3⟩, ⟨1, .read, 0⟩, ⟨1, .read, 2⟩, ⟨2, .hear, 3⟩, ⟨3, .hear, 1⟩, ⟨3, .reply, 1⟩,
     ⟨1, .read, 3⟩] [] (by simp) (by decide +kernel)
  have mem : ∀ e ∈ allEvents 4, e.Valid 4 → e.rank = 1 → e ∈ ([⟨0, .ask, 1⟩, ⟨0, .ask, 2⟩, ⟨0, .ask, 3⟩, ⟨1, .ask, 0⟩,
     ⟨1, .ask, 2⟩, ⟨1, .ask, 3⟩, ⟨1, .hear, 0⟩, ⟨1, .reply, 0⟩, ⟨3, .ask, 0⟩, ⟨3, .ask, 1⟩, ⟨0, .hear, 1⟩, ⟨0, .reply, 1⟩,
     ⟨2, .ask, 0⟩, ⟨2, .ask, 1⟩, ⟨2, .ask, 3⟩, ⟨2, .hear, 0⟩, ⟨2, .reply, 0⟩, ⟨0, .hear, 2⟩, ⟨1, .hear, 2⟩, ⟨1, .reply, 2⟩,
     ⟨2, .hear, 1⟩, ⟨2, .reply, 1⟩, ⟨3, .ask, 2⟩, ⟨3, .hear, 0⟩, ⟨3, .reply, 0⟩, ⟨1, .hear, 3⟩, ⟨1, .reply, 3⟩, ⟨1, .read, 0⟩,
     ⟨1, .read, 2⟩, ⟨2, .hear, 3⟩, ⟨3, .hear, 1⟩, ⟨3, .reply, 1⟩, ⟨1, .read, 3⟩] : List Event) := by decide +kernel
  refine ⟨sp, hsp, fun k c hk => ⟨fun s => ⟨?_, ?_, ?_⟩, ?_⟩⟩
  · exact (h 0 (by decide)).2 ⟨_, by decide, rfl, cyc⟩ k c hk s
  · exact (h 2 (by decide)).2 ⟨⟨2, .read, 0⟩, by decide, rfl, via (by decide) (by decide)⟩ k c hk s
  · refine (h 3 (by decide)).2 ⟨⟨3, .read, 0⟩, by decide, rfl, ?_⟩ k c hk s
    obtain ⟨y, z, h1, h2⟩ := via (x := ⟨0, .reply, 3⟩) (by decide) (by decide)
    exact ⟨y, z, Event.waitsOn_trans (.step .refl (waits_congr cong (by decide) (by decide))) h1, h2⟩
  · by_cases hs : ∃ c', Config.EagerStep 4 1 c c'
    · exact Or.inl hs
    · refine Or.inr ((h 1 (by decide)).1 (fun e hv hr => ?_) k c hk hs)
      exact Event.free_iff.mp (free_congr cong hv (free e (mem e (mem_allEvents hv) hv hr)))

end Bempp
