import Verif.Props.Waiting
import Verif.Proofs.Crash
/-
C68: processes that stop while all processes create a function space.
-/
namespace Bempp
open Examples

variable {n : Nat} {G : Nat → Grid} {fam : CellType → ElementDofs} {nd : Nat → Nat → Nat → Nat}

/-- The number of messages from process `p` to process `r` when `n` processes create a function space: three for the request
and two for the answer, the first number of the next process, and the number of all DOFs from the last process. -/
def messages (n p r : Nat) : Nat := 5 + (if r = p + 1 then 1 else 0) + (if p + 1 = n ∧ r < p then 1 else 0)

theorem messages_eq {D : Nat → DofState} {p r : Nat} (hp : p < n) (hr : r < n) (h : p ≠ r) :
    (sendsTo r (traceOf n D p)).length = messages n p r := by
  rw [sendsTo_traceOf n D hp hr]
  unfold messages
  simp only [List.length_append, h, if_false, List.length_cons, List.length_nil]
  split <;> split <;> simp

/-- **C68.** Whenever processes stop, and whatever messages of these are lost: every execution stops, no process panics, and a
process that returns has the space that it has when no process stops. It has got all messages of all other processes. -/
theorem C68_safe (dist : Distributed n G fam nd) :
    ∃ (K : Nat) (sp : Nat → FunctionSpace), Finished n G fam sp ∧ ∀ k c,
      CrashConfig.Reach n k (.init (launch n G fam)) c →
        k ≤ K ∧ (∀ r, r < n → c.net.prog r ≠ .panic) ∧ ∀ r, r < n → ∀ s, c.net.prog r = .done s →
          s = sp r ∧ ∀ p, p < n → p ≠ r → c.sent p r = messages n p r ∧ c.lost p r = 0 := by
  obtain ⟨sp, hsp⟩ := finished_exists dist
  obtain ⟨D, hD, he⟩ := finished_spaces dist hsp
  refine ⟨CrashConfig.fuel n (.init (launch n G fam)) (traceOf n D), sp, hsp, ?_⟩
  intro k c hk
  obtain ⟨pre, suf, gone, inv, hf⟩ :=
    CrashConfig.inv_reach (traceOf_matching n D) (fun r hr => new_runs dist hD hr) hk rfl
  refine ⟨by omega, ?_, ?_⟩
  · intro r hr h
    have := inv.net.runs r hr
    simp only [h] at this
    cases this
  · intro r hr s h
    obtain ⟨h1, h2⟩ := CrashConfig.inv_done (traceOf_matching n D) inv hr h
    refine ⟨by rw [h1, he r hr], fun p hp hpr => ?_⟩
    rw [← messages_eq (D := D) hp hr hpr]
    exact h2 p hp

/-- **C68, nothing stops.** The executions without stopping processes are among those that C68 is about. -/
theorem C68_includes_normal {k : Nat} {c : Config FunctionSpace} (h : Config.Reach (Config.Step n) k (launch n G fam) c) :
    ∃ c', CrashConfig.Reach n k (.init (launch n G fam)) c' ∧ c'.net = c ∧ (∀ r, c'.dead r = false) ∧ ∀ s d, c'.lost s d = 0 := by
  generalize h0 : launch n G fam = c0 at h ⊢
  induction h with
  | refl => exact ⟨_, .refl _, rfl, fun _ => rfl, fun _ _ => rfl⟩
  | tail _ hs ih =>
    obtain ⟨c', hc', rfl, hd, hl⟩ := ih h0
    cases hs with
    | send r d m k hr h => exact ⟨_, .tail hc' (.move (.send c' r d m k hr (hd r) h)), rfl, hd, hl⟩
    | recv r s m rest k hr h hc => exact ⟨_, .tail hc' (.move (.recv c' r s m rest k hr (hd r) h hc)), rfl, hd, hl⟩

/-- **C68.** If no message is lost, a process that has not stopped itself returns exactly if every process that stopped had sent
it all its messages; otherwise it waits for ever. -/
theorem C68_returns_iff (dist : Distributed n G fam nd) :
    ∃ sp : Nat → FunctionSpace, Finished n G fam sp ∧ ∀ k c,
      CrashConfig.Reach n k (.init (launch n G fam)) c → (∀ s d, s < n → d < n → c.lost s d = 0) →
        (¬ ∃ c', CrashConfig.Move n c c') → ∀ r, r < n → c.dead r = false →
          (c.net.prog r = .done (sp r) ↔ ∀ p, p < n → p ≠ r → c.dead p = true → c.sent p r = messages n p r) := by
  obtain ⟨sp, hsp⟩ := finished_exists dist
  obtain ⟨D, hD, he⟩ := finished_spaces dist hsp
  refine ⟨sp, hsp, ?_⟩
  intro k c hk hlost hstuck r hr hlive
  obtain ⟨pre, suf, gone, inv, -⟩ :=
    CrashConfig.inv_reach (traceOf_matching n D) (fun r hr => new_runs dist hD hr) hk rfl
  constructor
  · intro h p hp hpr _
    rw [← messages_eq (D := D) hp hr hpr]
    exact ((CrashConfig.inv_done (traceOf_matching n D) inv hr h).2 p hp).1
  · intro h
    rw [he r hr]
    refine CrashConfig.inv_stuck inv hlost hstuck hr hlive fun p hp hpr hd => ?_
    rw [messages_eq hp hr hpr]
    exact h p hp hpr hd

/-- **C68.** Processes that stop after they have returned do not keep the others from returning, if no message is lost. -/
theorem C68_stop_after_return (dist : Distributed n G fam nd) :
    ∃ sp : Nat → FunctionSpace, Finished n G fam sp ∧ ∀ k c,
      CrashConfig.Reach n k (.init (launch n G fam)) c → (∀ s d, s < n → d < n → c.lost s d = 0) →
        (∀ p, p < n → c.dead p = true → ∃ s, c.net.prog p = .done s) →
          (∃ c', CrashConfig.Move n c c') ∨ ∀ r, r < n → c.net.prog r = .done (sp r) := by
  obtain ⟨sp, hsp⟩ := finished_exists dist
  obtain ⟨D, hD, he⟩ := finished_spaces dist hsp
  refine ⟨sp, hsp, ?_⟩
  intro k c hk hlost hdone
  obtain ⟨pre, suf, gone, inv, -⟩ :=
    CrashConfig.inv_reach (traceOf_matching n D) (fun r hr => new_runs dist hD hr) hk rfl
  by_cases hstuck : ∃ c', CrashConfig.Move n c c'
  · exact Or.inl hstuck
  · right
    intro r hr
    rw [he r hr]
    cases hd : c.dead r with
    | true =>
      obtain ⟨s, hs⟩ := hdone r hr hd
      rw [hs, (CrashConfig.inv_done (traceOf_matching n D) inv hr hs).1]
    | false =>
      refine CrashConfig.inv_stuck inv hlost hstuck hr hd fun p hp hpr hpd => ?_
      obtain ⟨s, hs⟩ := hdone p hp hpd
      have hrun := inv.net.runs p hp
      simp only [hs] at hrun
      have hnil : suf p = [] := by
        generalize suf p = t at hrun
        cases hrun; rfl
      rw [inv.sent p r hp, inv.net.split p hp, hnil, List.append_nil]

/-- A process that has stopped does nothing more. -/
theorem dead_sent {α : Type} {p : Nat} {c c' : CrashConfig α} {k : Nat} (h : CrashConfig.Reach n k c c')
    (hd : c.dead p = true) : c'.dead p = true ∧ ∀ d, c'.sent p d = c.sent p d := by
  induction h with
  | refl => exact ⟨hd, fun _ => rfl⟩
  | tail _ hs ih =>
    obtain ⟨h1, h2⟩ := ih hd
    cases hs with
    | move hm =>
      cases hm with
      | send r d m k hr ha hp =>
        refine ⟨h1, fun d' => ?_⟩
        have : p ≠ r := by rintro rfl; rw [h1] at ha; cases ha
        simp [CrashConfig.incr, this, h2]
      | recv => exact ⟨h1, h2⟩
    | crash r hr ha => exact ⟨by dsimp only; split <;> simp [h1], h2⟩
    | lose => exact ⟨h1, h2⟩

theorem CrashConfig.Reach.trans {α : Type} {j k : Nat} {a b c : CrashConfig α} (h : CrashConfig.Reach n j a b)
    (h' : CrashConfig.Reach n k b c) : CrashConfig.Reach n (j + k) a c := by
  induction h' with
  | refl => exact h
  | tail _ hs ih => exact .tail (ih h) hs

/-- **C68.** If a process stops before it has sent the last message to another one, the other one never returns. -/
theorem C68_never_returns (dist : Distributed n G fam nd) {j : Nat} {c : CrashConfig FunctionSpace}
    (h : CrashConfig.Reach n j (.init (launch n G fam)) c) {p r : Nat} (hp : p < n) (hr : r < n) (hpr : p ≠ r)
    (hd : c.dead p = true) (hs : c.sent p r < messages n p r) {k : Nat} {c' : CrashConfig FunctionSpace}
    (h' : CrashConfig.Reach n k c c') (s : FunctionSpace) : c'.net.prog r ≠ .done s := by
  intro hdone
  obtain ⟨K, sp, -, hall⟩ := C68_safe dist
  have h1 := (((hall _ _ (h.trans h')).2.2 r hr s hdone).2 p hp hpr).1
  have h2 := (dead_sent h' hd).2 r
  omega

/-- Every execution can be continued, without further stops and losses, until nothing more can happen. -/
theorem CrashConfig.Reach.finish (dist : Distributed n G fam nd) {j : Nat} {c : CrashConfig FunctionSpace}
    (h : CrashConfig.Reach n j (.init (launch n G fam)) c) :
    ∃ k c', CrashConfig.Reach n k c c' ∧ c'.dead = c.dead ∧ c'.lost = c.lost ∧ ¬ ∃ c'', CrashConfig.Move n c' c'' := by
  obtain ⟨K, sp, -, hall⟩ := C68_safe dist
  have key : ∀ f j c, CrashConfig.Reach n j (.init (launch n G fam)) c → K - j ≤ f →
      ∃ k c', CrashConfig.Reach n k c c' ∧ c'.dead = c.dead ∧ c'.lost = c.lost ∧ ¬ ∃ c'', CrashConfig.Move n c' c'' := by
    intro f
    induction f with
    | zero =>
      intro j c h hf
      refine ⟨0, c, .refl _, rfl, rfl, ?_⟩
      rintro ⟨c'', hm⟩
      have := (hall _ _ (.tail h (.move hm))).1
      omega
    | succ f ih =>
      intro j c h hf
      by_cases hm : ∃ c'', CrashConfig.Move n c c''
      · obtain ⟨c'', hm⟩ := hm
        have hk := (hall _ _ (.tail h (.move hm))).1
        obtain ⟨k, c', h1, h2, h3, h4⟩ := ih _ _ (.tail h (.move hm)) (by omega)
        have hd : c''.dead = c.dead ∧ c''.lost = c.lost := by cases hm <;> exact ⟨rfl, rfl⟩
        exact ⟨1 + k, c', (CrashConfig.Reach.tail (.refl _) (.move hm)).trans h1, h2.trans hd.1, h3.trans hd.2, h4⟩
      · exact ⟨0, c, .refl _, rfl, rfl, hm⟩
  exact key _ j c h (Nat.le_refl _)

/-- The hypotheses of `C68_returns_iff` and `C68_stop_after_return` are met by an execution in which a process stops: the four
processes of `treeParts` return, then process 3 stops. -/
example : ∃ k c, CrashConfig.Reach 4 k (.init (launch 4 treeParts p1)) c ∧ c.dead 3 = true ∧ (∀ s d, c.lost s d = 0) ∧
    (¬ ∃ c', CrashConfig.Move 4 c c') ∧ ∀ p, p < 4 → ∃ s, c.net.prog p = .done s := by
  obtain ⟨k, c, h, hd, hl, hm⟩ := CrashConfig.Reach.finish treeParts_dist (.refl _)
  obtain ⟨sp, -, hall⟩ := C68_stop_after_return treeParts_dist
  have hdone := (hall k c h (fun s d _ _ => by rw [hl]; rfl) (fun p _ hp => by rw [hd] at hp; cases hp)).resolve_left hm
  refine ⟨k + 1, _, .tail h (.crash c 3 (by decide) (by rw [hd]; rfl)), rfl, fun s d => ?_, ?_, fun p hp => ⟨_, hdone p hp⟩⟩
  · show c.lost s d = 0
    rw [hl]; rfl
  · rintro ⟨c', hm'⟩
    cases hm' with
    | send r d m k hr ha hp => rw [show _ = _ from hdone r hr] at hp; cases hp
    | recv r s m rest k hr ha hp hc => rw [show _ = _ from hdone r hr] at hp; cases hp

/-- They are also met by an execution in which a process stops at the start. -/
example : ∃ k c, CrashConfig.Reach 4 k (.init (launch 4 treeParts p1)) c ∧ c.dead 3 = true ∧ (∀ s d, c.lost s d = 0) ∧
    (¬ ∃ c', CrashConfig.Move 4 c c') ∧ ∀ r, r < 3 → c.dead r = false := by
  have h : CrashConfig.Reach 4 1 (.init (launch 4 treeParts p1)) _ := .tail (.refl _) (.crash _ 3 (by decide) rfl)
  obtain ⟨k, c, h', hd, hl, hm⟩ := h.finish treeParts_dist
  refine ⟨_, c, h.trans h', by rw [hd]; rfl, fun s d => by rw [hl]; rfl, hm, fun r hr => ?_⟩
  rw [hd]
  show (if r = 3 then true else false) = false
  rw [if_neg (by omega)]

/-- Process 3 of `treeParts` stops at the start, so no other process ever returns. -/
example : ∃ c, CrashConfig.Reach 4 1 (.init (launch 4 treeParts p1)) c ∧ ∀ k c', CrashConfig.Reach 4 k c c' →
    ∀ r, r < 3 → ∀ s, c'.net.prog r ≠ .done s := by
  have h : CrashConfig.Reach 4 1 (.init (launch 4 treeParts p1)) _ := .tail (.refl _) (.crash _ 3 (by decide) rfl)
  refine ⟨_, h, fun k c' h' r hr s => ?_⟩
  refine C68_never_returns treeParts_dist h (p := 3) (by decide) (by omega) (by omega) rfl ?_ h' s
  show 0 < messages 4 3 r
  unfold messages
  omega

end Bempp
