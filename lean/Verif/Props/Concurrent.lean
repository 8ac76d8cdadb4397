import Verif.Proofs.Concurrent
import Verif.Props.Schedule
/-
C106: assemblies that run at the same time.
-/
set_option linter.unusedSectionVars false

namespace Bempp
open Examples

variable {R T : Type} [Zero R] [Mul R] [Zero T] [Add T] [Mul T]
  {calls : List (DenseCall R T)} {plans : List (Phases T)} {offsets : List Nat} {mem : List T} {s : ConState T}

theorem plans_get (hp : PlansOf calls plans) : plans.length = calls.length ∧
    ∀ (i : Nat) (p : Phases T), plans[i]? = some p → ∃ c, calls[i]? = some c ∧ CallPlan c.env c.asm c.trial c.test p := by
  have hlen := hp.length_eq
  refine ⟨hlen.symm, fun i p h => ?_⟩
  obtain ⟨h1, rfl⟩ := List.getElem?_eq_some_iff.mp h
  have h2 : i < calls.length := by omega
  exact ⟨_, List.getElem?_eq_getElem h2, List.Forall₂.get hp h2 h1⟩

theorem plans_inside (hser : ∀ c ∈ calls, c.Serial) (hp : PlansOf calls plans) :
    ∀ (i n : Nat) (p : Phases T), plans[i]? = some p → (calls.map DenseCall.size)[i]? = some n → p.Inside n := by
  intro i n p h hn
  obtain ⟨c, hc, hcp⟩ := (plans_get hp).2 i p h
  obtain ⟨famT, famR, ht, hr⟩ := hser c (List.mem_of_getElem? hc)
  rw [List.getElem?_map, hc] at hn
  cases hn
  exact (plan_inside ht hr hcp).1

theorem plans_inv (hser : ∀ c ∈ calls, c.Serial) (hp : PlansOf calls plans)
    (hs : SeparateParts offsets (calls.map DenseCall.size) mem.length) (hrun : ConSteps offsets (ConState.start mem plans) s) :
    ConInv offsets (calls.map DenseCall.size) plans mem s :=
  con_steps hs (plans_inside hser hp) (by rw [(plans_get hp).1, hs.length, List.length_map]) hrun

/-- C106: several calls of `assemble_into_memory` run at the same time, in any interleaving of the loads, the stores and the
starts of their parallel sections, each of them on its own part of one memory. When a call has returned, then its part contains
exactly what the call leaves there when it runs alone, and it could not have panicked. (The other calls may be in the middle of
their work.) -/
theorem C106_results (hser : ∀ c ∈ calls, c.Serial) (hp : PlansOf calls plans)
    (hs : SeparateParts offsets (calls.map DenseCall.size) mem.length) (hrun : ConSteps offsets (ConState.start mem plans) s)
    {i a : Nat} {c : DenseCall R T} {st : CallState T} (hc : calls[i]? = some c) (ha : offsets[i]? = some a)
    (hst : s.calls[i]? = some st) (hret : st.Returned) (o : Outcome (List T)) :
    c.Alone (partOf mem a c.size) o ↔ o = .ok (partOf s.mem a c.size) := by
  have inv := plans_inv hser hp hs hrun
  obtain ⟨hlen, hget⟩ := plans_get hp
  have hi : i < plans.length := by rw [hlen]; exact (List.getElem?_eq_some_iff.mp hc).1
  have hpi := List.getElem?_eq_getElem hi
  obtain ⟨c', hc', hplan⟩ := hget i _ hpi
  obtain rfl : c = c' := by simpa [hc] using hc'
  have hn : (calls.map DenseCall.size)[i]? = some c.size := by rw [List.getElem?_map, hc]; rfl
  have hseq := (inv.call i st _ a c.size hst hpi ha hn).returned hret
  obtain ⟨famT, famR, ht, hr⟩ := hser c (List.mem_of_getElem? hc)
  have hok : c.Alone (partOf mem a c.size) (.ok (partOf s.mem a c.size)) :=
    plan_run ht hr hplan (partOf_length (hs.inside i a c.size ha hn)) hseq fun _ _ _ h => seqRun_length h
  constructor
  · intro h
    rcases C09_schedule_independent ht hr hok h with ⟨x, e1, e2⟩ | ⟨x, y, e1, -⟩
    · rw [e1, e2]
    · cases e1
  · rintro rfl
    exact hok

/-- C106: no call writes outside the parts; the memory keeps its length. -/
theorem C106_untouched (hser : ∀ c ∈ calls, c.Serial) (hp : PlansOf calls plans)
    (hs : SeparateParts offsets (calls.map DenseCall.size) mem.length) (hrun : ConSteps offsets (ConState.start mem plans) s) :
    s.mem.length = mem.length ∧
    ∀ x, (∀ (i a : Nat) (c : DenseCall R T), offsets[i]? = some a → calls[i]? = some c → x < a ∨ a + c.size ≤ x) →
      s.mem[x]? = mem[x]? := by
  have inv := plans_inv hser hp hs hrun
  refine ⟨inv.length, fun x hx => inv.outside x fun i a n ha hn => ?_⟩
  rw [List.getElem?_map, Option.map_eq_some_iff] at hn
  obtain ⟨c, hc, rfl⟩ := hn
  exact hx i a c ha hc

/-- C106: at any moment the next accesses of two different tasks, of the same call or of different calls, are at different
positions; all are inside the part of their call. -/
theorem C106_no_race (hser : ∀ c ∈ calls, c.Serial) (hp : PlansOf calls plans)
    (hs : SeparateParts offsets (calls.map DenseCall.size) mem.length) (hrun : ConSteps offsets (ConState.start mem plans) s) :
    (∀ (i a : Nat) (c : DenseCall R T) (st : CallState T), offsets[i]? = some a → calls[i]? = some c → s.calls[i]? = some st →
      ∀ t ∈ st.tasks, ∀ x ∈ t.todo, x.addr < c.size) ∧
    ∀ (i j a b k l : Nat) (st st' : CallState T) (t t' : Task T), (i, k) ≠ (j, l) → offsets[i]? = some a → offsets[j]? = some b →
      s.calls[i]? = some st → s.calls[j]? = some st' → st.tasks[k]? = some t → st'.tasks[l]? = some t' →
      ∀ x ∈ t.todo, ∀ y ∈ t'.todo, a + x.addr ≠ b + y.addr := by
  have inv := plans_inv hser hp hs hrun
  obtain ⟨hlen, hget⟩ := plans_get hp
  have hin := plans_inside hser hp
  have hsz : ∀ (i : Nat) (c : DenseCall R T), calls[i]? = some c → (calls.map DenseCall.size)[i]? = some c.size := by
    intro i c hc
    rw [List.getElem?_map, hc]
    rfl
  have hfind : ∀ (i : Nat) (st : CallState T), s.calls[i]? = some st → ∃ p c, plans[i]? = some p ∧ calls[i]? = some c ∧
      CallPlan c.env c.asm c.trial c.test p := by
    intro i st h
    have h1 := (List.getElem?_eq_some_iff.mp h).1
    have h2 : i < plans.length := by rw [← inv.calls]; exact h1
    obtain ⟨c, hc, hcp⟩ := hget i _ (List.getElem?_eq_getElem h2)
    exact ⟨_, c, List.getElem?_eq_getElem h2, hc, hcp⟩
  have hb : ∀ (i a : Nat) (c : DenseCall R T) (st : CallState T), offsets[i]? = some a → calls[i]? = some c →
      s.calls[i]? = some st → ∀ t ∈ st.tasks, ∀ x ∈ t.todo, x.addr < c.size := by
    intro i a c st ha hc hst
    obtain ⟨p, c', hpi, hc', -⟩ := hfind i st hst
    exact (inv.call i st p a _ hst hpi ha (hsz i c hc)).current (hin i _ p hpi (hsz i c hc))
  refine ⟨hb, ?_⟩
  intro i j a b k l st st' t t' hne ha hb' hst hst' ht ht' x hx y hy
  obtain ⟨p, c, hpi, hc, hcp⟩ := hfind i st hst
  obtain ⟨p', c', hpj, hc', hcp'⟩ := hfind j st' hst'
  have hx' := hb i a c st ha hc hst t (List.mem_of_getElem? ht) x hx
  have hy' := hb j b c' st' hb' hc' hst' t' (List.mem_of_getElem? ht') y hy
  by_cases e : i = j
  · subst e
    have hkl : k ≠ l := fun e => hne (by rw [e])
    obtain rfl : a = b := by simpa [ha] using hb'
    obtain rfl : st = st' := by simpa [hst] using hst'
    obtain ⟨done, cur, m1, e1, -, hpar⟩ := inv.call i st p a _ hst hpi ha (hsz i c hc)
    obtain ⟨la, hla, sa⟩ := parSteps_suffix hpar k t ht
    obtain ⟨lb, hlb, sb⟩ := parSteps_suffix hpar l t' ht'
    have hcur : cur ∈ [] :: p := by rw [e1]; simp
    rcases List.mem_cons.mp hcur with rfl | hcur
    · simp at hla
    · obtain ⟨famT, famR, h1, h2⟩ := hser c (List.mem_of_getElem? hc)
      have := (plan_inside h1 h2 hcp).2 cur hcur k l la lb hkl hla hlb x (sa.subset hx) y (sb.subset hy)
      omega
  · have := hs.apart i j a _ b _ e ha (hsz i c hc) hb' (hsz j c' hc')
    omega

/-- C106: the calls do not wait for each other: a call that has not returned can take a step of its own, whatever the others have
done; every sequence of steps ends; and from every moment on all calls can return. -/
theorem C106_finish (hser : ∀ c ∈ calls, c.Serial) (hp : PlansOf calls plans)
    (hs : SeparateParts offsets (calls.map DenseCall.size) mem.length) :
    (∀ s, ConSteps offsets (ConState.start mem plans) s → ∀ (i : Nat) (st : CallState T), s.calls[i]? = some st → ¬ st.Returned →
      ∃ s', ConStep offsets s s' ∧ ∀ j, j ≠ i → s'.calls[j]? = s.calls[j]?) ∧
    WellFounded (fun s' s : ConState T => ConStep offsets s s') ∧
    ∀ s, ConSteps offsets (ConState.start mem plans) s →
      ∃ s', ConSteps offsets (ConState.start mem plans) s' ∧ s'.calls.length = calls.length ∧ ∀ st ∈ s'.calls, st.Returned := by
  have hpr : ∀ s, ConSteps offsets (ConState.start mem plans) s → ∀ (i : Nat) (st : CallState T), s.calls[i]? = some st →
      ¬ st.Returned → ∃ s', ConStep offsets s s' ∧ ∀ j, j ≠ i → s'.calls[j]? = s.calls[j]? := fun s h i st hst hr =>
    con_progress hs (plans_inside hser hp) (by rw [(plans_get hp).1, hs.length, List.length_map]) (plans_inv hser hp hs h) hst hr
  have hwf : WellFounded (fun s' s : ConState T => ConStep offsets s s') :=
    Subrelation.wf (r := InvImage (· < ·) ConState.steps) (fun h => conStep_steps h) (InvImage.wf _ Nat.lt_wfRel.wf)
  refine ⟨hpr, hwf, fun s => ?_⟩
  induction s using hwf.induction with
  | _ s ih =>
    intro h
    by_cases hall : ∀ st ∈ s.calls, st.Returned
    · exact ⟨s, h, (plans_inv hser hp hs h).calls.trans (plans_get hp).1, hall⟩
    · push Not at hall
      obtain ⟨st, hst, hr⟩ := hall
      obtain ⟨i, hi⟩ := List.getElem?_of_mem hst
      obtain ⟨s', h1, -⟩ := hpr s h i st hi hr
      exact ih s' h1 (h.tail h1)

/-- C106: the plans are the operations of all calls that do not panic: a call that can return when it runs alone has a plan. -/
theorem C106_plans {c : DenseCall R T} {m out : List T} (h : c.Alone m (.ok out)) :
    ∃ p, CallPlan c.env c.asm c.trial c.test p := plan_of_run h

/-! ### The hypotheses can be met -/

/-- Two calls with different batch sizes on the octahedron, with parts at positions 0 and 40 of a memory of 80 entries: they can
both return. -/
example : ∃ fs, SerialSpace fs p1 ∧
    let sp := Examples.spaceOf fs p1 octGeometry p1Basis
    let call (b : Nat) : DenseCall ℚ ℚ :=
      ⟨exEnv, Laplace.singleLayer (kernelOf squareKernel) (smallOptions.setBatchSize b), sp, sp⟩
    let calls := [call 3, call 7]
    let mem : List ℚ := List.replicate 80 1
    ∃ plans, PlansOf calls plans ∧ (∀ c ∈ calls, c.Serial) ∧ SeparateParts [0, 40] (calls.map DenseCall.size) mem.length ∧
      ∃ s, ConSteps [0, 40] (ConState.start mem plans) s ∧ s.calls.length = 2 ∧ (∀ st ∈ s.calls, st.Returned) ∧
        (call 3).Alone (List.replicate 36 1) (.ok (partOf s.mem 0 36)) ∧
        (call 7).Alone (List.replicate 36 1) (.ok (partOf s.mem 40 36)) ∧
        (∀ x, 36 ≤ x → x < 40 → s.mem[x]? = some 1) := by
  obtain ⟨fs, h, hg⟩ := octSpace
  refine ⟨fs, h, ?_⟩
  intro sp call calls mem
  have hs : fs.globalSize = 6 := by
    obtain ⟨nd, t0, fo, _⟩ := h.family
    obtain ⟨dm, h1, _, _, h2, _⟩ := new_local h.yields
    rw [h.serial.2.1, h2]
    rw [hg] at h1
    have := Option.some_inj.mp (h1.symm.trans (by rfl))
    rw [this]
  have hsize : ∀ b, (call b).size = 36 := by
    intro b
    show fs.globalSize * fs.globalSize = 36
    rw [hs]
  have hplan : ∀ b, 0 < b → ∃ p, CallPlan (call b).env (call b).asm (call b).trial (call b).test p := by
    intro b hb
    have hset := octDenseSetting (asm := (call b).asm) h hg (exSingle_computes _) rfl rfl
    obtain ⟨tcs, rcs, _, _, _, _, key⟩ := hset.assemble hb
    exact C106_plans (c := call b) ((key (List.replicate 36 0) (by
      rw [List.length_replicate]
      show 36 = fs.globalSize * fs.globalSize
      rw [hs]) _).mpr rfl)
  obtain ⟨p3, h3⟩ := hplan 3 (by decide)
  obtain ⟨p7, h7⟩ := hplan 7 (by decide)
  have hp : PlansOf calls [p3, p7] := .cons h3 (.cons h7 .nil)
  have hser : ∀ c ∈ calls, c.Serial := by
    intro c hc
    simp only [calls, List.mem_cons, List.not_mem_nil, or_false] at hc
    rcases hc with rfl | rfl <;> exact ⟨p1, p1, h, h⟩
  have hsep : SeparateParts [0, 40] (calls.map DenseCall.size) mem.length := by
    have : calls.map DenseCall.size = [36, 36] := by simp [calls, hsize]
    rw [this, List.length_replicate]
    refine ⟨rfl, ?_, ?_⟩
    · intro i a n ha hn
      match i with
      | 0 => simp at ha hn; omega
      | 1 => simp at ha hn; omega
      | i + 2 => simp at ha
    · intro i j a n b m hij ha hn hb hm
      match i, j with
      | 0, 0 => exact absurd rfl hij
      | 1, 1 => exact absurd rfl hij
      | 0, 1 => simp at ha hn hb hm; omega
      | 1, 0 => simp at ha hn hb hm; omega
      | i + 2, _ => simp at ha
      | _, j + 2 => simp at hb
  refine ⟨[p3, p7], hp, hser, hsep, ?_⟩
  obtain ⟨s, hrun, hlen, hret⟩ := (C106_finish hser hp hsep).2.2 _ (.refl _)
  have hl : s.calls.length = 2 := hlen
  have hpart : ∀ a, a + 36 ≤ 80 → partOf mem a 36 = List.replicate 36 1 := by
    intro a ha
    simp only [partOf, mem, List.drop_replicate, List.take_replicate]
    congr 1
    omega
  refine ⟨s, hrun, hl, hret, ?_, ?_, ?_⟩
  · have := (C106_results hser hp hsep hrun (i := 0) (a := 0) (c := call 3) rfl rfl
      (List.getElem?_eq_getElem (by omega)) (hret _ (List.getElem_mem _)) _).mpr rfl
    rwa [hsize, hpart 0 (by omega)] at this
  · have := (C106_results hser hp hsep hrun (i := 1) (a := 40) (c := call 7) rfl rfl
      (List.getElem?_eq_getElem (by omega)) (hret _ (List.getElem_mem _)) _).mpr rfl
    rwa [hsize, hpart 40 (by omega)] at this
  · intro x h1 h2
    rw [(C106_untouched hser hp hsep hrun).2 x, List.getElem?_replicate_of_lt (by omega)]
    intro i a c ha hc
    match i with
    | 0 =>
      simp only [List.getElem?_cons_zero, Option.some.injEq, calls] at ha hc
      subst ha hc
      rw [hsize]
      omega
    | 1 =>
      simp only [List.getElem?_cons_zero, List.getElem?_cons_succ, Option.some.injEq, calls] at ha hc
      subst ha hc
      omega
    | i + 2 => simp at ha

end Bempp
