import Verif.Proofs.ConcurrentPanic
import Verif.Proofs.ExampleSettings
import Verif.Props.Concurrent
/-
C112: a panic in one of several assemblies that run at the same time.
-/
set_option linter.unusedSectionVars false

namespace Bempp
open Examples

variable {R T : Type} [Zero R] [Mul R] [Neg R] [Zero T] [Add T] [Sub T] [Mul T] [Div T] [Neg T]
  {calls : List (DenseCall R T)} {plans : List (Phases T)} {offsets : List Nat} {mem : List T} {s : ConState T}

theorem anyPlans_get (hp : AnyPlansOf calls plans) : plans.length = calls.length ∧
    ∀ (i : Nat) (p : Phases T), plans[i]? = some p → ∃ c, calls[i]? = some c ∧
      (CallPlan c.env c.asm c.trial c.test p ∨ CallPanic c.env c.asm c.trial c.test p) := by
  have hlen := hp.length_eq
  refine ⟨hlen.symm, fun i p h => ?_⟩
  obtain ⟨h1, rfl⟩ := List.getElem?_eq_some_iff.mp h
  have h2 : i < calls.length := by omega
  exact ⟨_, List.getElem?_eq_getElem h2, List.Forall₂.get hp h2 h1⟩

theorem anyPlan_inside {c : DenseCall R T} (hc : c.Safe) {p : Phases T}
    (h : CallPlan c.env c.asm c.trial c.test p ∨ CallPanic c.env c.asm c.trial c.test p) :
    p.Inside c.size ∧
    ∀ s ∈ p, ∀ (k l : Nat) (a b : List (AddOp T)), k ≠ l → s[k]? = some a → s[l]? = some b → ∀ x ∈ a, ∀ y ∈ b, x.addr ≠ y.addr := by
  rcases h with h | h
  · obtain ⟨-, -, -, -, -, ⟨famT, famR, h6, h7⟩, -⟩ := hc
    exact plan_inside h6 h7 h
  · exact panic_inside hc h

theorem anyPlans_inside (hsafe : ∀ c ∈ calls, c.Safe) (hp : AnyPlansOf calls plans) :
    ∀ (i n : Nat) (p : Phases T), plans[i]? = some p → (calls.map DenseCall.size)[i]? = some n → p.Inside n := by
  intro i n p h hn
  obtain ⟨c, hc, hcp⟩ := (anyPlans_get hp).2 i p h
  rw [List.getElem?_map, hc] at hn
  cases hn
  exact (anyPlan_inside (hsafe c (List.mem_of_getElem? hc)) hcp).1

theorem anyPlans_length (hp : AnyPlansOf calls plans) (hs : SeparateParts offsets (calls.map DenseCall.size) mem.length) :
    plans.length = offsets.length := by rw [(anyPlans_get hp).1, hs.length, List.length_map]

/-- C112: the plans are the operations of all calls that panic: a call with a buffer of the right size can panic when it runs
alone if and only if there is a plan of a call that panics. -/
theorem C112_plans {c : DenseCall R T} (hc : c.Safe) {m : List T} (hm : m.length = c.size) :
    (∃ out, c.Alone m (.panicked out)) ↔ ∃ p, CallPanic c.env c.asm c.trial c.test p :=
  ⟨fun ⟨_, h⟩ => panic_of_run hc hm h, fun ⟨_, h⟩ => run_of_panic hc.2.2.2.2.2.1 h hm⟩

/-- C112: no call can do both: if one plan of a call is a plan of a call that returns then no plan of it panics. -/
theorem C112_decided {c : DenseCall R T} (hc : c.Safe) {p q : Phases T} (h : CallPlan c.env c.asm c.trial c.test p)
    (hq : CallPanic c.env c.asm c.trial c.test q) : False := by
  have hm : (List.replicate c.size (0 : T)).length = c.size := List.length_replicate
  obtain ⟨m1, h1⟩ := run_of_panic hc.2.2.2.2.2.1 hq hm
  obtain ⟨famT, famR, ht, hr⟩ := hc.2.2.2.2.2.1
  have hs : SeparateParts [0] ([c].map DenseCall.size) (List.replicate c.size (0 : T)).length := by
    refine ⟨rfl, ?_, ?_⟩
    · intro i a n ha hn
      match i with
      | 0 => simp at ha hn; simp; omega
      | i + 1 => simp at ha
    · intro i j a n b m hij ha hn hb hm
      match i, j with
      | 0, 0 => exact absurd rfl hij
      | i + 1, _ => simp at ha
      | _, j + 1 => simp at hb
  have hser : ∀ d ∈ [c], d.Serial := by
    intro d hd
    obtain rfl := List.mem_singleton.mp hd
    exact ⟨famT, famR, ht, hr⟩
  have hp : PlansOf [c] [p] := .cons h .nil
  obtain ⟨s, hrun, hlen, hret⟩ := (C106_finish hser hp hs).2.2 _ (.refl _)
  have hl : 0 < s.calls.length := by rw [hlen]; simp
  have := (C106_results hser hp hs hrun (i := 0) (a := 0) (c := c) rfl rfl (List.getElem?_eq_getElem hl)
    (hret _ (List.getElem_mem _)) (.panicked m1)).mp (by simpa [partOf] using h1)
  cases this

/-- **C112.** Several calls of `assemble_into_memory` run at the same time, in any interleaving, each of them on its own part of
one memory; some of them panic, at any moment. Take a call that can return when it runs alone. When it has returned, then its part
contains exactly what the call leaves there when it runs alone, whichever other calls have panicked, are running or have not begun. -/
theorem C112_results (hsafe : ∀ c ∈ calls, c.Safe) (hp : AnyPlansOf calls plans)
    (hs : SeparateParts offsets (calls.map DenseCall.size) mem.length) (hrun : ConSteps offsets (ConState.start mem plans) s)
    {i a : Nat} {c : DenseCall R T} {st : CallState T} (hc : calls[i]? = some c) (ha : offsets[i]? = some a)
    {m out : List T} (hok : c.Alone m (.ok out)) (hst : s.calls[i]? = some st) (hret : st.Returned) (o : Outcome (List T)) :
    c.Alone (partOf mem a c.size) o ↔ o = .ok (partOf s.mem a c.size) := by
  have inv := con_steps hs (anyPlans_inside hsafe hp) (anyPlans_length hp hs) hrun
  obtain ⟨hlen, hget⟩ := anyPlans_get hp
  have hi : i < plans.length := by rw [hlen]; exact (List.getElem?_eq_some_iff.mp hc).1
  have hpi := List.getElem?_eq_getElem hi
  obtain ⟨c', hc', hplan⟩ := hget i _ hpi
  obtain rfl : c = c' := by simpa [hc] using hc'
  have hsc := hsafe c (List.mem_of_getElem? hc)
  have hplan : CallPlan c.env c.asm c.trial c.test plans[i] := by
    rcases hplan with h | h
    · exact h
    · obtain ⟨p, hp⟩ := plan_of_run hok
      exact (C112_decided hsc hp h).elim
  have hn : (calls.map DenseCall.size)[i]? = some c.size := by rw [List.getElem?_map, hc]; rfl
  have hseq := (inv.call i st _ a c.size hst hpi ha hn).returned hret
  obtain ⟨-, -, -, -, -, ⟨famT, famR, ht, hr⟩, -⟩ := hsc
  have hok : c.Alone (partOf mem a c.size) (.ok (partOf s.mem a c.size)) :=
    plan_run ht hr hplan (partOf_length (hs.inside i a c.size ha hn)) hseq fun _ _ _ h => seqRun_length h
  constructor
  · intro h
    rcases C09_schedule_independent ht hr hok h with ⟨x, e1, e2⟩ | ⟨x, y, e1, -⟩
    · rw [e1, e2]
    · cases e1
  · rintro rfl
    exact hok

/-- **C112.** Every call, whether it panics or not, does with its part of the memory only what it could do alone: the state of the
call and its part can be reached by the call on a memory that consists of its part. -/
theorem C112_alone (hsafe : ∀ c ∈ calls, c.Safe) (hp : AnyPlansOf calls plans)
    (hs : SeparateParts offsets (calls.map DenseCall.size) mem.length) (hrun : ConSteps offsets (ConState.start mem plans) s)
    {i a : Nat} {c : DenseCall R T} {p : Phases T} {st : CallState T} (hc : calls[i]? = some c) (ha : offsets[i]? = some a)
    (hpi : plans[i]? = some p) (hst : s.calls[i]? = some st) :
    ConSteps [0] (ConState.start (partOf mem a c.size) [p]) ⟨partOf s.mem a c.size, [st]⟩ :=
  con_project hs (anyPlans_inside hsafe hp) (anyPlans_length hp hs) hrun hpi ha (by rw [List.getElem?_map, hc]; rfl) hst

/-- **C112.** A call that can panic, when it has done all its writes, has left in its part of the memory something that it can leave
there when it panics alone. -/
theorem C112_panicked (hsafe : ∀ c ∈ calls, c.Safe) (hp : AnyPlansOf calls plans)
    (hs : SeparateParts offsets (calls.map DenseCall.size) mem.length) (hrun : ConSteps offsets (ConState.start mem plans) s)
    {i a : Nat} {c : DenseCall R T} {st : CallState T} (hc : calls[i]? = some c) (ha : offsets[i]? = some a)
    {m out : List T} (hm : m.length = c.size) (hpan : c.Alone m (.panicked out)) (hst : s.calls[i]? = some st) (hret : st.Returned) :
    c.Alone (partOf mem a c.size) (.panicked (partOf s.mem a c.size)) := by
  have inv := con_steps hs (anyPlans_inside hsafe hp) (anyPlans_length hp hs) hrun
  obtain ⟨hlen, hget⟩ := anyPlans_get hp
  have hi : i < plans.length := by rw [hlen]; exact (List.getElem?_eq_some_iff.mp hc).1
  have hpi := List.getElem?_eq_getElem hi
  obtain ⟨c', hc', hplan⟩ := hget i _ hpi
  obtain rfl : c = c' := by simpa [hc] using hc'
  have hsc := hsafe c (List.mem_of_getElem? hc)
  have hplan : CallPanic c.env c.asm c.trial c.test plans[i] := by
    rcases hplan with h | h
    · obtain ⟨p, hp⟩ := panic_of_run hsc hm hpan
      exact (C112_decided hsc h hp).elim
    · exact h
  have hn : (calls.map DenseCall.size)[i]? = some c.size := by rw [List.getElem?_map, hc]; rfl
  have hseq := (inv.call i st _ a c.size hst hpi ha hn).returned hret
  obtain ⟨-, -, -, -, -, hser, -⟩ := hsc
  exact panic_seq hser hplan (partOf_length (hs.inside i a c.size ha hn)) hseq

/-- **C112.** A call whose regular part completes and whose singular part panics (for example because a quadrature rule does not
exist) leaves exactly the regular part in its part of the memory. -/
theorem C112_singular_panic (hsafe : ∀ c ∈ calls, c.Safe) (hp : AnyPlansOf calls plans)
    (hs : SeparateParts offsets (calls.map DenseCall.size) mem.length) (hrun : ConSteps offsets (ConState.start mem plans) s)
    {i a : Nat} {c : DenseCall R T} {st : CallState T} (hc : calls[i]? = some c) (ha : offsets[i]? = some a)
    {testCol trialCol : Colouring} (h1 : c.test.fs.cellColouring = some testCol) (h2 : c.trial.fs.cellColouring = some trialCol)
    {out : List T} (hreg : AssembleNonsingularPart c.env c.asm (c.test.fs.globalSize, c.trial.fs.globalSize) c.trial c.test trialCol
      testCol (partOf mem a c.size) (.ok out))
    (hsing : AssembleSingularPart c.env c.asm (c.test.fs.globalSize, c.trial.fs.globalSize) c.trial c.test none)
    (hst : s.calls[i]? = some st) (hret : st.Returned) : partOf s.mem a c.size = out := by
  have inv := con_steps hs (anyPlans_inside hsafe hp) (anyPlans_length hp hs) hrun
  obtain ⟨hlen, hget⟩ := anyPlans_get hp
  have hi : i < plans.length := by rw [hlen]; exact (List.getElem?_eq_some_iff.mp hc).1
  have hpi := List.getElem?_eq_getElem hi
  obtain ⟨c', hc', hplan⟩ := hget i _ hpi
  obtain rfl : c = c' := by simpa [hc] using hc'
  obtain ⟨-, -, -, -, -, ⟨famT, famR, ht, hr⟩, -⟩ := hsafe c (List.mem_of_getElem? hc)
  have hn : (calls.map DenseCall.size)[i]? = some c.size := by rw [List.getElem?_map, hc]; rfl
  have hm := partOf_length (hs.inside i a c.size ha hn)
  have hseq := (inv.call i st _ a c.size hst hpi ha hn).returned hret
  rcases hplan with ⟨-, -, _, _, p1, sm, -, -, -, h5, -⟩ | ⟨h, -⟩ | ⟨-, -, tc, rc, e1, e2, h | ⟨h, -⟩⟩
  · cases singularPart_unique h5 hsing
  · rcases h with h | h | h | h
    · rw [hr.serial.1] at h; cases h
    · rw [ht.serial.1] at h; cases h
    · rw [h1] at h; cases h
    · rw [h2] at h; cases h
  · obtain rfl : tc = testCol := by simpa [h1] using e1.symm
    obtain rfl : rc = trialCol := by simpa [h2] using e2.symm
    obtain ⟨m', hpan⟩ := (regular_of_plans ht hr h1 h2 hm).1 h
    cases nonsingular_same ht hr h1 h2 hm hreg hpan
  · obtain rfl : tc = testCol := by simpa [h1] using e1.symm
    obtain rfl : rc = trialCol := by simpa [h2] using e2.symm
    have := nonsingular_same ht hr h1 h2 hm hreg (regular_run ht hr h hseq)
    cases this
    rfl

/-- **C112.** No call writes outside the parts, also when it panics. -/
theorem C112_untouched (hsafe : ∀ c ∈ calls, c.Safe) (hp : AnyPlansOf calls plans)
    (hs : SeparateParts offsets (calls.map DenseCall.size) mem.length) (hrun : ConSteps offsets (ConState.start mem plans) s) :
    s.mem.length = mem.length ∧
    ∀ x, (∀ (i a : Nat) (c : DenseCall R T), offsets[i]? = some a → calls[i]? = some c → x < a ∨ a + c.size ≤ x) →
      s.mem[x]? = mem[x]? := by
  have inv := con_steps hs (anyPlans_inside hsafe hp) (anyPlans_length hp hs) hrun
  refine ⟨inv.length, fun x hx => inv.outside x fun i a n ha hn => ?_⟩
  rw [List.getElem?_map, Option.map_eq_some_iff] at hn
  obtain ⟨c, hc, rfl⟩ := hn
  exact hx i a c ha hc

/-- **C112.** At any moment the next accesses of two different tasks, of one call or of different calls, of calls that return or of
calls that panic, are at different positions. -/
theorem C112_no_race (hsafe : ∀ c ∈ calls, c.Safe) (hp : AnyPlansOf calls plans)
    (hs : SeparateParts offsets (calls.map DenseCall.size) mem.length) (hrun : ConSteps offsets (ConState.start mem plans) s) :
    ∀ (i j a b k l : Nat) (st st' : CallState T) (t t' : Task T), (i, k) ≠ (j, l) → offsets[i]? = some a → offsets[j]? = some b →
      s.calls[i]? = some st → s.calls[j]? = some st' → st.tasks[k]? = some t → st'.tasks[l]? = some t' →
      ∀ x ∈ t.todo, ∀ y ∈ t'.todo, a + x.addr ≠ b + y.addr := by
  have hin := anyPlans_inside hsafe hp
  have inv := con_steps hs hin (anyPlans_length hp hs) hrun
  obtain ⟨hlen, hget⟩ := anyPlans_get hp
  have hsz : ∀ (i : Nat) (c : DenseCall R T), calls[i]? = some c → (calls.map DenseCall.size)[i]? = some c.size := by
    intro i c hc
    rw [List.getElem?_map, hc]
    rfl
  have hfind : ∀ (i : Nat) (st : CallState T), s.calls[i]? = some st → ∃ p c, plans[i]? = some p ∧ calls[i]? = some c ∧
      (CallPlan c.env c.asm c.trial c.test p ∨ CallPanic c.env c.asm c.trial c.test p) := by
    intro i st h
    have h1 := (List.getElem?_eq_some_iff.mp h).1
    have h2 : i < plans.length := by rw [← inv.calls]; exact h1
    obtain ⟨c, hc, hcp⟩ := hget i _ (List.getElem?_eq_getElem h2)
    exact ⟨_, c, List.getElem?_eq_getElem h2, hc, hcp⟩
  intro i j a b k l st st' t t' hne ha hb hst hst' ht ht' x hx y hy
  obtain ⟨p, c, hpi, hc, hcp⟩ := hfind i st hst
  obtain ⟨p', c', hpj, hc', hcp'⟩ := hfind j st' hst'
  have hx' := (inv.call i st p a _ hst hpi ha (hsz i c hc)).current (hin i _ p hpi (hsz i c hc)) t (List.mem_of_getElem? ht) x hx
  have hy' := (inv.call j st' p' b _ hst' hpj hb (hsz j c' hc')).current (hin j _ p' hpj (hsz j c' hc')) t'
    (List.mem_of_getElem? ht') y hy
  by_cases e : i = j
  · subst e
    have hkl : k ≠ l := fun e => hne (by rw [e])
    obtain rfl : a = b := by simpa [ha] using hb
    obtain rfl : st = st' := by simpa [hst] using hst'
    obtain ⟨done, cur, m1, e1, -, hpar⟩ := inv.call i st p a _ hst hpi ha (hsz i c hc)
    obtain ⟨la, hla, sa⟩ := parSteps_suffix hpar k t ht
    obtain ⟨lb, hlb, sb⟩ := parSteps_suffix hpar l t' ht'
    have hcur : cur ∈ [] :: p := by rw [e1]; simp
    rcases List.mem_cons.mp hcur with rfl | hcur
    · simp at hla
    · have := (anyPlan_inside (hsafe c (List.mem_of_getElem? hc)) hcp).2 cur hcur k l la lb hkl hla hlb x (sa.subset hx) y
        (sb.subset hy)
      omega
  · have := hs.apart i j a _ b _ e ha (hsz i c hc) hb (hsz j c' hc')
    omega

/-- **C112.** A call does not wait for the others: from every moment on a call can come to its end while the others make no step at
all, for example because they have panicked. -/
theorem C112_finish (hsafe : ∀ c ∈ calls, c.Safe) (hp : AnyPlansOf calls plans)
    (hs : SeparateParts offsets (calls.map DenseCall.size) mem.length) (hrun : ConSteps offsets (ConState.start mem plans) s)
    {i : Nat} (hi : i < calls.length) :
    ∃ s' st, ConSteps offsets s s' ∧ s'.calls[i]? = some st ∧ st.Returned ∧ ∀ j, j ≠ i → s'.calls[j]? = s.calls[j]? :=
  con_alone hs (anyPlans_inside hsafe hp) (anyPlans_length hp hs) (by rw [(anyPlans_get hp).1]; exact hi) s hrun

/-! ### The hypotheses can be met -/

namespace Examples

/-- The rules of `sizedEnv`, without a rule for pairs of triangles that touch: the singular part panics. -/
def noDuffyEnv : Env Rat Rat := { sizedEnv with triangleDuffy := fun _ _ => none }

/-- A call of `assemble_into_memory` on the octahedron. -/
def octCall (fs : FunctionSpace) (env : Env Rat Rat) (b : Nat) : DenseCall Rat Rat :=
  ⟨env, Laplace.singleLayer (sizedKernel squareKernel) (smallOptions.setBatchSize b), sizedSpace fs p1 octGeometry p1Basis,
    sizedSpace fs p1 octGeometry p1Basis⟩

theorem octCall_safe {fs : FunctionSpace} (h : SerialSpace fs p1) (hg : fs.grid = octahedron) {env : Env Rat Rat}
    (he : env.Sized) (b : Nat) : (octCall fs env b).Safe := by
  have hty : fs.grid.entityTypes 2 = [.triangle] := by rw [hg]; rfl
  exact ⟨.laplaceSingleLayer _ _, sizedKernel_sized _, he, sizedSpace_sized h _ _, sizedSpace_sized h _ _, ⟨p1, p1, h, h⟩,
    tablesFit_one_type hty hty⟩

theorem octCall_plan {fs : FunctionSpace} (h : SerialSpace fs p1) (hg : fs.grid = octahedron) (hs : fs.globalSize = 6) {b : Nat}
    (hb : 0 < b) : ∃ out, (octCall fs sizedEnv b).Alone (List.replicate 36 0) (.ok out) := by
  have hcomp : (Laplace.singleLayer (sizedKernel squareKernel) (smallOptions.setBatchSize b)).Computes slF squareKernel :=
    ⟨laplace_singleLayer_integrand _ _, sizedKernel_computes _ _, rfl⟩
  have hsing : SingularSetting sizedEnv (octCall fs sizedEnv b).asm (sizedSpace fs p1 octGeometry p1Basis)
      (sizedSpace fs p1 octGeometry p1Basis) p1 p1 slF squareKernel octGeometry p1Basis p1Basis smallRules :=
    { testSpace := h.spaceOn
      trialSpace := h.spaceOn
      sameGrid := rfl
      surface := by show Surface fs.grid; rw [hg]; exact ⟨rfl, rfl⟩
      vertices := by show fs.grid.Vertices; rw [hg]; exact octahedron_vertices
      conforming := by
        show ∃ ev, fs.grid.Edges ev ∧ fs.grid.Conforming ev
        rw [hg]; exact ⟨_, octahedron_edges, octahedron_conforming⟩
      geometry := sizedSpace_geometry _ _ _ _
      testBasis := sizedSpace_tabulate _ _ _ _
      trialBasis := sizedSpace_tabulate _ _ _ _
      operator := hcomp
      rules := by
        show ∀ tt ∈ fs.grid.entityTypes 2, ∀ rt ∈ fs.grid.entityTypes 2, _
        rw [hg]
        intro tt htt rt hrt
        obtain rfl : tt = .triangle := by revert htt; revert tt; decide
        obtain rfl : rt = .triangle := by revert hrt; revert rt; decide
        exact ⟨exEnv_singular.degree, exEnv_singular.points⟩ }
  have hty : fs.grid.entityTypes 2 = [.triangle] := by rw [hg]; rfl
  have hsurf : Surface fs.grid := by rw [hg]; exact ⟨rfl, rfl⟩
  have hset : DenseSetting sizedEnv (octCall fs sizedEnv b).asm (sizedSpace fs p1 octGeometry p1Basis)
      (sizedSpace fs p1 octGeometry p1Basis) p1 p1 slF squareKernel octGeometry octGeometry p1Basis p1Basis smallRules .triangle :=
    { testSpace := h
      trialSpace := h
      testType := hty
      trialType := hty
      testSurface := hsurf
      trialSurface := hsurf
      testGeometry := sizedSpace_geometry _ _ _ _
      trialGeometry := sizedSpace_geometry _ _ _ _
      testBasis := sizedSpace_tabulate _ _ _ _
      trialBasis := sizedSpace_tabulate _ _ _ _
      operator := hcomp
      rule := ⟨exEnv_regular.degree, rfl, exEnv_regular.points⟩
      same := fun _ => ⟨hsing, rfl⟩ }
  obtain ⟨tcs, rcs, _, _, _, _, key⟩ := hset.assemble hb
  exact ⟨_, (key (List.replicate 36 0) (by
    rw [List.length_replicate]
    show 36 = fs.globalSize * fs.globalSize
    rw [hs]) _).mpr rfl⟩

/-- The call without a rule for touching triangles writes the whole regular part and then panics. -/
theorem octCall_panic {fs : FunctionSpace} (hg : fs.grid = octahedron) {b : Nat} {p : Phases Rat}
    (h : CallPlan (octCall fs sizedEnv b).env (octCall fs sizedEnv b).asm (octCall fs sizedEnv b).trial
      (octCall fs sizedEnv b).test p) :
    ∃ q last, p = q ++ [last] ∧ CallPanic (octCall fs noDuffyEnv b).env (octCall fs noDuffyEnv b).asm
      (octCall fs noDuffyEnv b).trial (octCall fs noDuffyEnv b).test q ∧
      AssembleSingularPart noDuffyEnv (octCall fs noDuffyEnv b).asm (fs.globalSize, fs.globalSize) (octCall fs noDuffyEnv b).trial
        (octCall fs noDuffyEnv b).test none := by
  obtain ⟨s1, s2, testCol, trialCol, p1', sm, h1, h2, h3, h4, rfl⟩ := h
  suffices hsing : AssembleSingularPart noDuffyEnv (octCall fs noDuffyEnv b).asm (fs.globalSize, fs.globalSize)
      (octCall fs noDuffyEnv b).trial (octCall fs noDuffyEnv b).test none from
    ⟨p1', _, rfl, Or.inr ⟨s1, s2, testCol, trialCol, h1, h2, Or.inr ⟨h3, hsing⟩⟩, hsing⟩
  unfold AssembleSingularPart
  rw [if_neg (by simp [octCall, sizedSpace, equalGrids]), if_neg (by simp [octCall, sizedSpace])]
  have : singTables noDuffyEnv (octCall fs noDuffyEnv b).asm (octCall fs noDuffyEnv b).trial
      (octCall fs noDuffyEnv b).test = none := by
    have hty : (octCall fs noDuffyEnv b).test.fs.grid.entityTypes 2 = [.triangle] := by
      show fs.grid.entityTypes 2 = _
      rw [hg]; rfl
    unfold singTables
    rw [hty]
    rfl
  rw [this]

end Examples

/-- Two calls on the octahedron, with parts at positions 0 and 40 of a memory of 80 entries. Both compute the regular part; then
the second panics because a quadrature rule does not exist. The first returns, with the result that it has alone. -/
example : ∃ fs, SerialSpace fs p1 ∧
    let calls := [octCall fs sizedEnv 3, octCall fs noDuffyEnv 7]
    let mem : List ℚ := List.replicate 80 0
    ∃ plans, AnyPlansOf calls plans ∧ (∀ c ∈ calls, c.Safe) ∧ SeparateParts [0, 40] (calls.map DenseCall.size) mem.length ∧
      (∃ out, (octCall fs noDuffyEnv 7).Alone (List.replicate 36 0) (.panicked out)) ∧
      ∃ s st st', ConSteps [0, 40] (ConState.start mem plans) s ∧ s.calls[0]? = some st ∧ st.Returned ∧
        s.calls[1]? = some st' ∧ st'.Returned ∧
        (octCall fs sizedEnv 3).Alone (List.replicate 36 0) (.ok (partOf s.mem 0 36)) ∧
        ∃ col, fs.cellColouring = some col ∧ AssembleNonsingularPart noDuffyEnv (octCall fs noDuffyEnv 7).asm (6, 6)
          (octCall fs noDuffyEnv 7).trial (octCall fs noDuffyEnv 7).test col col (List.replicate 36 0)
          (.ok (partOf s.mem 40 36)) := by
  obtain ⟨fs, h, hg⟩ := octSpace
  refine ⟨fs, h, ?_⟩
  intro calls mem
  have hs : fs.globalSize = 6 := by
    obtain ⟨nd, t0, fo, _⟩ := h.family
    obtain ⟨dm, h1, _, _, h2, _⟩ := new_local h.yields
    rw [h.serial.2.1, h2]
    rw [hg] at h1
    have := Option.some_inj.mp (h1.symm.trans (by rfl))
    rw [this]
  have hsize : ∀ env b, (octCall fs env b).size = 36 := by
    intro env b
    show fs.globalSize * fs.globalSize = 36
    rw [hs]
  obtain ⟨out, hok⟩ := octCall_plan h hg hs (b := 3) (by decide)
  obtain ⟨p, hp⟩ := C106_plans hok
  obtain ⟨out7, hok7⟩ := octCall_plan h hg hs (b := 7) (by decide)
  obtain ⟨p7, hp7⟩ := C106_plans hok7
  obtain ⟨q, last, -, hq, hsing⟩ := octCall_panic hg hp7
  have hplans : AnyPlansOf calls [p, q] := .cons (Or.inl hp) (.cons (Or.inr hq) .nil)
  have hsafe7 : (octCall fs noDuffyEnv 7).Safe := octCall_safe h hg sizedEnv_sized 7
  have hsafe : ∀ c ∈ calls, c.Safe := by
    intro c hc
    simp only [calls, List.mem_cons, List.not_mem_nil, or_false] at hc
    rcases hc with rfl | rfl
    · exact octCall_safe h hg sizedEnv_sized 3
    · exact hsafe7
  have hsep : SeparateParts [0, 40] (calls.map DenseCall.size) mem.length := by
    have : calls.map DenseCall.size = [36, 36] := by simp [calls, hsize]
    rw [this, List.length_replicate]
    refine ⟨rfl, ?_, ?_⟩
    · intro i a n ha hn
      match i with
      | 0 => simp at ha hn; omega
      | 1 => simp at ha hn; omega
      | i + 2 => simp at ha
    · intro i j a n b m hij ha hn hb hm
      match i, j with
      | 0, 0 => exact absurd rfl hij
      | 1, 1 => exact absurd rfl hij
      | 0, 1 => simp at ha hn hb hm; omega
      | 1, 0 => simp at ha hn hb hm; omega
      | i + 2, _ => simp at ha
      | _, j + 2 => simp at hb
  refine ⟨[p, q], hplans, hsafe, hsep, (C112_plans hsafe7 (by rw [hsize, List.length_replicate])).mpr ⟨q, hq⟩, ?_⟩
  obtain ⟨s1, st', r1, g1, g2, -⟩ := C112_finish hsafe hplans hsep (.refl _) (i := 1) (by simp [calls])
  obtain ⟨s2, st, r2, g3, g4, g5⟩ := C112_finish hsafe hplans hsep r1 (i := 0) (by simp [calls])
  have r3 : ConSteps [0, 40] (ConState.start mem [p, q]) s2 := by
    clear g3 g4 g5
    induction r2 with
    | refl => exact r1
    | tail _ hstep ih => exact .tail ih hstep
  refine ⟨s2, st, st', r3, g3, g4, (g5 1 (by decide)).trans g1, g2, ?_⟩
  have e : ∀ a, a + 36 ≤ 80 → partOf mem a 36 = List.replicate 36 0 := by
    intro a ha
    simp only [partOf, mem, List.drop_replicate, List.take_replicate]
    congr 1
    omega
  constructor
  · have := (C112_results hsafe hplans hsep r3 (i := 0) (a := 0) (c := octCall fs sizedEnv 3) rfl rfl hok g3 g4 _).mpr rfl
    rwa [hsize, e 0 (by omega)] at this
  · obtain ⟨col, hcol, -⟩ := h.colouring
    refine ⟨col, hcol, ?_⟩
    have hreg : ∃ out, AssembleNonsingularPart noDuffyEnv (octCall fs noDuffyEnv 7).asm (fs.globalSize, fs.globalSize)
        (octCall fs noDuffyEnv 7).trial (octCall fs noDuffyEnv 7).test col col (partOf mem 40 (octCall fs noDuffyEnv 7).size)
        (.ok out) := by
      obtain ⟨-, -, tc, rc, p0, -, e1, e2, h3, -, -⟩ := hp7
      obtain rfl : tc = col := Option.some.inj (e1.symm.trans hcol)
      obtain rfl : rc = tc := Option.some.inj (e2.symm.trans hcol)
      exact (regular_of_plans (c := octCall fs noDuffyEnv 7) h h hcol hcol (by
        rw [hsize, e 40 (by omega), List.length_replicate])).2 h3
    obtain ⟨out, hreg⟩ := hreg
    have := C112_singular_panic hsafe hplans hsep r3 (i := 1) (a := 40) (c := octCall fs noDuffyEnv 7) rfl rfl hcol hcol hreg hsing
      ((g5 1 (by decide)).trans g1) g2
    rw [hsize] at this
    rw [this]
    rw [hsize, e 40 (by omega), hs] at hreg
    exact hreg

end Bempp
