import Verif.Spec.ConcurrentPanic
import Verif.Proofs.Concurrent
import Verif.Props.Memory
/-
Calls that panic write inside their own part, and a call sees only its own part.
-/
set_option linter.unusedSectionVars false

namespace Bempp

section
variable {T : Type} [Add T]

/-! ### Loops -/

theorem forPanic_mem {α : Type} {body panics : α → Phases T → Prop} {l : List α} {p : Phases T} (h : ForPanic body panics l p)
    {s : List (List (AddOp T))} (hs : s ∈ p) : ∃ a ∈ l, ∃ q, (body a q ∨ panics a q) ∧ s ∈ q := by
  induction h with
  | here h1 => exact ⟨_, by simp, _, Or.inr h1, hs⟩
  | later h1 _ ih =>
    rcases List.mem_append.mp hs with hs | hs
    · exact ⟨_, by simp, _, Or.inl h1, hs⟩
    · obtain ⟨a, ha, q, hq, hsq⟩ := ih hs
      exact ⟨a, by simp [ha], q, hq, hsq⟩

theorem forRun_panic {α : Type} {body panics : α → Phases T → Prop} {body' : α → List T → Outcome (List T) → Prop} {l : List α}
    (hb : ∀ a ∈ l, ∀ m m', body' a m (.ok m') → ∃ q, body a q)
    (hp : ∀ a ∈ l, ∀ m m', body' a m (.panicked m') → ∃ q, panics a q) {m m' : List T}
    (h : ForRun body' l m (.panicked m')) : ∃ p, ForPanic body panics l p := by
  generalize e : Outcome.panicked m' = o at h
  induction h with
  | nil => cases e
  | cons h1 _ ih =>
    obtain ⟨q, hq⟩ := hb _ (by simp) _ _ h1
    obtain ⟨p, hp⟩ := ih (fun a ha => hb a (by simp [ha])) (fun a ha => hp a (by simp [ha])) e
    exact ⟨q ++ p, .later hq hp⟩
  | panic h1 =>
    obtain ⟨q, hq⟩ := hp _ (by simp) _ _ h1
    exact ⟨q, .here hq⟩

theorem forPanic_run {α : Type} {body panics : α → Phases T → Prop} {body' : α → List T → Outcome (List T) → Prop} {l : List α}
    {n : Nat} {p : Phases T} (h : ForPanic body panics l p)
    (hb : ∀ a ∈ l, ∀ q m, body a q → m.length = n → ∃ m', m'.length = n ∧ body' a m (.ok m'))
    (hp : ∀ a ∈ l, ∀ q m, panics a q → m.length = n → ∃ m', body' a m (.panicked m')) {m : List T} (hm : m.length = n) :
    ∃ m', ForRun body' l m (.panicked m') := by
  induction h generalizing m with
  | here h1 =>
    obtain ⟨m', h2⟩ := hp _ (by simp) _ _ h1 hm
    exact ⟨m', .panic h2⟩
  | later h1 _ ih =>
    obtain ⟨m1, hm1, h2⟩ := hb _ (by simp) _ _ h1 hm
    obtain ⟨m', h3⟩ := ih (fun a ha => hb a (by simp [ha])) (fun a ha => hp a (by simp [ha])) hm1
    exact ⟨m', .cons h2 h3⟩

theorem forPlan_ok {α : Type} {body : α → Phases T → Prop} {body' : α → List T → Outcome (List T) → Prop} {l : List α}
    {n : Nat} {p : Phases T} (h : ForPlan body l p)
    (hb : ∀ a ∈ l, ∀ q m, body a q → m.length = n → ∃ m', m'.length = n ∧ body' a m (.ok m')) {m : List T} (hm : m.length = n) :
    ∃ m', m'.length = n ∧ ForRun body' l m (.ok m') := by
  induction h generalizing m with
  | nil => exact ⟨m, hm, .nil m⟩
  | cons h1 _ ih =>
    obtain ⟨m1, hm1, h2⟩ := hb _ (by simp) _ _ h1 hm
    obtain ⟨m', hm', h3⟩ := ih (fun a ha => hb a (by simp [ha])) hm1
    exact ⟨m', hm', .cons h2 h3⟩

theorem reduces_ones_eq {α : Type} {l : List α} {r : Nat}
    (h : Reduces (fun a b : Nat => some (a + b)) 0 (l.map fun _ => some 1) (some r)) : r = l.length := by
  have hsum : ∀ (l : List (Option Nat)) (r : Option Nat),
      Reduces (fun a b => some (a + b)) 0 l r → (∀ x ∈ l, x = some 1) → r = some l.length := by
    intro l r h
    induction h with
    | identity => intro _; rfl
    | single x => intro h; simpa using h x (by simp)
    | join _ _ ih1 ih2 =>
      intro h
      rw [ih1 fun x hx => h x (List.mem_append_left _ hx),
        ih2 fun x hx => h x (List.mem_append_right _ hx)]
      simp
  have := hsum _ _ h (by simp)
  simpa using this

theorem mapM_id_none {α : Type} {l : List (Option α)} : l.mapM id = none ↔ none ∈ l := by
  induction l with
  | nil => simp
  | cons x l ih =>
    cases x with
    | none => simp
    | some x =>
      simp only [List.mapM_cons, id, List.mem_cons, reduceCtorEq, false_or, ← ih]
      cases l.mapM id <;> simp

/-! ### A call that does not know of the others -/

variable {offsets sizes : List Nat} {plans : List (Phases T)} {mem : List T}

/-- What happens to a call and to its part of the memory also happens when the call runs alone. -/
theorem con_project (hs : SeparateParts offsets sizes mem.length)
    (hin : ∀ (i n : Nat) (p : Phases T), plans[i]? = some p → sizes[i]? = some n → p.Inside n)
    (hl : plans.length = offsets.length) {s : ConState T} (h : ConSteps offsets (ConState.start mem plans) s)
    {i a n : Nat} {p : Phases T} {st : CallState T} (hp : plans[i]? = some p) (ha : offsets[i]? = some a)
    (hn : sizes[i]? = some n) (hst : s.calls[i]? = some st) :
    ConSteps [0] (ConState.start (partOf mem a n) [p]) ⟨partOf s.mem a n, [st]⟩ := by
  induction h generalizing st with
  | refl =>
    simp only [ConState.start, List.getElem?_map, hp, Option.map_some, Option.some.injEq] at hst
    subst hst
    exact .refl _
  | @tail t u ht hu ih =>
    have inv := con_steps hs hin hl ht
    have hplan : ∀ (j : Nat) (c : CallState T), t.calls[j]? = some c → ∃ p a n, plans[j]? = some p ∧ offsets[j]? = some a ∧
        sizes[j]? = some n := by
      intro j c hc
      have h1 := (List.getElem?_eq_some_iff.mp hc).1
      have h2 : j < plans.length := by rw [← inv.calls]; exact h1
      have h3 : j < offsets.length := by omega
      have h4 : j < sizes.length := by rw [← hs.length]; exact h3
      exact ⟨_, _, _, List.getElem?_eq_getElem h2, List.getElem?_eq_getElem h3, List.getElem?_eq_getElem h4⟩
    have hlt : ∀ (c : CallState T), t.calls[i]? = some c → ∀ (k : Nat) (tk : Task T), c.tasks[k]? = some tk → ∀ o ∈ tk.todo,
        o.addr < n := fun c hc k tk htk o ho =>
      (inv.call i c p a n hc hp ha hn).current (hin i n p hp hn) _ (List.mem_of_getElem? htk) o ho
    cases hu with
    | @load j k b c o l x hc hb htk hx =>
      by_cases e : j = i
      · subst e
        obtain rfl : b = a := by simpa [ha] using hb.symm
        rw [List.getElem?_set_self (List.getElem?_eq_some_iff.mp hc).1] at hst
        cases hst
        have h1 : o.addr < n := hlt c hc k _ htk o (by simp)
        refine .tail (ih hc) ?_
        exact ConStep.load (offsets := [0]) (s := ⟨partOf t.mem b n, [c]⟩) (i := 0) (k := k) (a := 0) (c := c) (o := o) (l := l)
          (x := x) rfl rfl htk (by rw [Nat.zero_add, partOf_get h1]; exact hx)
      · rw [List.getElem?_set_ne e] at hst
        exact ih hst
    | @store j k b c o l x hc hb htk =>
      by_cases e : j = i
      · subst e
        obtain rfl : b = a := by simpa [ha] using hb.symm
        simp only [List.getElem?_set_self (List.getElem?_eq_some_iff.mp hc).1] at hst
        cases hst
        have h1 : o.addr < n := hlt c hc k _ htk o (by simp)
        refine .tail (ih hc) ?_
        have := ConStep.store (offsets := [0]) (s := ⟨partOf t.mem b n, [c]⟩) (i := 0) (k := k) (a := 0) (c := c) (o := o)
          (l := l) (x := x) rfl rfl htk
        simpa only [Nat.zero_add, partOf_set _ h1, List.set_cons_zero] using this
      · simp only [List.getElem?_set_ne e] at hst
        obtain ⟨p', b', m, hp', hb', hm⟩ := hplan j c hc
        obtain rfl : b' = b := by simpa [hb] using hb'.symm
        have h1 : o.addr < m := (inv.call j c p' b' m hc hp' hb' hm).current (hin j m p' hp' hm) _ (List.mem_of_getElem? htk) o
          (by simp)
        have := hs.apart j i b' m a n e hb' hm ha hn
        simp only
        rw [partOf_set_ne _ (by omega)]
        exact ih hst
    | @next j c q qs hc hf hr =>
      by_cases e : j = i
      · subst e
        rw [List.getElem?_set_self (List.getElem?_eq_some_iff.mp hc).1] at hst
        cases hst
        refine .tail (ih hc) ?_
        exact ConStep.next (offsets := [0]) (s := ⟨partOf t.mem a n, [c]⟩) (i := 0) (c := c) rfl hf hr
      · rw [List.getElem?_set_ne e] at hst
        exact ih hst

/-- A call can go on to its end while the others do nothing. -/
theorem con_alone (hs : SeparateParts offsets sizes mem.length)
    (hin : ∀ (i n : Nat) (p : Phases T), plans[i]? = some p → sizes[i]? = some n → p.Inside n)
    (hl : plans.length = offsets.length) {i : Nat} (hi : i < plans.length) (s : ConState T) :
    ConSteps offsets (ConState.start mem plans) s →
    ∃ s' st, ConSteps offsets s s' ∧ s'.calls[i]? = some st ∧ st.Returned ∧ ∀ j, j ≠ i → s'.calls[j]? = s.calls[j]? := by
  have hwf : WellFounded (fun s' s : ConState T => ConStep offsets s s') :=
    Subrelation.wf (r := InvImage (· < ·) ConState.steps) (fun h => conStep_steps h) (InvImage.wf _ Nat.lt_wfRel.wf)
  have hcat : ∀ {a b c : ConState T}, ConStep offsets a b → ConSteps offsets b c → ConSteps offsets a c := by
    intro a b c h1 h2
    induction h2 with
    | refl => exact .tail (.refl _) h1
    | tail _ h3 ih => exact .tail ih h3
  induction s using hwf.induction with
  | _ s ih =>
    intro h
    have inv := con_steps hs hin hl h
    have hi' : i < s.calls.length := by rw [inv.calls]; exact hi
    by_cases hr : s.calls[i].Returned
    · exact ⟨s, _, .refl _, List.getElem?_eq_getElem hi', hr, fun _ _ => rfl⟩
    · obtain ⟨s1, h1, h2⟩ := con_progress hs hin hl inv (List.getElem?_eq_getElem hi') hr
      obtain ⟨s2, st, h3, h4, h5, h6⟩ := ih s1 h1 (h.tail h1)
      exact ⟨s2, st, hcat h1 h3, h4, h5, fun j hj => (h6 j hj).trans (h2 j hj)⟩

end

/-! ### Plans of calls that panic -/

section
variable {R T : Type} [Zero R] [Mul R] [Neg R] [Zero T] [Add T] [Sub T] [Mul T] [Div T] [Neg T] {c : DenseCall R T}
  {famT famR : CellType → ElementDofs}

/-- The operations of tasks that complete are what they write. -/
theorem tasks_writes {tt rt : CellType} {q : RegRule R T} {shape : Nat × Nat} {tasks : List (List Nat × List Nat)}
    {ts : List (List (AddOp T))}
    (h : (tasks.map fun t => assembleBatchNonadjacent c.env c.asm shape tt rt c.trial t.2 c.test t.1 q).mapM id = some ts) :
    ts = (tasks.map fun t => batchNonadjacentR c.env c.asm shape tt rt c.trial t.2 c.test t.1 q).map Res.writes := by
  induction tasks generalizing ts with
  | nil => simpa using h.symm
  | cons t tasks ih =>
    rw [List.map_cons, List.mapM_cons, Option.bind_eq_bind, Option.bind_eq_some_iff] at h
    obtain ⟨x, hx, h⟩ := h
    rw [Option.bind_eq_bind, Option.bind_eq_some_iff] at h
    obtain ⟨xs, hxs, h⟩ := h
    cases h
    rw [List.map_cons, List.map_cons]
    congr 1
    · simp only [id] at hx
      rw [← batchNonadjacentR_toOption] at hx
      revert hx
      generalize batchNonadjacentR c.env c.asm shape tt rt c.trial t.2 c.test t.1 q = r
      intro hx
      cases r <;> simp [Res.toOption] at hx
      simp [Res.writes, hx]
    · exact ih hxs

/-- Every section is one that completes, with its tasks' writes, or a section in which a task panics. -/
theorem panic_section {p : Phases T} (h : CallPanic c.env c.asm c.trial c.test p) {s : List (List (AddOp T))} (hs : s ∈ p) :
    ∃ rs, DenseSection c.env c.asm c.trial c.test rs ∧ s = rs.map Res.writes := by
  rcases h with ⟨-, rfl⟩ | ⟨-, -, testCol, trialCol, h1, h2, h⟩
  · simp at hs
  have hgood : ∀ tt ∈ c.test.fs.grid.entityTypes 2, ∀ rt ∈ c.trial.fs.grid.entityTypes 2, ∀ q tcs rcs,
      regRule c.env c.asm c.trial c.test tt rt = some q → testCol tt = some tcs → trialCol rt = some rcs →
      ∀ testC ∈ tcs, ∀ trialC ∈ rcs, ∀ p, ColourPairPlan c.env c.asm (c.test.fs.globalSize, c.trial.fs.globalSize) c.trial c.test tt
        rt q testC trialC p → s ∈ p → ∃ rs, DenseSection c.env c.asm c.trial c.test rs ∧ s = rs.map Res.writes := by
    rintro tt htt rt hrt q tcs rcs e1 e2 e3 testC hT trialC hR p ⟨tasks, ts, e4, e5, rfl⟩ hs
    obtain rfl := List.mem_singleton.mp hs
    refine ⟨_, ⟨testCol, trialCol, h1, h2, tt, htt, rt, hrt, tcs, rcs, q, e2, e3, e1, testC, hT, trialC, hR, tasks, e4, rfl⟩, ?_⟩
    exact tasks_writes e5
  have hpair : ∀ tt ∈ c.test.fs.grid.entityTypes 2, ∀ rt ∈ c.trial.fs.grid.entityTypes 2, ∀ p,
      TypePairPlan c.env c.asm (c.test.fs.globalSize, c.trial.fs.globalSize) c.trial c.test trialCol testCol tt rt p → s ∈ p →
      ∃ rs, DenseSection c.env c.asm c.trial c.test rs ∧ s = rs.map Res.writes := by
    rintro tt htt rt hrt p ⟨q, tcs, rcs, e1, e2, e3, hq⟩ hs
    obtain ⟨testC, hT, p, hq, hs⟩ := forPlan_mem hq hs
    obtain ⟨trialC, hR, p, hq, hs⟩ := forPlan_mem hq hs
    exact hgood tt htt rt hrt q tcs rcs e1 e2 e3 testC hT trialC hR p hq hs
  rcases h with h | ⟨h, -⟩
  · obtain ⟨tt, htt, p, h | h, hs⟩ := forPanic_mem h hs
    · obtain ⟨rt, hrt, p, h, hs⟩ := forPlan_mem h hs
      exact hpair tt htt rt hrt p h hs
    · obtain ⟨rt, hrt, p, h | h, hs⟩ := forPanic_mem h hs
      · exact hpair tt htt rt hrt p h hs
      · rcases h with ⟨-, rfl⟩ | ⟨q, tcs, rcs, e1, e2, e3, h⟩
        · simp at hs
        obtain ⟨testC, hT, p, h | h, hs⟩ := forPanic_mem h hs
        · obtain ⟨trialC, hR, p, h, hs⟩ := forPlan_mem h hs
          exact hgood tt htt rt hrt q tcs rcs e1 e2 e3 testC hT trialC hR p h hs
        · obtain ⟨trialC, hR, p, h | h, hs⟩ := forPanic_mem h hs
          · exact hgood tt htt rt hrt q tcs rcs e1 e2 e3 testC hT trialC hR p h hs
          · obtain ⟨tasks, rs, e4, rfl, -, rfl⟩ := h
            obtain rfl := List.mem_singleton.mp hs
            exact ⟨_, ⟨testCol, trialCol, h1, h2, tt, htt, rt, hrt, tcs, rcs, q, e2, e3, e1, testC, hT, trialC, hR, tasks, e4, rfl⟩,
              rfl⟩
  · obtain ⟨tt, htt, p, h, hs⟩ := forPlan_mem h hs
    obtain ⟨rt, hrt, p, h, hs⟩ := forPlan_mem h hs
    exact hpair tt htt rt hrt p h hs

theorem panic_inside (hc : c.Safe) {p : Phases T} (h : CallPanic c.env c.asm c.trial c.test p) :
    p.Inside c.size ∧
    ∀ s ∈ p, ∀ (k l : Nat) (a b : List (AddOp T)), k ≠ l → s[k]? = some a → s[l]? = some b → ∀ x ∈ a, ∀ y ∈ b, x.addr ≠ y.addr := by
  obtain ⟨h1, h2, h3, h4, h5, ⟨famT, famR, h6, h7⟩, h8⟩ := hc
  constructor
  · intro s hs t ht o ho
    obtain ⟨rs, hrs, rfl⟩ := panic_section h hs
    obtain ⟨r, hr, rfl⟩ := List.mem_map.mp ht
    exact ((C67_regular_part h1 h2 h3 h4 h5 h6 h7 h8 hrs).1 r hr).2 o ho
  · intro s hs k l a b hkl ha hb x hx y hy
    obtain ⟨rs, hrs, rfl⟩ := panic_section h hs
    rw [List.getElem?_map, Option.map_eq_some_iff] at ha hb
    obtain ⟨ra, ha, rfl⟩ := ha
    obtain ⟨rb, hb, rfl⟩ := hb
    exact (C67_regular_part h1 h2 h3 h4 h5 h6 h7 h8 hrs).2 k l ra rb hkl ha hb x hx y hy

theorem colourPair_plan {tt rt : CellType} {q : RegRule R T} {shape : Nat × Nat} {testC trialC : List Nat} {m m' : List T}
    (h : ColourPairRun c.env c.asm shape c.trial c.test tt rt q testC trialC m (.ok m')) :
    ∃ p, ColourPairPlan c.env c.asm shape c.trial c.test tt rt q testC trialC p := by
  obtain ⟨tasks, e4, h⟩ := h
  unfold SectionRun at h
  split at h
  · rename_i ts e5
    exact ⟨[ts], tasks, ts, e4, e5, rfl⟩
  · obtain ⟨_, _, h⟩ := h
    cases h

theorem forRun_length {α : Type} {body' : α → List T → Outcome (List T) → Prop} {l : List α}
    (hb : ∀ a ∈ l, ∀ m m', body' a m (.ok m') → m'.length = m.length) {m m' : List T} (h : ForRun body' l m (.ok m')) :
    m'.length = m.length := by
  generalize e : Outcome.ok m' = o at h
  induction h with
  | nil => cases e; rfl
  | cons h1 _ ih => rw [ih (fun a ha => hb a (by simp [ha])) e, hb _ (by simp) _ _ h1]
  | panic => cases e

theorem typePair_length {tt rt : CellType} {shape : Nat × Nat} {trialCol testCol : Colouring} {m m' : List T}
    (h : TypePairRun c.env c.asm shape c.trial c.test trialCol testCol tt rt m (.ok m')) : m'.length = m.length := by
  unfold TypePairRun at h
  split at h
  · refine forRun_length (fun testC _ m m' h => forRun_length (fun trialC _ m m' h => ?_) h) h
    obtain ⟨tasks, e4, h⟩ := h
    unfold SectionRun at h
    split at h
    · obtain ⟨m2, r, h1, -, h2⟩ := h
      split at h2
      · cases h2
        exact seqRun_length (.cons h1 (.nil _))
      · cases h2
    · obtain ⟨_, _, h⟩ := h
      cases h
  · cases h

theorem panic_of_run (hc : c.Safe) {m m' : List T} (hm : m.length = c.size) (h : c.Alone m (.panicked m')) :
    ∃ p, CallPanic c.env c.asm c.trial c.test p := by
  obtain ⟨g1, g2, g3, g4, g5, ⟨famT, famR, ht, hr⟩, g8⟩ := hc
  have hm' : m.length = c.test.fs.globalSize * c.trial.fs.globalSize := hm
  unfold DenseCall.Alone AssembleIntoMemory at h
  rw [if_neg (by simp [hm'])] at h
  split at h
  · rename_i hser
    exact ⟨[], Or.inl ⟨by rcases hser with e | e <;> simp [e], rfl⟩⟩
  rename_i hser
  simp only [not_or, Bool.not_eq_false] at hser
  cases h1 : c.test.fs.cellColouring with
  | none => exact ⟨[], Or.inl ⟨by simp [h1], rfl⟩⟩
  | some testCol =>
    cases h2 : c.trial.fs.cellColouring with
    | none => exact ⟨[], Or.inl ⟨by simp [h2], rfl⟩⟩
    | some trialCol =>
      simp only [h1, h2] at h
      obtain ⟨o1, h3, h4⟩ := h
      unfold AssembleNonsingularPart at h3
      rw [if_neg (by simp [hser]), if_neg (by simp)] at h3
      have hplan : ∀ tt rt m m', TypePairRun c.env c.asm (c.test.fs.globalSize, c.trial.fs.globalSize) c.trial c.test trialCol
          testCol tt rt m (.ok m') → ∃ p, TypePairPlan c.env c.asm (c.test.fs.globalSize, c.trial.fs.globalSize) c.trial c.test
          trialCol testCol tt rt p := by
        intro tt rt m m' h
        unfold TypePairRun at h
        split at h
        · rename_i q tcs rcs e1 e2 e3
          obtain ⟨p, hp⟩ := forRun_plan (body := fun testC => ForPlan (fun trialC => ColourPairPlan c.env c.asm
              (c.test.fs.globalSize, c.trial.fs.globalSize) c.trial c.test tt rt q testC trialC) rcs) (fun testC _ m m' h =>
            forRun_plan (fun trialC _ m m' h => colourPair_plan h) h) h
          exact ⟨p, q, tcs, rcs, e1, e2, e3, hp⟩
        · cases h
      cases o1 with
      | ok m1 =>
        obtain ⟨p, hp⟩ := forRun_plan (fun tt _ m m' h => forRun_plan (fun rt _ m m' h => hplan tt rt m m' h) h) h3
        refine ⟨p, Or.inr ⟨hser.1, hser.2, testCol, trialCol, h1, h2, Or.inr ⟨hp, ?_⟩⟩⟩
        obtain ⟨sp, h5, h6⟩ := h4
        cases sp with
        | none => exact h5
        | some sm =>
          have hin := assembleSingularPart_inside ht.index_lt hr.index_lt h5
          have hlen : m1.length = m.length := by
            exact forRun_length (fun tt _ m m' h => forRun_length (fun rt _ m m' h => typePair_length h) h) h3
          simp only at h6
          rw [addTriplets_eq (m := c.trial.fs.globalSize) _ _ _ (by rw [hlen, hm]; rfl)] at h6
          · cases h6
          · intro x hx
            have hx := (List.of_mem_zip hx).1
            exact ⟨hin.1 _ (List.of_mem_zip hx).1, hin.2 _ (List.of_mem_zip hx).2⟩
      | panicked m1 =>
        have hpan : ∀ tt ∈ c.test.fs.grid.entityTypes 2, ∀ rt ∈ c.trial.fs.grid.entityTypes 2, ∀ m m', TypePairRun c.env c.asm
            (c.test.fs.globalSize, c.trial.fs.globalSize) c.trial c.test trialCol testCol tt rt m (.panicked m') → ∃ p,
            TypePairPanic c.env c.asm (c.test.fs.globalSize, c.trial.fs.globalSize) c.trial c.test trialCol testCol tt rt p := by
          intro tt htt rt hrt m m' h
          unfold TypePairRun at h
          split at h
          · rename_i q tcs rcs e1 e2 e3
            have hsecpan : ∀ testC ∈ tcs, ∀ trialC ∈ rcs, ∀ m m', ColourPairRun c.env c.asm (c.test.fs.globalSize, c.trial.fs.globalSize)
                c.trial c.test tt rt q testC trialC m (.panicked m') → ∃ p, ColourPairPanic c.env c.asm (c.test.fs.globalSize, c.trial.fs.globalSize)
                c.trial c.test tt rt q testC trialC p := by
              intro testC hT trialC hR m m' h
              obtain ⟨tasks, e4, h⟩ := h
              have hsec : DenseSection c.env c.asm c.trial c.test _ :=
                ⟨testCol, trialCol, h1, h2, tt, htt, rt, hrt, tcs, rcs, q, e2, e3, e1, testC, hT, trialC, hR, tasks, e4, rfl⟩
              have hub := (C67_regular_part g1 g2 g3 g4 g5 ht hr g8 hsec).1
              refine ⟨_, tasks, _, e4, rfl, ?_, rfl⟩
              unfold SectionRun at h
              split at h
              · obtain ⟨m2, r, -, h5, h6⟩ := h
                rw [if_pos (reduces_ones_eq h5)] at h6
                cases h6
              · rename_i hnone
                rw [mapM_id_none, List.mem_map] at hnone
                obtain ⟨t, htk, hn⟩ := hnone
                have hmem := List.mem_map_of_mem (f := fun t : List Nat × List Nat => batchNonadjacentR c.env c.asm
                  (c.test.fs.globalSize, c.trial.fs.globalSize) tt rt c.trial t.2 c.test t.1 q) htk
                have hub := (hub _ hmem).1
                rw [← batchNonadjacentR_toOption] at hn
                revert hmem hub hn
                generalize batchNonadjacentR c.env c.asm (c.test.fs.globalSize, c.trial.fs.globalSize) tt rt c.trial t.2 c.test t.1
                  q = r
                intro hn hmem hub
                cases r with
                | ok l => cases hn
                | ub => exact absurd rfl hub
                | panic w => exact ⟨w, hmem⟩
            obtain ⟨p, hp⟩ := forRun_panic (body := fun testC => ForPlan (fun trialC => ColourPairPlan c.env c.asm
                (c.test.fs.globalSize, c.trial.fs.globalSize) c.trial c.test tt rt q testC trialC) rcs)
              (panics := fun testC => ForPanic (fun trialC => ColourPairPlan c.env c.asm
                (c.test.fs.globalSize, c.trial.fs.globalSize) c.trial c.test tt rt q testC trialC)
                (fun trialC => ColourPairPanic c.env c.asm
                (c.test.fs.globalSize, c.trial.fs.globalSize) c.trial c.test tt rt q testC trialC) rcs)
              (fun testC _ m m' h => forRun_plan (fun trialC _ m m' h => colourPair_plan h) h)
              (fun testC hT m m' h => forRun_panic (fun trialC _ m m' h => colourPair_plan h) (fun trialC hR m m' h => hsecpan testC hT trialC hR m m' h) h) h
            exact ⟨p, Or.inr ⟨q, tcs, rcs, e1, e2, e3, hp⟩⟩
          · rename_i hnone
            refine ⟨[], Or.inl ⟨?_, rfl⟩⟩
            by_contra hall
            simp only [not_or] at hall
            obtain ⟨q, hq⟩ := Option.ne_none_iff_exists'.mp hall.1
            obtain ⟨tcs, htc⟩ := Option.ne_none_iff_exists'.mp hall.2.1
            obtain ⟨rcs, hrc⟩ := Option.ne_none_iff_exists'.mp hall.2.2
            exact hnone q tcs rcs hq htc hrc
        obtain ⟨p, hp⟩ := forRun_panic (fun tt _ m m' h => forRun_plan (fun rt _ m m' h => hplan tt rt m m' h) h)
          (panics := fun tt => ForPanic (fun rt => TypePairPlan c.env c.asm (c.test.fs.globalSize, c.trial.fs.globalSize) c.trial
            c.test trialCol testCol tt rt) (fun rt => TypePairPanic c.env c.asm (c.test.fs.globalSize, c.trial.fs.globalSize)
            c.trial c.test trialCol testCol tt rt) (c.trial.fs.grid.entityTypes 2))
          (fun tt htt m m' h => forRun_panic (fun rt _ m m' h => hplan tt rt m m' h) (fun rt hrt m m' h => hpan tt htt rt hrt m m' h) h) h3
        exact ⟨p, Or.inr ⟨hser.1, hser.2, testCol, trialCol, h1, h2, Or.inl hp⟩⟩

theorem regular_of_plans (ht : SerialSpace c.test.fs famT) (hr : SerialSpace c.trial.fs famR) {testCol trialCol : Colouring}
    (h1 : c.test.fs.cellColouring = some testCol) (h2 : c.trial.fs.cellColouring = some trialCol) {p : Phases T} {m : List T}
    (hm : m.length = c.size) :
    (ForPanic (fun tt => ForPlan (fun rt => TypePairPlan c.env c.asm (c.test.fs.globalSize, c.trial.fs.globalSize) c.trial c.test trialCol testCol tt rt)
        (c.trial.fs.grid.entityTypes 2)) (fun tt => ForPanic
        (fun rt => TypePairPlan c.env c.asm (c.test.fs.globalSize, c.trial.fs.globalSize) c.trial c.test trialCol testCol tt rt)
        (fun rt => TypePairPanic c.env c.asm (c.test.fs.globalSize, c.trial.fs.globalSize) c.trial c.test trialCol testCol tt rt)
        (c.trial.fs.grid.entityTypes 2)) (c.test.fs.grid.entityTypes 2) p →
      ∃ m', AssembleNonsingularPart c.env c.asm (c.test.fs.globalSize, c.trial.fs.globalSize) c.trial c.test trialCol testCol m (.panicked m')) ∧
    (ForPlan (fun tt => ForPlan (fun rt => TypePairPlan c.env c.asm (c.test.fs.globalSize, c.trial.fs.globalSize) c.trial c.test trialCol testCol tt rt)
        (c.trial.fs.grid.entityTypes 2)) (c.test.fs.grid.entityTypes 2) p →
      ∃ m', AssembleNonsingularPart c.env c.asm (c.test.fs.globalSize, c.trial.fs.globalSize) c.trial c.test trialCol testCol m (.ok m')) := by
  have s1 := ht.serial.1
  have s2 := hr.serial.1
  have hcol : ∀ tt rt q tcs rcs, testCol tt = some tcs → trialCol rt = some rcs → ∀ testC ∈ tcs, ∀ trialC ∈ rcs, ∀ p m,
      ColourPairPlan c.env c.asm (c.test.fs.globalSize, c.trial.fs.globalSize) c.trial c.test tt rt q testC trialC p →
      m.length = c.size → ∃ m', m'.length = c.size ∧ ColourPairRun c.env c.asm (c.test.fs.globalSize, c.trial.fs.globalSize)
        c.trial c.test tt rt q testC trialC m (.ok m') := by
    rintro tt rt q tcs rcs e1 e2 testC hT trialC hR p m ⟨tasks, ts, e4, e5, rfl⟩ hm
    obtain ⟨hn, hb⟩ := section_safe (ht.colourClass h1 e1 hT).1 (hr.colourClass h2 e2 hR).1 e4 e5
    refine ⟨_, ?_, tasks, e4, (sectionRun_iff e5 hn (fun o ho => by rw [hm]; exact hb o ho) _).mpr rfl⟩
    rw [applyOps_length, hm]
  have hpair : ∀ tt rt p m, TypePairPlan c.env c.asm (c.test.fs.globalSize, c.trial.fs.globalSize) c.trial c.test trialCol testCol
      tt rt p → m.length = c.size → ∃ m', m'.length = c.size ∧ TypePairRun c.env c.asm
      (c.test.fs.globalSize, c.trial.fs.globalSize) c.trial c.test trialCol testCol tt rt m (.ok m') := by
    rintro tt rt p m ⟨q, tcs, rcs, e1, e2, e3, h⟩ hm
    unfold TypePairRun
    rw [e1, e2, e3]
    exact forPlan_ok h (fun testC hT p m h hm => forPlan_ok h (fun trialC hR p m h hm =>
      hcol tt rt q tcs rcs e2 e3 testC hT trialC hR p m h hm) hm) hm
  have hpan : ∀ tt rt p m, TypePairPanic c.env c.asm (c.test.fs.globalSize, c.trial.fs.globalSize) c.trial c.test trialCol
      testCol tt rt p → m.length = c.size → ∃ m', TypePairRun c.env c.asm (c.test.fs.globalSize, c.trial.fs.globalSize)
      c.trial c.test trialCol testCol tt rt m (.panicked m') := by
    intro tt rt p m h hm
    unfold TypePairRun
    rcases h with ⟨h, -⟩ | ⟨q, tcs, rcs, e1, e2, e3, h⟩
    · split
      · rename_i e1 e2 e3
        rcases h with h | h | h
        · rw [e1] at h; cases h
        · rw [e2] at h; cases h
        · rw [e3] at h; cases h
      · exact ⟨m, rfl⟩
    · rw [e1, e2, e3]
      have hsp : ∀ testC ∈ tcs, ∀ trialC ∈ rcs, ∀ p m, ColourPairPanic c.env c.asm (c.test.fs.globalSize, c.trial.fs.globalSize) c.trial c.test
          tt rt q testC trialC p → m.length = c.size → ∃ m', ColourPairRun c.env c.asm (c.test.fs.globalSize, c.trial.fs.globalSize)
          c.trial c.test tt rt q testC trialC m (.panicked m') := by
        rintro testC hT trialC hR p m ⟨tasks, rs, e4, rfl, ⟨w, hw⟩, -⟩ hm
        refine ⟨m, tasks, e4, ?_⟩
        unfold SectionRun
        have : (tasks.map fun t => assembleBatchNonadjacent c.env c.asm (c.test.fs.globalSize, c.trial.fs.globalSize) tt rt c.trial
            t.2 c.test t.1 q).mapM id = none := by
          rw [mapM_id_none, List.mem_map]
          obtain ⟨t, htk, e⟩ := List.mem_map.mp hw
          exact ⟨t, htk, by rw [← batchNonadjacentR_toOption, e]; rfl⟩
        rw [this]
        exact ⟨m, rfl, rfl⟩
      exact forPanic_run h (fun testC hT p m h hm => forPlan_ok h (fun trialC hR p m h hm =>
        hcol tt rt q tcs rcs e2 e3 testC hT trialC hR p m h hm) hm) (fun testC hT p m h hm => forPanic_run h
        (fun trialC hR p m h hm => hcol tt rt q tcs rcs e2 e3 testC hT trialC hR p m h hm)
        (fun trialC hR p m h hm => hsp testC hT trialC hR p m h hm) hm) hm
  constructor
  · intro h
    obtain ⟨m', hr⟩ := forPanic_run (n := c.size) h (body' := fun tt => ForRun (fun rt => TypePairRun c.env c.asm
        (c.test.fs.globalSize, c.trial.fs.globalSize) c.trial c.test trialCol testCol tt rt) (c.trial.fs.grid.entityTypes 2))
      (fun tt _ p m h hm => forPlan_ok h (fun rt _ p m h hm => hpair tt rt p m h hm) hm)
      (fun tt _ p m h hm => forPanic_run h (fun rt _ p m h hm => hpair tt rt p m h hm) (fun rt _ p m h hm => hpan tt rt p m h hm) hm) hm
    refine ⟨m', ?_⟩
    unfold AssembleNonsingularPart
    rw [if_neg (by simp [s1, s2]), if_neg (by simp)]
    exact hr
  · intro h
    obtain ⟨m1, -, hr⟩ := forPlan_ok (n := c.size) h (body' := fun tt => ForRun (fun rt => TypePairRun c.env c.asm
        (c.test.fs.globalSize, c.trial.fs.globalSize) c.trial c.test trialCol testCol tt rt) (c.trial.fs.grid.entityTypes 2))
      (fun tt _ p m h hm => forPlan_ok h (fun rt _ p m h hm => hpair tt rt p m h hm) hm) hm
    refine ⟨m1, ?_⟩
    unfold AssembleNonsingularPart
    rw [if_neg (by simp [s1, s2]), if_neg (by simp)]
    exact hr

/-- Complete sections of the regular part are a run of it. -/
theorem regular_run (ht : SerialSpace c.test.fs famT) (hr : SerialSpace c.trial.fs famR) {testCol trialCol : Colouring}
    {p : Phases T} (h : ForPlan (fun tt => ForPlan (fun rt => TypePairPlan c.env c.asm (c.test.fs.globalSize, c.trial.fs.globalSize) c.trial c.test trialCol testCol tt rt)
      (c.trial.fs.grid.entityTypes 2)) (c.test.fs.grid.entityTypes 2) p) {m m' : List T} (hs : SeqRun p m m') :
    AssembleNonsingularPart c.env c.asm (c.test.fs.globalSize, c.trial.fs.globalSize) c.trial c.test trialCol testCol m (.ok m') := by
  unfold AssembleNonsingularPart
  rw [if_neg (by simp [ht.serial.1, hr.serial.1]), if_neg (by simp)]
  refine forPlan_run h ?_ hs
  intro tt _ q n n' hq hn
  refine forPlan_run hq ?_ hn
  rintro rt _ q n n' ⟨rule, tcs, rcs, e1, e2, e3, hq⟩ hn
  unfold TypePairRun
  rw [e1, e2, e3]
  refine forPlan_run hq ?_ hn
  intro testC _ q n n' hq hn
  refine forPlan_run hq ?_ hn
  rintro trialC _ q n n' ⟨tasks, ts, e4, e5, rfl⟩ hn
  cases hn with
  | cons hp hnil =>
    cases hnil
    refine ⟨tasks, e4, ?_⟩
    unfold SectionRun
    rw [e5]
    exact ⟨_, _, hp, reduces_ones ts, by simp⟩

theorem run_of_panic (hser : c.Serial) {p : Phases T} (h : CallPanic c.env c.asm c.trial c.test p) {m : List T}
    (hm : m.length = c.size) : ∃ m', c.Alone m (.panicked m') := by
  obtain ⟨famT, famR, ht, hr⟩ := hser
  have hm' : m.length = c.test.fs.globalSize * c.trial.fs.globalSize := hm
  unfold DenseCall.Alone AssembleIntoMemory
  simp only [hm', ne_eq, not_true, if_false]
  rcases h with ⟨h, -⟩ | ⟨s1, s2, testCol, trialCol, h1, h2, h⟩
  · split
    · exact ⟨m, rfl⟩
    · rename_i hs
      simp only [not_or, Bool.not_eq_false] at hs
      rcases h with h | h | h | h
      · rw [hs.1] at h; cases h
      · rw [hs.2] at h; cases h
      · rw [h]; exact ⟨m, rfl⟩
      · rw [h]
        cases c.test.fs.cellColouring <;> exact ⟨m, rfl⟩
  · simp only [s1, s2, h1, h2, Bool.true_eq_false, or_self, if_false]
    rcases h with h | ⟨h, h3⟩
    · obtain ⟨m', hr⟩ := (regular_of_plans ht hr h1 h2 hm).1 h
      exact ⟨m', .panicked m', hr, rfl⟩
    · obtain ⟨m1, hr⟩ := (regular_of_plans ht hr h1 h2 hm).2 h
      exact ⟨m1, .ok m1, hr, none, h3, rfl⟩

theorem forPanic_seq {α : Type} {body panics : α → Phases T → Prop} {body' : α → List T → Outcome (List T) → Prop} {l : List α}
    {p : Phases T} (h : ForPanic body panics l p) (hb : ∀ a ∈ l, ∀ q m m', body a q → SeqRun q m m' → body' a m (.ok m'))
    (hp : ∀ a ∈ l, ∀ q m m', panics a q → SeqRun q m m' → body' a m (.panicked m')) {m m' : List T} (hs : SeqRun p m m') :
    ForRun body' l m (.panicked m') := by
  induction h generalizing m with
  | here h1 => exact .panic (hp _ (by simp) _ _ _ h1 hs)
  | later h1 _ ih =>
    obtain ⟨m1, h3, h4⟩ := SeqRun.append.mp hs
    exact .cons (hb _ (by simp) _ _ _ h1 h3) (ih (fun a ha => hb a (by simp [ha])) (fun a ha => hp a (by simp [ha])) h4)

/-- The operations of a call that panics, one section after the other, are a run that panics. -/
theorem panic_seq (hser : c.Serial) {p : Phases T} (h : CallPanic c.env c.asm c.trial c.test p) {m m' : List T}
    (hm : m.length = c.size) (hs : SeqRun p m m') : c.Alone m (.panicked m') := by
  obtain ⟨famT, famR, ht, hr⟩ := hser
  have hm' : m.length = c.test.fs.globalSize * c.trial.fs.globalSize := hm
  unfold DenseCall.Alone AssembleIntoMemory
  simp only [hm', ne_eq, not_true, if_false]
  rcases h with ⟨h, rfl⟩ | ⟨s1, s2, testCol, trialCol, h1, h2, h⟩
  · cases hs
    split
    · rfl
    · rename_i hs
      simp only [not_or, Bool.not_eq_false] at hs
      rcases h with h | h | h | h
      · rw [hs.1] at h; cases h
      · rw [hs.2] at h; cases h
      · rw [h]
      · rw [h]
        cases c.test.fs.cellColouring <;> rfl
  · simp only [s1, s2, h1, h2, Bool.true_eq_false, or_self, if_false]
    rcases h with h | ⟨h, h3⟩
    · refine ⟨.panicked m', ?_, rfl⟩
      have hcol : ∀ tt rt q testC trialC p m m', ColourPairPlan c.env c.asm (c.test.fs.globalSize, c.trial.fs.globalSize) c.trial c.test tt rt q testC trialC p → SeqRun p m m' →
          ColourPairRun c.env c.asm (c.test.fs.globalSize, c.trial.fs.globalSize) c.trial c.test tt rt q testC trialC m (.ok m') := by
        rintro tt rt q testC trialC p m m' ⟨tasks, ts, e4, e5, rfl⟩ hn
        cases hn with
        | cons hp hnil =>
          cases hnil
          refine ⟨tasks, e4, ?_⟩
          unfold SectionRun
          rw [e5]
          exact ⟨_, _, hp, reduces_ones ts, by simp⟩
      have hsp : ∀ tt rt q testC trialC p m m', ColourPairPanic c.env c.asm (c.test.fs.globalSize, c.trial.fs.globalSize) c.trial c.test tt rt q testC trialC p → SeqRun p m m' →
          ColourPairRun c.env c.asm (c.test.fs.globalSize, c.trial.fs.globalSize) c.trial c.test tt rt q testC trialC m (.panicked m') := by
        rintro tt rt q testC trialC p m m' ⟨tasks, rs, e4, rfl, ⟨w, hw⟩, -⟩ hn
        refine ⟨tasks, e4, ?_⟩
        unfold SectionRun
        have : (tasks.map fun t => assembleBatchNonadjacent c.env c.asm (c.test.fs.globalSize, c.trial.fs.globalSize) tt rt c.trial
            t.2 c.test t.1 q).mapM id = none := by
          rw [mapM_id_none, List.mem_map]
          obtain ⟨t, htk, e⟩ := List.mem_map.mp hw
          exact ⟨t, htk, by rw [← batchNonadjacentR_toOption, e]; rfl⟩
        rw [this]
        exact ⟨m', seqRun_length hn, rfl⟩
      have hpair : ∀ tt rt p m m', TypePairPlan c.env c.asm (c.test.fs.globalSize, c.trial.fs.globalSize) c.trial c.test trialCol testCol tt rt p → SeqRun p m m' →
          TypePairRun c.env c.asm (c.test.fs.globalSize, c.trial.fs.globalSize) c.trial c.test trialCol testCol tt rt m (.ok m') := by
        rintro tt rt p m m' ⟨q, tcs, rcs, e1, e2, e3, h⟩ hn
        unfold TypePairRun
        rw [e1, e2, e3]
        exact forPlan_run h (fun testC _ p m m' h hn => forPlan_run h (fun trialC _ p m m' h hn =>
          hcol tt rt q testC trialC p m m' h hn) hn) hn
      have hpan : ∀ tt rt p m m', TypePairPanic c.env c.asm (c.test.fs.globalSize, c.trial.fs.globalSize) c.trial c.test trialCol testCol tt rt p → SeqRun p m m' →
          TypePairRun c.env c.asm (c.test.fs.globalSize, c.trial.fs.globalSize) c.trial c.test trialCol testCol tt rt m (.panicked m') := by
        intro tt rt p m m' h hn
        unfold TypePairRun
        rcases h with ⟨h, rfl⟩ | ⟨q, tcs, rcs, e1, e2, e3, h⟩
        · cases hn
          split
          · rename_i e1 e2 e3
            rcases h with h | h | h
            · rw [e1] at h; cases h
            · rw [e2] at h; cases h
            · rw [e3] at h; cases h
          · rfl
        · rw [e1, e2, e3]
          exact forPanic_seq h (fun testC _ p m m' h hn => forPlan_run h (fun trialC _ p m m' h hn =>
            hcol tt rt q testC trialC p m m' h hn) hn) (fun testC _ p m m' h hn => forPanic_seq h (fun trialC _ p m m' h hn =>
            hcol tt rt q testC trialC p m m' h hn) (fun trialC _ p m m' h hn => hsp tt rt q testC trialC p m m' h hn) hn) hn
      unfold AssembleNonsingularPart
      rw [if_neg (by simp [s1, s2]), if_neg (by simp)]
      exact forPanic_seq h (body' := fun tt => ForRun (fun rt => TypePairRun c.env c.asm (c.test.fs.globalSize, c.trial.fs.globalSize) c.trial c.test trialCol testCol tt rt)
          (c.trial.fs.grid.entityTypes 2)) (fun tt _ p m m' h hn => forPlan_run h (fun rt _ p m m' h hn => hpair tt rt p m m' h hn) hn)
        (fun tt _ p m m' h hn => forPanic_seq h (fun rt _ p m m' h hn => hpair tt rt p m m' h hn)
          (fun rt _ p m m' h hn => hpan tt rt p m m' h hn) hn) hs
    · exact ⟨.ok m', regular_run ht hr h hs, none, h3, rfl⟩

end
end Bempp
