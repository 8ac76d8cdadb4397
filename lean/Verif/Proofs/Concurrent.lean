import Verif.Spec.Concurrent
import Verif.Proofs.Words
import Verif.Proofs.Dense
/-
Several calls at the same time: every call sees only its own part of the memory.
-/
set_option linter.unusedSectionVars false

namespace Bempp

section
variable {T : Type} [Add T]

/-- Sections one after the other, on a buffer of their own. -/
inductive SeqRun : Phases T → List T → List T → Prop
  | nil (m : List T) : SeqRun [] m m
  | cons {p : List (List (AddOp T))} {ps : Phases T} {m m1 m2 : List T} :
      ParRun p m m1 → SeqRun ps m1 m2 → SeqRun (p :: ps) m m2

theorem SeqRun.append {p q : Phases T} {m m' : List T} :
    SeqRun (p ++ q) m m' ↔ ∃ m1, SeqRun p m m1 ∧ SeqRun q m1 m' := by
  induction p generalizing m with
  | nil =>
    constructor
    · exact fun h => ⟨m, .nil m, h⟩
    · rintro ⟨m1, h1, h2⟩
      cases h1
      exact h2
  | cons x p ih =>
    constructor
    · intro h
      cases h with
      | cons h1 h2 =>
        obtain ⟨m2, h3, h4⟩ := ih.mp h2
        exact ⟨m2, .cons h1 h3, h4⟩
    · rintro ⟨m1, h1, h2⟩
      cases h1 with
      | cons h3 h4 => exact .cons h3 (ih.mpr ⟨m1, h4, h2⟩)

theorem parSteps_nil {m : List T} {s : ParState T} (h : ParSteps (ParState.start m []) s) : s = ⟨m, []⟩ := by
  induction h with
  | refl => rfl
  | tail _ h1 ih =>
    rw [ih] at h1
    cases h1 with
    | load h _ => simp at h
    | store h => simp at h

theorem parRun_nil {m m' : List T} (h : ParRun [] m m') : m = m' := by
  obtain ⟨s, h1, -, rfl⟩ := h
  rw [parSteps_nil h1]

/-- What a task still has to do is the end of what it had to do. -/
theorem parSteps_suffix {cur : List (List (AddOp T))} {m : List T} {s : ParState T}
    (h : ParSteps (ParState.start m cur) s) :
    ∀ (k : Nat) (t : Task T), s.tasks[k]? = some t → ∃ l, cur[k]? = some l ∧ t.todo <:+ l := by
  induction h with
  | refl =>
    intro k t h
    simp only [ParState.start, List.getElem?_map, Option.map_eq_some_iff] at h
    obtain ⟨l, hl, rfl⟩ := h
    exact ⟨l, hl, List.suffix_refl _⟩
  | tail _ h1 ih =>
    cases h1 with
    | load h2 _ =>
      intro k t ht
      rw [List.getElem?_set] at ht
      split at ht
      · rename_i e
        subst e
        split at ht
        · cases ht
          obtain ⟨l, hl, hl'⟩ := ih _ _ h2
          exact ⟨l, hl, hl'⟩
        · cases ht
      · exact ih _ _ ht
    | store h2 =>
      intro k t ht
      rw [List.getElem?_set] at ht
      split at ht
      · rename_i e
        subst e
        split at ht
        · cases ht
          obtain ⟨l, hl, hl'⟩ := ih _ _ h2
          exact ⟨l, hl, (List.suffix_cons _ _).trans hl'⟩
        · cases ht
      · exact ih _ _ ht

/-! ### Parts of the memory -/

theorem partOf_get {m : List T} {a n x : Nat} (h : x < n) : (partOf m a n)[x]? = m[a + x]? := by
  rw [partOf, List.getElem?_take_of_lt h, List.getElem?_drop]

theorem partOf_set {m : List T} {a n x : Nat} (v : T) (h : x < n) : partOf (m.set (a + x) v) a n = (partOf m a n).set x v := by
  apply List.ext_getElem?
  intro y
  by_cases hy : y < n
  · rw [partOf_get hy, List.getElem?_set, List.getElem?_set, partOf_get hy]
    by_cases e : x = y
    · subst e
      simp only [if_true]
      congr 1
      simp only [partOf, List.length_take, List.length_drop]
      apply propext
      omega
    · rw [if_neg (by omega), if_neg e]
  · rw [List.getElem?_eq_none (by simp [partOf]; omega), List.getElem?_eq_none (by simp [partOf]; omega)]

theorem partOf_set_ne {m : List T} {a n x : Nat} (v : T) (h : x < a ∨ a + n ≤ x) : partOf (m.set x v) a n = partOf m a n := by
  apply List.ext_getElem?
  intro y
  by_cases hy : y < n
  · rw [partOf_get hy, partOf_get hy, List.getElem?_set_ne (by omega)]
  · rw [List.getElem?_eq_none (by simp [partOf]; omega), List.getElem?_eq_none (by simp [partOf]; omega)]

theorem partOf_length {m : List T} {a n : Nat} (h : a + n ≤ m.length) : (partOf m a n).length = n := by
  simp only [partOf, List.length_take, List.length_drop]
  omega

/-! ### One call among others -/

/-- What a call has done so far, seen on its own part of the memory. -/
def CallInv (p : Phases T) (m0 m : List T) (c : CallState T) : Prop :=
  ∃ done cur m1, [] :: p = done ++ cur :: c.rest ∧ SeqRun done m0 m1 ∧ ParSteps (ParState.start m1 cur) ⟨m, c.tasks⟩

theorem CallInv.current {p : Phases T} {m0 m : List T} {c : CallState T} (h : CallInv p m0 m c) {n : Nat} (hp : p.Inside n) :
    ∀ t ∈ c.tasks, ∀ o ∈ t.todo, o.addr < n := by
  obtain ⟨done, cur, m1, e, -, hs⟩ := h
  intro t ht o ho
  obtain ⟨k, hk⟩ := List.getElem?_of_mem ht
  obtain ⟨l, hl, hsuf⟩ := parSteps_suffix hs k t hk
  have hl := List.mem_of_getElem? hl
  have hc : cur ∈ [] :: p := by rw [e]; simp
  rcases List.mem_cons.mp hc with rfl | hc
  · simp at hl
  · exact hp cur hc l hl o (hsuf.subset ho)

theorem CallInv.returned {p : Phases T} {m0 m : List T} {c : CallState T} (h : CallInv p m0 m c) (hr : c.Returned) :
    SeqRun p m0 m := by
  obtain ⟨done, cur, m1, e, hd, hs⟩ := h
  rw [hr.2] at e
  have h1 : SeqRun ([] :: p) m0 m := by
    rw [e, SeqRun.append]
    exact ⟨m1, hd, .cons ⟨_, hs, hr.1, rfl⟩ (.nil m)⟩
  cases h1 with
  | cons h1 h2 =>
    rw [parRun_nil h1]
    exact h2

variable {offsets sizes : List Nat} {plans : List (Phases T)} {mem : List T}

/-- The state of all calls. -/
structure ConInv (offsets sizes : List Nat) (plans : List (Phases T)) (mem : List T) (s : ConState T) : Prop where
  length : s.mem.length = mem.length
  calls : s.calls.length = plans.length
  call : ∀ (i : Nat) (c : CallState T) (p : Phases T) (a n : Nat), s.calls[i]? = some c → plans[i]? = some p →
    offsets[i]? = some a → sizes[i]? = some n → CallInv p (partOf mem a n) (partOf s.mem a n) c
  outside : ∀ x, (∀ (i a n : Nat), offsets[i]? = some a → sizes[i]? = some n → x < a ∨ a + n ≤ x) → s.mem[x]? = mem[x]?

theorem con_start (offsets sizes : List Nat) (plans : List (Phases T)) (mem : List T) :
    ConInv offsets sizes plans mem (ConState.start mem plans) where
  length := rfl
  calls := by simp [ConState.start]
  call := by
    intro i c p a n hc hp _ _
    simp only [ConState.start, List.getElem?_map, hp, Option.map_some, Option.some.injEq] at hc
    subst hc
    exact ⟨[], [], _, rfl, .nil _, .refl _⟩
  outside := fun _ _ => rfl

theorem con_step (hs : SeparateParts offsets sizes mem.length)
    (hin : ∀ (i n : Nat) (p : Phases T), plans[i]? = some p → sizes[i]? = some n → p.Inside n)
    (hl : plans.length = offsets.length) {s s' : ConState T}
    (inv : ConInv offsets sizes plans mem s) (h : ConStep offsets s s') : ConInv offsets sizes plans mem s' := by
  have hplan : ∀ (i : Nat) (c : CallState T), s.calls[i]? = some c → ∃ p a n, plans[i]? = some p ∧ offsets[i]? = some a ∧
      sizes[i]? = some n := by
    intro i c hc
    have h1 := (List.getElem?_eq_some_iff.mp hc).1
    have h2 : i < plans.length := by rw [← inv.calls]; exact h1
    have h3 : i < offsets.length := by omega
    have h4 : i < sizes.length := by rw [← hs.length]; exact h3
    exact ⟨_, _, _, List.getElem?_eq_getElem h2, List.getElem?_eq_getElem h3, List.getElem?_eq_getElem h4⟩
  cases h with
  | @load i k a c o l x hc ha ht hx =>
    refine ⟨inv.length, by simpa using inv.calls, ?_, inv.outside⟩
    intro j c' p b n hc' hp hb hn
    by_cases e : i = j
    · subst e
      obtain rfl : a = b := by simpa [ha] using hb
      rw [List.getElem?_set_self (List.getElem?_eq_some_iff.mp hc).1] at hc'
      cases hc'
      have hi := inv.call i c p a n hc hp ha hn
      have hlt := hi.current (hin i n p hp hn) _ (List.mem_of_getElem? ht) o (by simp)
      obtain ⟨done, cur, m1, e1, h1, h2⟩ := hi
      exact ⟨done, cur, m1, e1, h1, .tail h2 (.load ht (by rw [partOf_get hlt]; exact hx))⟩
    · rw [List.getElem?_set_ne e] at hc'
      exact inv.call j c' p b n hc' hp hb hn
  | @store i k a c o l x hc ha ht =>
    obtain ⟨pi, a', ni, hpi, ha', hni⟩ := hplan i c hc
    obtain rfl : a = a' := by simpa [ha] using ha'
    have hi := inv.call i c pi a ni hc hpi ha hni
    have hlt := hi.current (hin i ni pi hpi hni) _ (List.mem_of_getElem? ht) o (by simp)
    refine ⟨by simpa using inv.length, by simpa using inv.calls, ?_, ?_⟩
    · intro j c' p b n hc' hp hb hn
      by_cases e : i = j
      · subst e
        obtain rfl : a = b := by simpa [ha] using hb
        obtain rfl : ni = n := by simpa [hni] using hn
        obtain rfl : pi = p := by simpa [hpi] using hp
        rw [List.getElem?_set_self (List.getElem?_eq_some_iff.mp hc).1] at hc'
        cases hc'
        obtain ⟨done, cur, m1, e1, h1, h2⟩ := hi
        refine ⟨done, cur, m1, e1, h1, .tail h2 ?_⟩
        simp only [partOf_set _ hlt]
        exact .store ht
      · simp only [List.getElem?_set_ne e] at hc'
        have hap := hs.apart i j a ni b n e ha hni hb hn
        simp only
        rw [partOf_set_ne _ (by omega)]
        exact inv.call j c' p b n hc' hp hb hn
    · intro y hy
      have := hy i a ni ha hni
      simp only
      rw [List.getElem?_set_ne (by omega)]
      exact inv.outside y hy
  | @next i c q qs hc hfin hrest =>
    refine ⟨inv.length, by simpa using inv.calls, ?_, inv.outside⟩
    intro j c' p b n hc' hp hb hn
    by_cases e : i = j
    · subst e
      rw [List.getElem?_set_self (List.getElem?_eq_some_iff.mp hc).1] at hc'
      cases hc'
      obtain ⟨done, cur, m1, e1, h1, h2⟩ := inv.call i c p b n hc hp hb hn
      refine ⟨done ++ [cur], q, partOf s.mem b n, by rw [e1, hrest]; simp, ?_, .refl _⟩
      rw [SeqRun.append]
      exact ⟨m1, h1, .cons ⟨_, h2, hfin, rfl⟩ (.nil _)⟩
    · rw [List.getElem?_set_ne e] at hc'
      exact inv.call j c' p b n hc' hp hb hn

theorem con_steps (hs : SeparateParts offsets sizes mem.length)
    (hin : ∀ (i n : Nat) (p : Phases T), plans[i]? = some p → sizes[i]? = some n → p.Inside n)
    (hl : plans.length = offsets.length) {s : ConState T}
    (h : ConSteps offsets (ConState.start mem plans) s) : ConInv offsets sizes plans mem s := by
  induction h with
  | refl => exact con_start _ _ _ _
  | tail _ h1 ih => exact con_step hs hin hl ih h1

/-! ### Termination -/

theorem sum_set_lt {α : Type} (f : α → Nat) {l : List α} {k : Nat} {x y : α} (hk : l[k]? = some x) (h : f y < f x) :
    ((l.set k y).map f).sum < (l.map f).sum := by
  induction l generalizing k with
  | nil => simp at hk
  | cons z l ih =>
    cases k with
    | zero =>
      simp only [List.getElem?_cons_zero, Option.some.injEq] at hk
      subst hk
      simp only [List.set_cons_zero, List.map_cons, List.sum_cons]
      omega
    | succ k =>
      simp only [List.getElem?_cons_succ] at hk
      have := ih hk
      simp only [List.set_cons_succ, List.map_cons, List.sum_cons]
      omega

/-- Steps that a task still has to do. -/
def Task.steps (t : Task T) : Nat := 2 * t.todo.length - if t.reg.isSome then 1 else 0

/-- Steps that a call still has to do. -/
def CallState.steps (c : CallState T) : Nat :=
  (c.tasks.map Task.steps).sum + (c.rest.map fun p => 1 + (p.map fun l => 2 * l.length).sum).sum

/-- Steps that all calls still have to do. -/
def ConState.steps (s : ConState T) : Nat := (s.calls.map CallState.steps).sum

theorem conStep_steps {s s' : ConState T} (h : ConStep offsets s s') : s'.steps < s.steps := by
  cases h with
  | @load i k a c o l x hc ha ht hx =>
    refine sum_set_lt _ hc ?_
    have := sum_set_lt Task.steps (y := ⟨o :: l, some x⟩) ht (by simp [Task.steps])
    simp only [CallState.steps]
    exact Nat.add_lt_add_right this _
  | @store i k a c o l x hc ha ht =>
    refine sum_set_lt _ hc ?_
    have := sum_set_lt Task.steps (y := ⟨l, none⟩) ht (by simp [Task.steps]; omega)
    simp only [CallState.steps]
    exact Nat.add_lt_add_right this _
  | next hc hf hr =>
    refine sum_set_lt _ hc ?_
    simp only [CallState.steps, hr, List.map_map, List.map_cons, List.sum_cons]
    have : (Task.steps ∘ fun l : List (AddOp T) => (⟨l, none⟩ : Task T)) = fun l => 2 * l.length := by
      funext l
      simp [Task.steps]
    rw [this]
    omega

/-- A call that has not returned can take a step, whatever the other calls do. -/
theorem con_progress (hs : SeparateParts offsets sizes mem.length)
    (hin : ∀ (i n : Nat) (p : Phases T), plans[i]? = some p → sizes[i]? = some n → p.Inside n)
    (hl : plans.length = offsets.length) {s : ConState T} (inv : ConInv offsets sizes plans mem s) {i : Nat} {c : CallState T}
    (hc : s.calls[i]? = some c) (hr : ¬ c.Returned) :
    ∃ s', ConStep offsets s s' ∧ ∀ j, j ≠ i → s'.calls[j]? = s.calls[j]? := by
  have h1 := (List.getElem?_eq_some_iff.mp hc).1
  have h2 : i < plans.length := by rw [← inv.calls]; exact h1
  have h3 : i < offsets.length := by omega
  have h4 : i < sizes.length := by rw [← hs.length]; exact h3
  have hp := List.getElem?_eq_getElem h2
  have ha := List.getElem?_eq_getElem h3
  have hn := List.getElem?_eq_getElem h4
  by_cases hf : ∀ t ∈ c.tasks, t.todo = []
  · cases hrest : c.rest with
    | nil => exact absurd ⟨hf, hrest⟩ hr
    | cons p ps => exact ⟨_, .next hc hf hrest, fun j hj => List.getElem?_set_ne fun e => hj e.symm⟩
  · push Not at hf
    obtain ⟨t, ht, hne⟩ := hf
    obtain ⟨k, hk⟩ := List.getElem?_of_mem ht
    obtain ⟨todo, reg⟩ := t
    cases todo with
    | nil => exact absurd rfl hne
    | cons o l =>
      cases reg with
      | none =>
        have hlt := (inv.call i c _ _ _ hc hp ha hn).current (hin i _ _ hp hn) _ ht o (by simp)
        have hins := hs.inside i _ _ ha hn
        have : offsets[i] + o.addr < s.mem.length := by rw [inv.length]; omega
        exact ⟨_, .load hc ha hk (List.getElem?_eq_getElem this), fun j hj => List.getElem?_set_ne fun e => hj e.symm⟩
      | some x => exact ⟨_, .store hc ha hk, fun j hj => List.getElem?_set_ne fun e => hj e.symm⟩

/-! ### One task -/

theorem single_task {ops : List (AddOp T)} {m : List T} {s : ParState T} (h : ParSteps (ParState.start m [ops]) s) :
    ∃ done l reg, ops = done ++ l ∧ s = ⟨applyOps done m, [⟨l, reg⟩]⟩ ∧
      ∀ x, reg = some x → ∃ o l', l = o :: l' ∧ (applyOps done m)[o.addr]? = some x := by
  induction h with
  | refl => exact ⟨[], ops, none, rfl, rfl, by simp⟩
  | tail _ h1 ih =>
    obtain ⟨done, l, reg, h2, h3, h4⟩ := ih
    subst h3
    cases h1 with
    | @load i o l' x ht hx =>
      cases i with
      | zero =>
        simp only [List.getElem?_cons_zero, Option.some.injEq, Task.mk.injEq] at ht
        obtain ⟨rfl, rfl⟩ := ht
        exact ⟨done, o :: l', some x, h2, rfl, fun y hy => ⟨o, l', rfl, by cases hy; exact hx⟩⟩
      | succ i => simp at ht
    | @store i o l' x ht =>
      cases i with
      | zero =>
        simp only [List.getElem?_cons_zero, Option.some.injEq, Task.mk.injEq] at ht
        obtain ⟨rfl, rfl⟩ := ht
        obtain ⟨o', l'', e', hx⟩ := h4 x rfl
        cases e'
        refine ⟨done ++ [o], l', none, by rw [h2]; simp, ?_, by simp⟩
        simp only [List.set_cons_zero, ParState.mk.injEq, and_true]
        unfold applyOps at hx ⊢
        rw [List.foldl_append, List.foldl_cons, List.foldl_nil, AddOp.apply]
        simp only [hx]
      | succ i => simp at ht

theorem parRun_single {ops : List (AddOp T)} {m m' : List T} (h : ParRun [ops] m m') : m' = applyOps ops m := by
  obtain ⟨s, h1, h2, rfl⟩ := h
  obtain ⟨done, l, reg, rfl, rfl, -⟩ := single_task h1
  have := h2 ⟨l, reg⟩ (by simp)
  simp only at this
  subst this
  simp

theorem reduces_ones {α : Type} (l : List α) : Reduces (fun a b : Nat => some (a + b)) 0 (l.map fun _ => some 1) (some l.length) := by
  induction l with
  | nil => exact .identity
  | cons x l ih =>
    have := Reduces.join (.single (some 1)) ih
    simp only [Option.bind_some, List.singleton_append] at this
    rw [List.map_cons, List.length_cons, Nat.add_comm]
    exact this

theorem forPlan_run {α : Type} {body : α → Phases T → Prop} {body' : α → List T → Outcome (List T) → Prop} {l : List α}
    {p : Phases T} (h : ForPlan body l p) (hb : ∀ a ∈ l, ∀ q m m', body a q → SeqRun q m m' → body' a m (.ok m'))
    {m m' : List T} (hs : SeqRun p m m') : ForRun body' l m (.ok m') := by
  induction h generalizing m with
  | nil => cases hs; exact .nil _
  | cons h1 _ ih =>
    obtain ⟨m1, h3, h4⟩ := SeqRun.append.mp hs
    exact .cons (hb _ (by simp) _ _ _ h1 h3) (ih (fun a ha => hb a (by simp [ha])) h4)

theorem forPlan_mem {α : Type} {body : α → Phases T → Prop} {l : List α} {p : Phases T} (h : ForPlan body l p)
    {s : List (List (AddOp T))} (hs : s ∈ p) : ∃ a ∈ l, ∃ q, body a q ∧ s ∈ q := by
  induction h with
  | nil => simp at hs
  | cons h1 _ ih =>
    rcases List.mem_append.mp hs with hs | hs
    · exact ⟨_, by simp, _, h1, hs⟩
    · obtain ⟨a, ha, q, hq, hsq⟩ := ih hs
      exact ⟨a, by simp [ha], q, hq, hsq⟩

theorem forRun_plan {α : Type} {body : α → Phases T → Prop} {body' : α → List T → Outcome (List T) → Prop} {l : List α}
    (hb : ∀ a ∈ l, ∀ m m', body' a m (.ok m') → ∃ q, body a q) {m m' : List T} (h : ForRun body' l m (.ok m')) :
    ∃ p, ForPlan body l p := by
  generalize e : Outcome.ok m' = o at h
  induction h with
  | nil => exact ⟨[], .nil⟩
  | cons h1 _ ih =>
    obtain ⟨q, hq⟩ := hb _ (by simp) _ _ h1
    obtain ⟨p, hp⟩ := ih (fun a ha => hb a (by simp [ha])) e
    exact ⟨q ++ p, .cons hq hp⟩
  | panic => cases e

end

/-! ### Plans and runs -/

section
variable {R T : Type} [Zero R] [Mul R] [Zero T] [Add T] [Mul T]
  {env : Env R T} {asm : Assembler R T} {trial test : Space R T} {famT famR : CellType → ElementDofs}

theorem plan_run (ht : SerialSpace test.fs famT) (hr : SerialSpace trial.fs famR) {p : Phases T}
    (h : CallPlan env asm trial test p) {m m' : List T} (hm : m.length = test.fs.globalSize * trial.fs.globalSize)
    (hs : SeqRun p m m') (hlen : ∀ m1 m2 q, SeqRun (T := T) q m1 m2 → m2.length = m1.length) :
    AssembleIntoMemory env asm trial test m (.ok m') := by
  obtain ⟨s1, s2, testCol, trialCol, p1, sm, h1, h2, h3, h4, rfl⟩ := h
  obtain ⟨m1, h5, h6⟩ := SeqRun.append.mp hs
  unfold AssembleIntoMemory
  rw [if_neg (by simpa using hm), if_neg (by simp [s1, s2]), h1, h2]
  simp only
  refine ⟨.ok m1, ?_, ?_⟩
  · unfold AssembleNonsingularPart
    rw [if_neg (by simp [s1, s2]), if_neg (by simp)]
    refine forPlan_run h3 ?_ h5
    intro tt _ q n n' hq hn
    refine forPlan_run hq ?_ hn
    rintro rt _ q n n' ⟨rule, tcs, rcs, e1, e2, e3, hq⟩ hn
    unfold TypePairRun
    rw [e1, e2, e3]
    refine forPlan_run hq ?_ hn
    intro testC _ q n n' hq hn
    refine forPlan_run hq ?_ hn
    rintro trialC _ q n n' ⟨tasks, ts, e4, e5, rfl⟩ hn
    cases hn with
    | cons hp hnil =>
      cases hnil
      refine ⟨tasks, e4, ?_⟩
      unfold SectionRun
      rw [e5]
      exact ⟨_, _, hp, reduces_ones ts, by simp⟩
  · refine ⟨some sm, h4, ?_⟩
    cases h6 with
    | cons hp hnil =>
      cases hnil
      have hin := assembleSingularPart_inside ht.index_lt hr.index_lt h4
      simp only
      rw [addTriplets_eq (m := trial.fs.globalSize) _ _ _ (by rw [hlen _ _ _ h5, hm]), parRun_single hp]
      · rfl
      · intro x hx
        have hx := (List.of_mem_zip hx).1
        exact ⟨hin.1 _ (List.of_mem_zip hx).1, hin.2 _ (List.of_mem_zip hx).2⟩

theorem seqRun_length {p : Phases T} {m m' : List T} (h : SeqRun p m m') : m'.length = m.length := by
  have hpar : ∀ {s s' : ParState T}, ParSteps s s' → s'.mem.length = s.mem.length := by
    intro s s' h
    induction h with
    | refl => rfl
    | tail _ h1 ih =>
      cases h1 with
      | load _ _ => exact ih
      | store _ => simpa using ih
  induction h with
  | nil => rfl
  | cons h1 _ ih =>
    obtain ⟨s, h2, -, rfl⟩ := h1
    rw [ih, hpar h2]
    rfl

theorem plan_inside (ht : SerialSpace test.fs famT) (hr : SerialSpace trial.fs famR) {p : Phases T}
    (h : CallPlan env asm trial test p) :
    p.Inside (test.fs.globalSize * trial.fs.globalSize) ∧
    ∀ s ∈ p, ∀ (k l : Nat) (a b : List (AddOp T)), k ≠ l → s[k]? = some a → s[l]? = some b → ∀ x ∈ a, ∀ y ∈ b, x.addr ≠ y.addr := by
  obtain ⟨s1, s2, testCol, trialCol, p1, sm, h1, h2, h3, h4, rfl⟩ := h
  have key : ∀ s ∈ p1, (s.flatten.map AddOp.addr).Nodup ∧ ∀ o ∈ s.flatten, o.addr < test.fs.globalSize * trial.fs.globalSize := by
    intro s hs
    obtain ⟨tt, _, q, hq, hs⟩ := forPlan_mem h3 hs
    obtain ⟨rt, _, q, ⟨rule, tcs, rcs, e1, e2, e3, hq⟩, hs⟩ := forPlan_mem hq hs
    obtain ⟨testC, hT, q, hq, hs⟩ := forPlan_mem hq hs
    obtain ⟨trialC, hR, q, ⟨tasks, ts, e4, e5, rfl⟩, hs⟩ := forPlan_mem hq hs
    obtain rfl := List.mem_singleton.mp hs
    exact section_safe (ht.colourClass h1 e2 hT).1 (hr.colourClass h2 e3 hR).1 e4 e5
  constructor
  · intro s hs t htt o ho
    rcases List.mem_append.mp hs with hs | hs
    · exact (key s hs).2 o (List.mem_flatten.mpr ⟨t, htt, ho⟩)
    · obtain rfl := List.mem_singleton.mp hs
      obtain rfl := List.mem_singleton.mp htt
      obtain ⟨x, hx, rfl⟩ := List.mem_map.mp ho
      have hin := assembleSingularPart_inside ht.index_lt hr.index_lt h4
      have hx := (List.of_mem_zip hx).1
      exact addr_lt (hin.1 _ (List.of_mem_zip hx).1) (hin.2 _ (List.of_mem_zip hx).2)
  · intro s hs k l a b hkl ha hb x hx y hy
    rcases List.mem_append.mp hs with hs | hs
    · exact addr_ne (key s hs).1 ha hb hkl hx hy
    · obtain rfl := List.mem_singleton.mp hs
      have h1 := (List.getElem?_eq_some_iff.mp ha).1
      have h2 := (List.getElem?_eq_some_iff.mp hb).1
      simp at h1 h2
      omega

theorem plan_of_run {m m' : List T} (h : AssembleIntoMemory env asm trial test m (.ok m')) :
    ∃ p, CallPlan env asm trial test p := by
  unfold AssembleIntoMemory at h
  split at h
  · cases h
  split at h
  · cases h
  rename_i hser
  simp only [not_or, Bool.not_eq_false] at hser
  cases h1 : test.fs.cellColouring with
  | none => simp [h1] at h
  | some testCol =>
    cases h2 : trial.fs.cellColouring with
    | none => simp [h1, h2] at h
    | some trialCol =>
      simp only [h1, h2] at h
      obtain ⟨o1, h3, h4⟩ := h
      cases o1 with
      | panicked x => cases h4
      | ok m1 =>
        obtain ⟨sp, h5, h6⟩ := h4
        cases sp with
        | none => cases h6
        | some sm =>
          unfold AssembleNonsingularPart at h3
          rw [if_neg (by simp [hser]), if_neg (by simp)] at h3
          obtain ⟨p1, hp1⟩ : ∃ p1, ForPlan (fun tt => ForPlan (fun rt =>
              TypePairPlan env asm (test.fs.globalSize, trial.fs.globalSize) trial test trialCol testCol tt rt)
              (trial.fs.grid.entityTypes 2)) (test.fs.grid.entityTypes 2) p1 := by
            refine forRun_plan ?_ h3
            intro tt _ m m' h
            refine forRun_plan ?_ h
            intro rt _ m m' h
            unfold TypePairRun at h
            split at h
            · rename_i q tcs rcs e1 e2 e3
              obtain ⟨p, hp⟩ : ∃ p, ForPlan (fun testC => ForPlan (fun trialC => ColourPairPlan env asm
                  (test.fs.globalSize, trial.fs.globalSize) trial test tt rt q testC trialC) rcs) tcs p := by
                refine forRun_plan ?_ h
                intro testC _ m m' h
                refine forRun_plan ?_ h
                rintro trialC _ m m' ⟨tasks, e4, h⟩
                unfold SectionRun at h
                split at h
                · rename_i ts e5
                  exact ⟨[ts], tasks, ts, e4, e5, rfl⟩
                · obtain ⟨_, _, h⟩ := h
                  cases h
              exact ⟨p, q, tcs, rcs, e1, e2, e3, hp⟩
            · cases h
          exact ⟨_, hser.1, hser.2, testCol, trialCol, p1, sm, h1, h2, hp1, h5, rfl⟩

end
end Bempp
