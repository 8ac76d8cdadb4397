import Verif.Model.Parallel
import Verif.Lemmas.ListExtra
import Mathlib.Data.List.Perm.Basic
/-
Parallel sections in which every address is written at most once.
-/
namespace Bempp

variable {T : Type} [Add T]

/-- `mem'` is `mem` with every operation of `ops` applied once to the original value. -/
structure Applied (ops : List (AddOp T)) (mem mem' : List T) : Prop where
  length : mem'.length = mem.length
  hit : ∀ o ∈ ops, mem'[o.addr]? = (mem[o.addr]?).map (· + o.val)
  miss : ∀ a, (∀ o ∈ ops, o.addr ≠ a) → mem'[a]? = mem[a]?

theorem Applied.unique {ops : List (AddOp T)} {mem m1 m2 : List T} (h1 : Applied ops mem m1)
    (h2 : Applied ops mem m2) : m1 = m2 := by
  apply List.ext_getElem?
  intro a
  by_cases h : ∃ o ∈ ops, o.addr = a
  · obtain ⟨o, ho, rfl⟩ := h
    rw [h1.hit o ho, h2.hit o ho]
  · have h' : ∀ o ∈ ops, o.addr ≠ a := fun o ho he => h ⟨o, ho, he⟩
    rw [h1.miss a h', h2.miss a h']

theorem Applied.perm {ops ops' : List (AddOp T)} {mem m : List T} (hp : ops.Perm ops')
    (h : Applied ops mem m) : Applied ops' mem m where
  length := h.length
  hit := fun o ho => h.hit o (hp.mem_iff.mpr ho)
  miss := fun a ha => h.miss a fun o ho => ha o (hp.mem_iff.mp ho)

/-- Apply one operation (outside the buffer: no effect). -/
def AddOp.apply (mem : List T) (o : AddOp T) : List T :=
  match mem[o.addr]? with
  | some x => mem.set o.addr (x + o.val)
  | none => mem

/-- Apply operations one after the other. -/
def applyOps (ops : List (AddOp T)) (mem : List T) : List T := ops.foldl AddOp.apply mem

omit [Add T] in
theorem AddOp.apply_length [Add T] (mem : List T) (o : AddOp T) : (o.apply mem).length = mem.length := by
  unfold AddOp.apply
  split <;> simp

theorem AddOp.apply_get (mem : List T) (o : AddOp T) (a : Nat) :
    (o.apply mem)[a]? = if a = o.addr then (mem[a]?).map (· + o.val) else mem[a]? := by
  unfold AddOp.apply
  by_cases h : a = o.addr
  · subst h
    rw [if_pos rfl]
    cases hm : mem[o.addr]? with
    | none => simp [hm]
    | some x =>
      simp only [Option.map_some]
      rw [List.getElem?_set_self (List.getElem?_eq_some_iff.mp hm).1]
  · rw [if_neg h]
    split
    · rw [List.getElem?_set_ne (fun h' => h h'.symm)]
    · rfl

theorem applyOps_applied (ops : List (AddOp T)) (mem : List T)
    (hn : (ops.map AddOp.addr).Nodup) : Applied ops mem (applyOps ops mem) := by
  induction ops generalizing mem with
  | nil => exact ⟨rfl, by simp, fun _ _ => rfl⟩
  | cons o ops ih =>
    simp only [List.map_cons, List.nodup_cons, List.mem_map, not_exists, not_and] at hn
    have h := ih (o.apply mem) hn.2
    refine ⟨by simpa [applyOps, AddOp.apply_length] using h.length, ?_, ?_⟩
    · intro o' ho'
      rcases List.mem_cons.mp ho' with rfl | ho'
      · have := h.miss o'.addr (fun x hx => hn.1 x hx)
        simp only [applyOps, List.foldl_cons] at this ⊢
        rw [this, AddOp.apply_get, if_pos rfl]
      · have := h.hit o' ho'
        simp only [applyOps, List.foldl_cons] at this ⊢
        rw [this, AddOp.apply_get, if_neg (hn.1 o' ho')]
    · intro a ha
      have := h.miss a (fun x hx => ha x (List.mem_cons_of_mem _ hx))
      simp only [applyOps, List.foldl_cons] at this ⊢
      rw [this, AddOp.apply_get, if_neg (fun h => ha o (List.mem_cons_self ..) h.symm)]

/-- The invariant of a parallel section: `done i` is what task `i` has completed. -/
structure ParInv (tasks : List (List (AddOp T))) (mem : List T) (s : ParState T)
    (done : Nat → List (AddOp T)) : Prop where
  length : s.mem.length = mem.length
  num : s.tasks.length = tasks.length
  split : ∀ (i : Nat) (t : Task T), s.tasks[i]? = some t → tasks[i]? = some (done i ++ t.todo)
  reg : ∀ (i : Nat) (t : Task T) (x : T), s.tasks[i]? = some t → t.reg = some x →
    ∃ o l, t.todo = o :: l ∧ mem[o.addr]? = some x
  hit : ∀ i, i < tasks.length → ∀ o ∈ done i, s.mem[o.addr]? = (mem[o.addr]?).map (· + o.val)
  miss : ∀ a, (∀ i, i < tasks.length → ∀ o ∈ done i, o.addr ≠ a) → s.mem[a]? = mem[a]?

omit [Add T] in
/-- In a list of lists without repeated addresses, operations at different places have different
addresses. -/
theorem addr_ne {tasks : List (List (AddOp T))} (hn : (tasks.flatten.map AddOp.addr).Nodup)
    {i j : Nat} {l l' : List (AddOp T)} (hi : tasks[i]? = some l) (hj : tasks[j]? = some l')
    (hij : i ≠ j) {o o' : AddOp T} (ho : o ∈ l) (ho' : o' ∈ l') : o.addr ≠ o'.addr := by
  rw [List.map_flatten, List.nodup_flatten] at hn
  have hp := List.pairwise_map.mp hn.2
  have hp := List.pairwise_iff_getElem.mp hp
  obtain ⟨hil, rfl⟩ := List.getElem?_eq_some_iff.mp hi
  obtain ⟨hjl, rfl⟩ := List.getElem?_eq_some_iff.mp hj
  have key : ∀ i j (hi : i < tasks.length) (hj : j < tasks.length), i < j →
      ∀ o ∈ tasks[i], ∀ o' ∈ tasks[j], o.addr ≠ o'.addr := by
    intro i j hi hj hij o ho o' ho' he
    exact (hp i j hi hj hij) (List.mem_map_of_mem ho) (he ▸ List.mem_map_of_mem ho')
  rcases Nat.lt_or_gt_of_ne hij with h | h
  · exact key i j hil hjl h o ho o' ho'
  · exact fun he => key j i hjl hil h o' ho' o ho he.symm

omit [Add T] in
theorem nodup_task {tasks : List (List (AddOp T))} (hn : (tasks.flatten.map AddOp.addr).Nodup)
    {i : Nat} {l : List (AddOp T)} (hi : tasks[i]? = some l) : (l.map AddOp.addr).Nodup := by
  rw [List.map_flatten, List.nodup_flatten] at hn
  exact hn.1 _ (List.mem_map_of_mem (List.mem_of_getElem? hi))

theorem par_step_inv {tasks : List (List (AddOp T))} {mem : List T}
    (hn : (tasks.flatten.map AddOp.addr).Nodup) {s s' : ParState T} {done : Nat → List (AddOp T)}
    (inv : ParInv tasks mem s done) (h : ParStep s s') : ∃ done', ParInv tasks mem s' done' := by
  -- the next operation of a task has an address that nobody has written
  have fresh : ∀ (i : Nat) (t : Task T) (o : AddOp T) (l : List (AddOp T)), s.tasks[i]? = some t →
      t.todo = o :: l → ∀ j, j < tasks.length → ∀ o' ∈ done j, o'.addr ≠ o.addr := by
    intro i t o l hi hto j hj o' ho'
    have hsi := inv.split i t hi
    by_cases hij : j = i
    · subst hij
      have hnd := nodup_task hn hsi
      rw [hto, List.map_append, List.nodup_append] at hnd
      exact hnd.2.2 _ (List.mem_map_of_mem ho') _ (by simp)
    · have hjt : j < s.tasks.length := by rw [inv.num]; exact hj
      have hsj := inv.split j s.tasks[j] (by simp [hjt])
      exact addr_ne hn hsj hsi hij (List.mem_append_left _ ho') (by rw [hto]; simp)
  cases h with
  | @load i o l x hi hx =>
    refine ⟨done, inv.length, by simpa using inv.num, ?_, ?_, inv.hit, inv.miss⟩
    · intro j t hj
      simp only at hj
      rw [List.getElem?_set] at hj
      split at hj
      · rename_i hij
        subst hij
        split at hj
        · cases hj
          simpa using inv.split i _ hi
        · cases hj
      · exact inv.split j t hj
    · intro j t y hj hr
      simp only at hj
      rw [List.getElem?_set] at hj
      split at hj
      · rename_i hij
        subst hij
        split at hj
        · cases hj
          simp only [Option.some.injEq] at hr
          subst hr
          refine ⟨o, l, rfl, ?_⟩
          rw [← inv.miss o.addr (fresh i _ o l hi rfl)]
          exact hx
        · cases hj
      · exact inv.reg j t y hj hr
  | @store i o l x hi =>
    obtain ⟨o', l', heq, hmx⟩ := inv.reg i _ x hi rfl
    simp only [List.cons.injEq] at heq
    obtain ⟨rfl, rfl⟩ := heq
    have hfr := fresh i _ o l hi rfl
    have hlt : i < tasks.length := by
      rw [← inv.num]; exact (List.getElem?_eq_some_iff.mp hi).1
    have hal : o.addr < s.mem.length := by
      rw [inv.length]; exact (List.getElem?_eq_some_iff.mp hmx).1
    refine ⟨fun j => if j = i then done i ++ [o] else done j, by simpa using inv.length,
      by simpa using inv.num, ?_, ?_, ?_, ?_⟩
    · intro j t hj
      simp only at hj
      rw [List.getElem?_set] at hj
      split at hj
      · rename_i hij
        subst hij
        split at hj
        · cases hj
          simpa using inv.split i _ hi
        · cases hj
      · rename_i hij
        rw [if_neg (fun h => hij h.symm)]
        exact inv.split j t hj
    · intro j t y hj hr
      simp only at hj
      rw [List.getElem?_set] at hj
      split at hj
      · split at hj
        · cases hj
          simp at hr
        · cases hj
      · exact inv.reg j t y hj hr
    · intro j hj o' ho'
      have hcases : o' = o ∨ ∃ j, j < tasks.length ∧ o' ∈ done j := by
        by_cases hji : j = i
        · subst hji
          simp only [if_true, List.mem_append, List.mem_singleton] at ho'
          rcases ho' with h | h
          · exact Or.inr ⟨_, hj, h⟩
          · exact Or.inl h
        · rw [if_neg hji] at ho'
          exact Or.inr ⟨j, hj, ho'⟩
      rcases hcases with rfl | ⟨j, hj, ho'⟩
      · simp only
        rw [List.getElem?_set_self hal, hmx]
        rfl
      · simp only
        rw [List.getElem?_set_ne (fun h => hfr j hj o' ho' h.symm)]
        exact inv.hit j hj o' ho'
    · intro a ha
      have h1 : o.addr ≠ a := ha i hlt o (by simp)
      simp only
      rw [List.getElem?_set_ne h1]
      apply inv.miss
      intro j hj o' ho'
      by_cases hji : j = i
      · subst hji
        exact ha j hj o' (by simp [ho'])
      · exact ha j hj o' (by rw [if_neg hji]; exact ho')

theorem par_start_inv (tasks : List (List (AddOp T))) (mem : List T) :
    ParInv tasks mem (ParState.start mem tasks) fun _ => [] where
  length := rfl
  num := by simp [ParState.start]
  split := by
    intro i t h
    simp only [ParState.start, List.getElem?_map, Option.map_eq_some_iff] at h
    obtain ⟨l, hl, rfl⟩ := h
    simpa using hl
  reg := by
    intro i t x h hr
    simp only [ParState.start, List.getElem?_map, Option.map_eq_some_iff] at h
    obtain ⟨l, hl, rfl⟩ := h
    simp at hr
  hit := by intro i _ o ho; simp at ho
  miss := by intro a _; rfl

theorem par_steps_inv {tasks : List (List (AddOp T))} {mem : List T}
    (hn : (tasks.flatten.map AddOp.addr).Nodup) {s : ParState T}
    (h : ParSteps (ParState.start mem tasks) s) : ∃ done, ParInv tasks mem s done := by
  generalize hs0 : ParState.start mem tasks = s0 at h
  induction h with
  | refl => subst hs0; exact ⟨_, par_start_inv tasks mem⟩
  | tail _ hstep ih =>
    obtain ⟨d, hd⟩ := ih
    exact par_step_inv hn hd hstep

/-- Every complete run of a section without repeated addresses gives the same memory. -/
theorem ParRun.applied {tasks : List (List (AddOp T))} {mem mem' : List T}
    (hn : (tasks.flatten.map AddOp.addr).Nodup) (h : ParRun tasks mem mem') :
    Applied tasks.flatten mem mem' := by
  obtain ⟨s, hs, hfin, rfl⟩ := h
  obtain ⟨done, inv⟩ := par_steps_inv hn hs
  have hdone : ∀ i, i < tasks.length → tasks[i]? = some (done i) := by
    intro i hi
    have hi' : i < s.tasks.length := by rw [inv.num]; exact hi
    have := inv.split i s.tasks[i] (by simp [hi'])
    rw [hfin _ (List.getElem_mem hi')] at this
    simpa using this
  refine ⟨inv.length, ?_, ?_⟩
  · intro o ho
    obtain ⟨l, hl, hol⟩ := List.mem_flatten.mp ho
    obtain ⟨i, hi⟩ := List.getElem?_of_mem hl
    have hil := (List.getElem?_eq_some_iff.mp hi).1
    have := hdone i hil
    rw [hi] at this
    cases this
    exact inv.hit i hil o hol
  · intro a ha
    apply inv.miss
    intro i hi o ho
    exact ha o (List.mem_flatten.mpr ⟨_, List.mem_of_getElem? (hdone i hi), ho⟩)

/-- Work left: two steps for each operation, one if its load has happened. -/
def ParState.work (s : ParState T) : Nat :=
  (s.tasks.map fun t => 2 * t.todo.length - (if t.reg.isSome then 1 else 0)).sum

omit [Add T] in
theorem sum_map_set {α : Type} (f : α → Nat) (l : List α) (i : Nat) (a b : α) (h : l[i]? = some a) :
    ((l.set i b).map f).sum + f a = (l.map f).sum + f b := by
  induction l generalizing i with
  | nil => simp at h
  | cons x l ih =>
    cases i with
    | zero =>
      simp at h
      subst h
      simp
      omega
    | succ i =>
      simp at h
      have := ih i h
      simp only [List.set_cons_succ, List.map_cons, List.sum_cons]
      omega

/-- Every step does part of the work; so no execution of a section runs forever. -/
theorem par_step_work {s s' : ParState T} (h : ParStep s s') : s'.work < s.work := by
  cases h with
  | @load i o l x hi hx =>
    have := sum_map_set (fun t : Task T => 2 * t.todo.length - (if t.reg.isSome then 1 else 0)) s.tasks i
      _ ⟨o :: l, some x⟩ hi
    simp only [ParState.work]
    simp only [List.length_cons, Option.isSome_some, Option.isSome_none, if_true, Bool.false_eq_true, if_false] at this
    omega
  | @store i o l x hi =>
    have := sum_map_set (fun t : Task T => 2 * t.todo.length - (if t.reg.isSome then 1 else 0)) s.tasks i
      _ ⟨l, none⟩ hi
    simp only [ParState.work]
    simp only [List.length_cons, Option.isSome_some, Option.isSome_none, if_true, Bool.false_eq_true, if_false] at this
    omega

/-- A reachable state of a section whose addresses are in the buffer is finished or can step. -/
theorem par_progress {tasks : List (List (AddOp T))} {mem : List T}
    (hn : (tasks.flatten.map AddOp.addr).Nodup) (hb : ∀ o ∈ tasks.flatten, o.addr < mem.length)
    {s : ParState T} (h : ParSteps (ParState.start mem tasks) s) :
    s.Finished ∨ ∃ s', ParStep s s' := by
  obtain ⟨done, inv⟩ := par_steps_inv hn h
  by_cases hf : s.Finished
  · exact Or.inl hf
  · right
    simp only [ParState.Finished, not_forall] at hf
    obtain ⟨t, ht, hto⟩ := hf
    obtain ⟨i, hi⟩ := List.getElem?_of_mem ht
    obtain ⟨todo, reg⟩ := t
    cases todo with
    | nil => simp at hto
    | cons o l =>
      cases reg with
      | none =>
        have hsp := inv.split i _ hi
        have : o.addr < s.mem.length := by
          rw [inv.length]
          apply hb
          exact List.mem_flatten.mpr ⟨_, List.mem_of_getElem? hsp, by simp⟩
        exact ⟨_, .load hi (List.getElem?_eq_getElem this)⟩
      | some x => exact ⟨_, .store hi⟩

theorem par_reaches_end {tasks : List (List (AddOp T))} {mem : List T}
    (hn : (tasks.flatten.map AddOp.addr).Nodup) (hb : ∀ o ∈ tasks.flatten, o.addr < mem.length)
    {s : ParState T} (h : ParSteps (ParState.start mem tasks) s) :
    ∃ s', ParSteps (ParState.start mem tasks) s' ∧ s'.Finished := by
  generalize hw : s.work = w
  induction w using Nat.strongRecOn generalizing s with
  | _ w ih =>
    rcases par_progress hn hb h with hf | ⟨s', hs'⟩
    · exact ⟨s, h, hf⟩
    · exact ih _ (hw ▸ par_step_work hs') (.tail h hs') rfl

theorem ParRun.exists {tasks : List (List (AddOp T))} {mem : List T}
    (hn : (tasks.flatten.map AddOp.addr).Nodup) (hb : ∀ o ∈ tasks.flatten, o.addr < mem.length) :
    ∃ mem', ParRun tasks mem mem' := by
  obtain ⟨s, hs, hf⟩ := par_reaches_end hn hb (.refl _)
  exact ⟨s.mem, s, hs, hf, rfl⟩

/-- For a section in which no task panics, no address occurs twice and all are in the buffer, exactly
one outcome is possible. -/
theorem sectionRun_iff {tasks : List (Option (List (AddOp T)))} {ts : List (List (AddOp T))}
    (hts : tasks.mapM id = some ts) {mem : List T}
    (hn : (ts.flatten.map AddOp.addr).Nodup) (hb : ∀ o ∈ ts.flatten, o.addr < mem.length)
    (o : Outcome (List T)) :
    SectionRun tasks mem o ↔ o = .ok (applyOps ts.flatten mem) := by
  have hsum : ∀ (l : List (Option Nat)) (r : Option Nat),
      Reduces (fun a b => some (a + b)) 0 l r → (∀ x ∈ l, x = some 1) → r = some l.length := by
    intro l r h
    induction h with
    | identity => intro _; rfl
    | single x => intro h; simpa using h x (by simp)
    | join _ _ ih1 ih2 =>
      intro h
      rw [ih1 fun x hx => h x (List.mem_append_left _ hx),
        ih2 fun x hx => h x (List.mem_append_right _ hx)]
      simp
  have hred : ∀ n : Nat, Reduces (fun a b : Nat => some (a + b)) 0 (List.replicate n (some 1)) (some n) := by
    intro n
    induction n with
    | zero => exact .identity
    | succ n ih =>
      have := Reduces.join (op := fun a b : Nat => some (a + b)) (e := 0) ih (.single (some 1))
      simpa [← List.replicate_succ'] using this
  unfold SectionRun
  rw [hts]
  simp only
  constructor
  · rintro ⟨mem', r, hr, hred, rfl⟩
    have := hsum _ _ hred (by simp)
    simp at this
    subst this
    rw [if_pos rfl]
    rw [(hr.applied hn).unique (applyOps_applied _ mem hn)]
  · rintro rfl
    obtain ⟨mem', hr⟩ := ParRun.exists hn hb
    refine ⟨mem', ts.length, hr, ?_, ?_⟩
    · simpa using hred ts.length
    · rw [if_pos rfl, (hr.applied hn).unique (applyOps_applied _ mem hn)]

/-- The result of a section depends only on the operations, not on how they are grouped. -/
theorem applyOps_perm {ops ops' : List (AddOp T)} (mem : List T) (hp : ops.Perm ops')
    (hn : (ops.map AddOp.addr).Nodup) : applyOps ops mem = applyOps ops' mem :=
  ((applyOps_applied ops mem hn).perm hp).unique
    (applyOps_applied ops' mem ((hp.map _).nodup_iff.mp hn))

theorem applyOps_length (ops : List (AddOp T)) (mem : List T) :
    (applyOps ops mem).length = mem.length := by
  induction ops generalizing mem with
  | nil => rfl
  | cons o l ih => rw [applyOps, List.foldl_cons, ← applyOps, ih, AddOp.apply_length]

theorem applyOps_append (l l' : List (AddOp T)) (mem : List T) :
    applyOps (l ++ l') mem = applyOps l' (applyOps l mem) := by
  simp [applyOps]

end Bempp
