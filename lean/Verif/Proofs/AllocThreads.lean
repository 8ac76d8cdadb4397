import Verif.Spec.AllocThreads
import Verif.Proofs.CThreads
import Verif.Proofs.Allocator
/-
Threads that use the C interface with any allocator: the calls that end do so as if they were alone.
-/
set_option linter.unusedVariables false
set_option linter.unusedSectionVars false
namespace Bempp

variable {Γ Φ R T : Type}

/-! ### Numbers of objects -/

theorem CVars.address_newest {vars : CVars} {p : Nat} (hp : p ∈ vars) : vars.address (vars.newest p) = p := by
  have h1 : vars.reverse.idxOf p < vars.reverse.length := List.idxOf_lt_length_iff.mpr (List.mem_reverse.mpr hp)
  have h2 : vars.reverse[vars.reverse.idxOf p]? = some p := by
    rw [List.getElem?_eq_getElem h1, List.getElem_idxOf h1]
  rw [List.length_reverse] at h1
  rw [List.getElem?_reverse h1] at h2
  simp [CVars.address, CVars.newest, List.getD_eq_getElem?_getD, h2]

theorem CCall.rename_back {f g : Nat → Nat} {c : CCall Γ Φ R T} (h : ∀ p ∈ c.args, g (f p) = p) : (c.rename f).rename g = c := by
  cases c with
  | free k p =>
    cases p with
    | none => rfl
    | some p => simpa [CCall.rename, CCall.args] using h
  | _ => simp_all [CCall.rename, CCall.args]

theorem madeIn_snoc (vars : CVars) (log : List (Nat × CCall Γ Φ R T × Ffi (CResult T))) (x : Nat × CCall Γ Φ R T × Ffi (CResult T)) :
    madeIn vars (log ++ [x]) = x.2.2.results.foldl CVars.after (madeIn vars log) := by
  simp [madeIn, List.flatMap_append, List.foldl_append]

theorem numbered_snoc (vars : CVars) (log : List (Nat × CCall Γ Φ R T × Ffi (CResult T)))
    (x : Nat × CCall Γ Φ R T × Ffi (CResult T)) :
    numbered vars (log ++ [x]) = numbered vars log ++ [x.2.1.rename (madeIn vars log).newest] := by
  induction log generalizing vars with
  | nil => simp [numbered, madeIn]
  | cons y l ih =>
    simp only [List.cons_append, numbered, ih]
    simp [madeIn, List.foldl_append]

/-! ### What a call sees -/

/-- The memory `g` that a call saw since it began has not changed in what the call uses. -/
structure CCall.SeenSame (c : CCall Γ Φ R T) (g h : CHeap Γ Φ T) : Prop where
  live : ∀ p ∈ c.uses h, g.live p = h.live p
  borrowed : ∀ p x, c = .setOptions p x → ∀ q e op d, g.live q = some (.assembler e op d p) ↔ h.live q = some (.assembler e op d p)

theorem CCall.SeenSame.refl {c : CCall Γ Φ R T} {h : CHeap Γ Φ T} : c.SeenSame h h :=
  ⟨fun _ _ => rfl, fun _ _ _ _ _ _ _ => Iff.rfl⟩

theorem CHeap.AllocView.agrees {c : CCall Γ Φ R T} {v h : CHeap Γ Φ T} {a : Nat} {seen : List (CHeap Γ Φ T)} (hv : v.AllocView a seen)
    (ha : h.live a = none) (hl : ∀ p ∈ c.uses h, h.live p ≠ none) (hs : ∀ g ∈ seen, c.SeenSame g h) :
    c.Agrees v { h with next := a } := by
  have hu : c.uses { h with next := a } = c.uses h := CCall.uses_congr fun _ _ => rfl
  refine ⟨hv.next, by rw [hv.next]; exact hv.free, fun p hp => ?_, fun p x hc => ?_⟩
  · rw [hu] at hp
    obtain ⟨g, hg, e⟩ := hv.old p fun h' => hl p hp (h' ▸ ha)
    rw [e, (hs g hg).live p hp]
  · constructor
    · rintro ⟨q, e, op, d, hq⟩
      by_cases hqa : q = a
      · rw [hqa, hv.free] at hq; cases hq
      obtain ⟨g, hg, eq⟩ := hv.old q hqa
      exact ⟨q, e, op, d, ((hs g hg).borrowed p x hc q e op d).mp (eq ▸ hq)⟩
    · rintro ⟨q, e, op, d, hq⟩
      change h.live q = _ at hq
      by_cases hqa : q = a
      · rw [hqa, ha] at hq; cases hq
      obtain ⟨g, hg, eq⟩ := hv.old q hqa
      exact ⟨q, e, op, d, eq ▸ ((hs g hg).borrowed p x hc q e op d).mpr hq⟩

/-- A call of another thread that is not in a race does not disturb. -/
theorem CCall.SeenSame.other {c c' : CCall Γ Φ R T} {g h h' : CHeap Γ Φ T} {a : Nat} {r : Ffi (CResult T)} (hs : c.SeenSame g h)
    (ha : h.live a = none) (hu : ∀ p ∈ c.uses h, h.live p ≠ none) (h1 : ∀ p ∈ c'.changes, p ∉ c.uses h)
    (h2 : ∀ p ∈ c.changes, p ∉ c'.uses h) (e : c'.Effect { h with next := a } h' r) : c.SeenSame g h' := by
  have hl : ∀ p ∈ c.uses h, h'.live p = h.live p := by
    intro p hp
    cases e with
    | keep => rfl
    | alloc o ho =>
      have : p ≠ a := fun h' => hu p hp (h' ▸ ha)
      simp [CHeap.alloc, this]
    | store q o hq hl ho =>
      have : p ≠ q := by rintro rfl; exact h1 _ hq hp
      simp [CHeap.store, this]
  have hu' : c.uses h' = c.uses h := CCall.uses_congr fun p hp => hl p (CCall.args_uses hp)
  refine ⟨fun p hp => ?_, fun p x hc q eq op d => ?_⟩
  · rw [hu'] at hp
    rw [hs.live p hp, hl p hp]
  · have hp : p ∈ c.changes := by rw [hc]; simp [CCall.changes]
    have hno := h2 p hp
    rw [hs.borrowed p x hc q eq op d]
    cases e with
    | keep => exact Iff.rfl
    | alloc o ho =>
      by_cases hq : q = a
      · rw [hq, ha]
        simp only [CHeap.alloc, if_true, Option.some.injEq]
        refine ⟨fun h => (by cases h), fun h => absurd (CCall.args_uses (ho p ?_)) hno⟩
        rw [h]
        simp [CObj.refs]
      · simp [CHeap.alloc, hq]
    | store q' o hq' hl' ho =>
      by_cases hq : q = q'
      · subst hq
        constructor
        · intro h3
          exact absurd (CCall.refs_uses (CCall.changes_args hq') h3 (by simp [CObj.refs])) hno
        · intro h3
          simp only [CHeap.store, if_true] at h3
          have := ho _ h3
          simp [CObj.refs] at this
      · simp [CHeap.store, hq]

section
variable [Zero T] [Add T] [Sub T] [Mul T] [Div T] [Neg T] [Zero R] [Mul R] {newSpace : Γ → Φ → Option (Space R T)}
  {kernel : DType → Kernel R T} {env : DType → Env R T} {gives : CHeap Γ Φ T → CVars → Nat → Prop} {vars₀ : CVars}

theorem CAllocRuns.snoc {h h' h'' : CHeap Γ Φ T} {vars vars' : CVars} {cs : List (CCall Γ Φ R T)} {rs : List (Ffi (CResult T))}
    {c : CCall Γ Φ R T} {r : Ffi (CResult T)} {a : Nat} (hr : CAllocRuns newSpace kernel env gives h vars cs h' vars' rs)
    (hok : ∀ x ∈ rs, ∃ y, x = .ok y) (hg : gives h' vars' a)
    (s : (c.rename vars'.address).Step newSpace kernel env { h' with next := a } h'' r) :
    CAllocRuns newSpace kernel env gives h vars (cs ++ [c]) h'' (r.results.foldl CVars.after vars') (rs ++ [r]) := by
  induction hr with
  | nil h =>
    cases r with
    | ok x => exact .returned hg s (.nil _ _)
    | _ => exact .ended hg s (by simp)
  | returned hg' st t ih => exact .returned hg' st (ih (fun x hx => hok x (by simp [hx])) hg s)
  | ended hg' st hn =>
    obtain ⟨y, hy⟩ := hok _ (List.mem_singleton_self _)
    exact absurd hy (hn y)

variable (newSpace kernel env gives vars₀) in
/-- The calls that ended are a sequence of calls, and the calls that go on see nothing else. -/
structure CProcess.AllocGood (h₀ : CHeap Γ Φ T) (progs : List (List (CResult T) → Option (CCall Γ Φ R T))) (s : CProcess Γ Φ R T) :
    Prop where
  made : ∀ p, s.heap.live p ≠ none → p ∈ madeIn vars₀ s.log
  seen : ∀ (i : Nat) (t : CThread Γ Φ R T) c seen, s.threads[i]? = some t → t.current = some (c, seen) → ∀ g ∈ seen, c.SeenSame g s.heap
  runs : CAllocRuns newSpace kernel env gives h₀ vars₀ (numbered vars₀ s.log) s.heap (madeIn vars₀ s.log) (s.log.map fun x => x.2.2)
  alive : s.ended = false → ∀ x ∈ s.log, ∃ y, x.2.2 = .ok y
  progs : s.threads.map (fun t => t.prog) = progs
  done : ∀ (i : Nat) (t : CThread Γ Φ R T), s.threads[i]? = some t → t.done = (s.logOf i).flatMap fun y => y.2.results
  follows : ∀ (i : Nat) (t : CThread Γ Φ R T), s.threads[i]? = some t → FollowsProg t.prog (s.logOf i)
  current : ∀ (i : Nat) (t : CThread Γ Φ R T) c seen, s.threads[i]? = some t → t.current = some (c, seen) → t.prog t.done = some c
  numbers : ∀ x ∈ s.log, x.1 < s.threads.length
  returned : ∀ (i : Nat) (t : CThread Γ Φ R T) c seen, s.threads[i]? = some t → t.current = some (c, seen) →
    ∀ y ∈ s.logOf i, ∃ x, y.2 = .ok x

theorem CProcess.AllocGood.start {h₀ : CHeap Γ Φ T} (hv : ∀ p, h₀.live p ≠ none → p ∈ vars₀)
    (progs : List (List (CResult T) → Option (CCall Γ Φ R T))) :
    CProcess.AllocGood newSpace kernel env gives vars₀ h₀ progs (CProcess.start h₀ progs) := by
  refine ⟨hv, fun i t c seen ht hc => ?_, .nil _ _, fun _ x hx => by simp [CProcess.start] at hx, ?_, fun i t ht => ?_,
    fun i t ht k x hx => ?_, fun i t c seen ht hc => ?_, fun x hx => by simp [CProcess.start] at hx,
    fun i t c seen ht hc => by simp [CProcess.logOf, CProcess.start]⟩
  · obtain ⟨p, -, rfl⟩ := CProcess.start_thread ht
    cases hc
  · simp [CProcess.start, Function.comp_def]
  · obtain ⟨p, -, rfl⟩ := CProcess.start_thread ht
    rfl
  · simp [CProcess.logOf, CProcess.start] at hx
  · obtain ⟨p, -, rfl⟩ := CProcess.start_thread ht
    cases hc

/-- The call that ends does so as if it were alone. -/
theorem CProcess.AllocGood.alone {h₀ : CHeap Γ Φ T} {progs : List (List (CResult T) → Option (CCall Γ Φ R T))} {s : CProcess Γ Φ R T}
    (hg : CProcess.AllocGood newSpace kernel env gives vars₀ h₀ progs s) (hn : s.NoConflict) {i : Nat} {t : CThread Γ Φ R T}
    {c : CCall Γ Φ R T} {seen : List (CHeap Γ Φ T)} {a : Nat} {v v' : CHeap Γ Φ T} {r : Ffi (CResult T)}
    (thread : s.threads[i]? = some t) (current : t.current = some (c, seen)) (ha : s.heap.live a = none)
    (view : v.AllocView a seen) (call : c.Step newSpace kernel env v v' r) :
    c.Step newSpace kernel env { s.heap with next := a } (s.heap.patch v v') r :=
  call.transfer (view.agrees ha (hn.exist i t c seen thread current) (hg.seen i t c seen thread current))

theorem CProcess.AllocGood.step {h₀ : CHeap Γ Φ T} {progs : List (List (CResult T) → Option (CCall Γ Φ R T))} {s s' : CProcess Γ Φ R T}
    (ok : AllocatorOk gives) (hg : CProcess.AllocGood newSpace kernel env gives vars₀ h₀ progs s) (hn : s.NoConflict)
    (st : CProcess.AllocStep newSpace kernel env gives vars₀ s s') :
    CProcess.AllocGood newSpace kernel env gives vars₀ h₀ progs s' := by
  cases st with
  | @begins i t c running thread idle next =>
    refine ⟨hg.made, fun j u d seen hu hc => ?_, hg.runs, hg.alive, ?_, fun j u hu => ?_, fun j u hu => ?_, fun j u d seen hu hc => ?_,
      by simpa using hg.numbers, fun j u d seen hu hc y hy => ?_⟩
    · rcases threads_begun thread hu with ⟨rfl, rfl⟩ | ⟨-, hu⟩
      · cases hc
        intro g hg'
        rw [List.mem_singleton.mp hg']
        exact .refl
      · exact hg.seen j u d seen hu hc
    · exact (progs_set thread (by rfl)).trans hg.progs
    · rcases threads_begun thread hu with ⟨rfl, rfl⟩ | ⟨-, hu⟩
      · exact hg.done j t thread
      · exact hg.done j u hu
    · rcases threads_begun thread hu with ⟨rfl, rfl⟩ | ⟨-, hu⟩
      · exact hg.follows j t thread
      · exact hg.follows j u hu
    · rcases threads_begun thread hu with ⟨rfl, rfl⟩ | ⟨-, hu⟩
      · cases hc
        exact next
      · exact hg.current j u d seen hu hc
    · obtain ⟨z, hz, rfl⟩ := List.mem_map.mp hy
      exact hg.alive running z (List.mem_of_mem_filter hz)
  | @finishes i t c seen a v v' r running thread current given view call =>
    have ha := ok _ _ _ given
    have st := hg.alone hn thread current ha view call
    have ef := st.does
    have hl := hn.exist i t c seen thread current
    have hcur := hg.current i t c seen thread current
    refine ⟨fun p hp => ?_, fun j u d sn hu hc => ?_, ?_, ?_, ?_, fun j u hu => ?_, fun j u hu => ?_, fun j u d sn hu hc => ?_, ?_,
      fun j u d sn hu hc => ?_⟩
    · rw [madeIn_snoc]
      dsimp only at hp ⊢
      generalize s.heap.patch v v' = h' at ef hp
      cases ef with
      | keep hr =>
        have e : r.results.foldl CVars.after (madeIn vars₀ s.log) = madeIn vars₀ s.log := by
          cases r with
          | ok x => cases x <;> first | rfl | exact absurd rfl (hr _)
          | _ => rfl
        rw [e]
        exact hg.made p hp
      | alloc o ho =>
        simp only [Ffi.results, List.foldl, CVars.after]
        simp only [CHeap.alloc] at hp
        split at hp
        · rename_i e; simp [e]
        · exact List.mem_append_left _ (hg.made p hp)
      | store q o hq hlq ho =>
        simp only [Ffi.results, List.foldl, CVars.after]
        simp only [CHeap.store] at hp
        split at hp
        · rename_i e; exact hg.made p (e ▸ hlq)
        · exact hg.made p hp
    · rcases threads_after thread hu with ⟨rfl, rfl⟩ | ⟨hji, w, hw, rfl⟩
      · cases hc
      · obtain ⟨sn', hc', rfl⟩ := CThread.sees_current hc
        clear hc
        rename' hc' => hc
        intro g hg'
        rcases List.mem_cons.mp hg' with rfl | hg'
        · exact .refl
        · exact (hg.seen j w d sn' hw hc g hg').other ha (hn.exist j w d sn' hw hc)
            (hn.apart i j t w c d seen sn' (Ne.symm hji) thread hw current hc)
            (hn.apart j i w t d c sn' seen hji hw thread hc current) ef
    · simp only [List.map_append, List.map_cons, List.map_nil, numbered_snoc, madeIn_snoc]
      refine hg.runs.snoc (fun x hx => ?_) given ?_
      · obtain ⟨y, hy, rfl⟩ := List.mem_map.mp hx
        exact hg.alive running y hy
      · rw [CCall.rename_back fun p hp => CVars.address_newest (hg.made p (hl p (CCall.args_uses hp)))]
        exact st
    · intro he x hx
      rcases List.mem_append.mp hx with hx | hx
      · exact hg.alive running x hx
      · rw [List.mem_singleton.mp hx]
        cases r with
        | ok y => exact ⟨y, rfl⟩
        | _ => simp [Ffi.results] at he
    · rw [← hg.progs, ← progs_set (t' := { t with done := t.done ++ r.results, current := none }) thread rfl, List.map_map]
      rfl
    · rcases threads_after thread hu with ⟨rfl, rfl⟩ | ⟨hji, w, hw, rfl⟩
      · rw [logOf_self, List.flatMap_append, ← hg.done j t thread]
        simp [CThread.sees]
      · rw [logOf_other s hji]
        exact hg.done j w hw
    · rcases threads_after thread hu with ⟨rfl, rfl⟩ | ⟨hji, w, hw, rfl⟩
      · rw [logOf_self]
        exact (hg.follows j t thread).snoc (by rw [← hg.done j t thread]; exact hcur) r
      · rw [logOf_other s hji]
        exact hg.follows j w hw
    · rcases threads_after thread hu with ⟨rfl, rfl⟩ | ⟨hji, w, hw, rfl⟩
      · cases hc
      · obtain ⟨sn', hc', rfl⟩ := CThread.sees_current hc
        clear hc
        rename' hc' => hc
        exact hg.current j w d sn' hw hc
    · intro x hx
      simp only [List.length_map, List.length_set]
      rcases List.mem_append.mp hx with hx | hx
      · exact hg.numbers x hx
      · rw [List.mem_singleton.mp hx]
        exact (List.getElem?_eq_some_iff.mp thread).1
    · rcases threads_after thread hu with ⟨rfl, rfl⟩ | ⟨hji, w, hw, rfl⟩
      · cases hc
      · obtain ⟨sn', hc', rfl⟩ := CThread.sees_current hc
        rw [logOf_other s hji]
        exact hg.returned j w d sn' hw hc'

theorem CProcess.AllocClean.noConflict {s₀ s : CProcess Γ Φ R T} (h : CProcess.AllocClean newSpace kernel env gives vars₀ s₀ s) :
    s.NoConflict := by
  cases h with
  | start h => exact h
  | step _ _ hn => exact hn

theorem CProcess.AllocClean.good {h₀ : CHeap Γ Φ T} {progs : List (List (CResult T) → Option (CCall Γ Φ R T))} {s : CProcess Γ Φ R T}
    (ok : AllocatorOk gives) (hv : ∀ p, h₀.live p ≠ none → p ∈ vars₀)
    (h : CProcess.AllocClean newSpace kernel env gives vars₀ (CProcess.start h₀ progs) s) :
    CProcess.AllocGood newSpace kernel env gives vars₀ h₀ progs s := by
  induction h with
  | start _ => exact .start hv progs
  | step h st _ ih => exact ih.step ok h.noConflict st

/-! ### Tidy threads -/

theorem CCall.frees_changes {c : CCall Γ Φ R T} {p : Nat} (hp : p ∈ c.frees) : p ∈ c.changes := by
  cases c with
  | free k q => cases q <;> simp_all [CCall.changes, CCall.frees]
  | _ => simp [CCall.frees] at hp

/-- What a call does not free is still there. -/
theorem CCall.Step.keeps {c : CCall Γ Φ R T} {h h' : CHeap Γ Φ T} {r : Ffi (CResult T)} (s : c.Step newSpace kernel env h h' r)
    {p : Nat} (hp : h.live p ≠ none) (hf : p ∉ c.frees) : h'.live p ≠ none := by
  have ef := s.does
  cases ef with
  | keep => exact hp
  | alloc o ho =>
    simp only [CHeap.alloc]
    split
    · simp
    · exact hp
  | store q o hq hl ho =>
    by_cases hpq : p = q
    · subst hpq
      cases c with
      | free k x => cases x <;> simp_all [CCall.changes, CCall.frees]
      | setOptions x y =>
        obtain rfl : p = x := by simpa [CCall.changes] using hq
        change (h.store p o, Ffi.ok CResult.nothing) = CHeap.call newSpace h (.setOptions p y : CCall Γ Φ R T) at s
        simp only [CHeap.call] at s
        have e := congrArg (fun z => z.1.live p) s
        simp only [CHeap.store, if_true] at e ⊢
        rw [e]
        repeat' split
        all_goals simp_all
      | _ => simp [CCall.changes] at hq
    · simpa [CHeap.store, hpq] using hp

theorem CCall.free_no_handle {k : CKind} {x : Option Nat} {h h' : CHeap Γ Φ T} (q : Nat) :
    ¬ (CCall.free k x : CCall Γ Φ R T).Step newSpace kernel env h h' (.ok (.handle q)) := by
  intro s
  have ef := s.does
  change (h', Ffi.ok (CResult.handle q)) = CHeap.call newSpace h (.free k x : CCall Γ Φ R T) at s
  have e := congrArg (fun z => z.2) s
  cases x <;> simp only [CHeap.call] at e
  all_goals repeat' split at e
  all_goals simp_all

theorem CCall.Step.freed {c : CCall Γ Φ R T} {h h' : CHeap Γ Φ T} {x : CResult T} (s : c.Step newSpace kernel env h h' (.ok x))
    {p : Nat} (hp : p ∈ c.frees) : h'.live p = none := by
  cases c with
  | free k q =>
    cases q with
    | none => cases hp
    | some q =>
      obtain rfl : p = q := by simpa [CCall.frees] using hp
      change (h', Ffi.ok x) = CHeap.call newSpace h (.free k (some p) : CCall Γ Φ R T) at s
      simp only [CHeap.call] at s
      split at s
      · rw [(Prod.mk.inj s).1]
        simp [CHeap.store]
      · cases (Prod.mk.inj s).2
  | _ => cases hp

theorem held_snoc (l : List (CCall Γ Φ R T × Ffi (CResult T))) (c : CCall Γ Φ R T) (r : Ffi (CResult T)) :
    held (l ++ [(c, r)]) = ((held l).filter fun y => y.1 ∉ c.frees) ++ (handlesOf r.results).map fun p => (p, c.args) := by
  simp [held, List.foldl_append]

theorem FreshHandles.snoc {h : CHeap Γ Φ T} {l : List (CCall Γ Φ R T × Ffi (CResult T))} (hf : FreshHandles h l) {c : CCall Γ Φ R T}
    {r : Ffi (CResult T)} (hr : ∀ p, r = .ok (.handle p) → h.live p = none ∧ ∀ y ∈ held l, y.1 ≠ p) :
    FreshHandles h (l ++ [(c, r)]) := by
  intro k d p hx
  rcases Nat.lt_trichotomy k l.length with hk | hk | hk
  · rw [List.getElem?_append_left hk] at hx
    rw [List.take_append_of_le_length hk.le]
    exact hf k d p hx
  · subst hk
    simp only [List.getElem?_append_right le_rfl, Nat.sub_self, List.getElem?_cons_zero, Option.some.injEq, Prod.mk.injEq] at hx
    simpa using hr p hx.2
  · rw [List.getElem?_eq_none (by simp; omega)] at hx
    cases hx

/-- Each thread holds objects of its own. -/
structure CProcess.Keep (h₀ : CHeap Γ Φ T) (s : CProcess Γ Φ R T) : Prop where
  base : ∀ p, h₀.live p ≠ none → s.heap.live p = h₀.live p
  mine : ∀ (i : Nat), ∀ y ∈ held (s.logOf i), h₀.live y.1 = none ∧ s.heap.live y.1 ≠ none
  refs : ∀ (i : Nat), ∀ y ∈ held (s.logOf i), ∀ o, s.heap.live y.1 = some o → ∀ q ∈ o.refs, q ∈ y.2
  parents : ∀ (i : Nat), ∀ y ∈ held (s.logOf i), ∀ q ∈ y.2, h₀.live q ≠ none ∨ q ∈ (held (s.logOf i)).map Prod.fst
  apart : ∀ (i j : Nat), i ≠ j → ∀ y ∈ held (s.logOf i), ∀ z ∈ held (s.logOf j), y.1 ≠ z.1
  fresh : ∀ (i : Nat), FreshHandles h₀ (s.logOf i)
  all : s.ended = false → ∀ p, s.heap.live p ≠ none → h₀.live p ≠ none ∨ ∃ i, p ∈ (held (s.logOf i)).map Prod.fst

theorem CProcess.Keep.start {h₀ : CHeap Γ Φ T} (progs : List (List (CResult T) → Option (CCall Γ Φ R T))) :
    (CProcess.start h₀ progs).Keep h₀ := by
  refine ⟨fun _ _ => rfl, ?_, ?_, ?_, ?_, ?_, fun _ p hp => .inl hp⟩ <;> simp [CProcess.start, CProcess.logOf, held, FreshHandles]

theorem CProcess.AllocGood.tidy {h₀ : CHeap Γ Φ T} {progs : List (List (CResult T) → Option (CCall Γ Φ R T))} {s : CProcess Γ Φ R T}
    (hg : CProcess.AllocGood newSpace kernel env gives vars₀ h₀ progs s) (hk : s.Keep h₀) (hp : ∀ p ∈ progs, TidyThread h₀ p) {i : Nat}
    {t : CThread Γ Φ R T} {c : CCall Γ Φ R T} {seen : List (CHeap Γ Φ T)} (ht : s.threads[i]? = some t)
    (hc : t.current = some (c, seen)) :
    (∀ p ∈ c.args, h₀.live p ≠ none ∨ p ∈ (held (s.logOf i)).map Prod.fst) ∧
      ∀ p ∈ c.changes, p ∈ (held (s.logOf i)).map Prod.fst ∧ ∀ y ∈ held (s.logOf i), p ∉ y.2 := by
  refine hp t.prog ?_ (s.logOf i) c (hg.follows i t ht) (hg.returned i t c seen ht hc) (hk.fresh i) ?_
  · rw [← hg.progs]
    exact List.mem_map.mpr ⟨t, List.mem_of_getElem? ht, rfl⟩
  · rw [← hg.done i t ht]
    exact hg.current i t c seen ht hc

theorem CProcess.Keep.uses {h₀ : CHeap Γ Φ T} {s : CProcess Γ Φ R T} (hk : s.Keep h₀) (hd : h₀.NoDangling) {i : Nat} {c : CCall Γ Φ R T}
    (ha : ∀ p ∈ c.args, h₀.live p ≠ none ∨ p ∈ (held (s.logOf i)).map Prod.fst) {p : Nat} (hp : p ∈ c.uses s.heap) :
    h₀.live p ≠ none ∨ p ∈ (held (s.logOf i)).map Prod.fst := by
  rcases CCall.mem_uses.mp hp with hp | ⟨q, hq, o, ho, hr⟩
  · exact ha p hp
  · rcases ha q hq with h | h
    · rw [hk.base q h] at ho
      exact .inl (hd q o ho p hr)
    · obtain ⟨y, hy, rfl⟩ := List.mem_map.mp h
      exact hk.parents i y hy p (hk.refs i y hy o ho p hr)

theorem CProcess.Keep.there {h₀ : CHeap Γ Φ T} {s : CProcess Γ Φ R T} (hk : s.Keep h₀) {i : Nat} {p : Nat}
    (hp : h₀.live p ≠ none ∨ p ∈ (held (s.logOf i)).map Prod.fst) : s.heap.live p ≠ none := by
  rcases hp with h | h
  · rwa [hk.base p h]
  · obtain ⟨y, hy, rfl⟩ := List.mem_map.mp h
    exact (hk.mine i y hy).2

theorem CProcess.AllocGood.noConflict {h₀ : CHeap Γ Φ T} {progs : List (List (CResult T) → Option (CCall Γ Φ R T))}
    {s : CProcess Γ Φ R T} (hg : CProcess.AllocGood newSpace kernel env gives vars₀ h₀ progs s) (hk : s.Keep h₀) (hd : h₀.NoDangling)
    (hp : ∀ p ∈ progs, TidyThread h₀ p) : s.NoConflict := by
  constructor
  · intro i t c seen ht hc p hpu
    exact hk.there (hk.uses hd (hg.tidy hk hp ht hc).1 hpu)
  · intro i j t u c d seen seen' hij ht hu hc hd' p hpc hpu
    obtain ⟨y, hy, rfl⟩ := List.mem_map.mp ((hg.tidy hk hp ht hc).2 p hpc).1
    rcases hk.uses hd (hg.tidy hk hp hu hd').1 hpu with h | h
    · exact h (hk.mine i y hy).1
    · obtain ⟨z, hz, e⟩ := List.mem_map.mp h
      exact hk.apart i j hij y hy z hz e.symm

theorem CProcess.Keep.step {h₀ : CHeap Γ Φ T} {progs : List (List (CResult T) → Option (CCall Γ Φ R T))} {s s' : CProcess Γ Φ R T}
    (ok : AllocatorOk gives) (hk : s.Keep h₀) (hg : CProcess.AllocGood newSpace kernel env gives vars₀ h₀ progs s)
    (hn : s.NoConflict) (hp : ∀ p ∈ progs, TidyThread h₀ p) (st : CProcess.AllocStep newSpace kernel env gives vars₀ s s') : s'.Keep h₀ := by
  cases st with
  | @begins i t c running thread idle next => exact ⟨hk.base, hk.mine, hk.refs, hk.parents, hk.apart, hk.fresh, hk.all⟩
  | @finishes i t c seen a v v' r running thread current given view call =>
    have ha := ok _ _ _ given
    have st := hg.alone hn thread current ha view call
    have ef := st.does
    have freed : ∀ {x : CResult T} {p : Nat}, r = .ok x → p ∈ c.frees → (s.heap.patch v v').live p = none := by
      rintro x p rfl hf
      exact st.freed hf
    have keeps : ∀ {p : Nat}, s.heap.live p ≠ none → p ∉ c.frees → (s.heap.patch v v').live p ≠ none := fun hp hf => st.keeps hp hf
    have tidy := hg.tidy hk hp thread current
    generalize s.heap.patch v v' = h' at ef keeps freed ⊢
    -- the memory
    have f1 : ∀ p, p ∉ c.changes → s.heap.live p ≠ none → h'.live p = s.heap.live p := by
      intro p hpc hl
      cases ef with
      | keep => rfl
      | alloc o ho =>
        have : p ≠ a := fun e => hl (e ▸ ha)
        simp [CHeap.alloc, this]
      | store q o hq hlq ho =>
        have : p ≠ q := by rintro rfl; exact hpc hq
        simp [CHeap.store, this]
    have f2 : ∀ p o, h'.live p = some o → s.heap.live p ≠ none → ∀ q ∈ o.refs, ∃ o', s.heap.live p = some o' ∧ q ∈ o'.refs := by
      intro p o hl hold q hq
      cases ef with
      | keep => exact ⟨o, hl, hq⟩
      | alloc o' ho =>
        have : p ≠ a := fun e => hold (e ▸ ha)
        simp only [CHeap.alloc, this, if_false] at hl
        exact ⟨o, hl, hq⟩
      | store x o' hx hlx ho =>
        simp only [CHeap.store] at hl
        split at hl
        · rw [ho o hl] at hq; cases hq
        · exact ⟨o, hl, hq⟩
    have f3 : ∀ p, p ∈ handlesOf r.results → s.heap.live p = none ∧ r = .ok (.handle p) ∧ ∃ o, h'.live p = some o ∧ ∀ q ∈ o.refs, q ∈ c.args := by
      intro p hpr
      cases ef with
      | keep hr => rw [handlesOf_other hr] at hpr; cases hpr
      | alloc o ho =>
        obtain rfl : p = a := by simpa [handlesOf, Ffi.results] using hpr
        exact ⟨ha, rfl, o, by simp [CHeap.alloc], ho⟩
      | store q o hq hlq ho => simp [handlesOf, Ffi.results] at hpr
    have notOld : ∀ p ∈ c.changes, h₀.live p = none := by
      intro p hpc
      obtain ⟨y, hy, rfl⟩ := List.mem_map.mp (tidy.2 p hpc).1
      exact (hk.mine i y hy).1
    have base' : ∀ p, h₀.live p ≠ none → h'.live p = h₀.live p := by
      intro p h
      rw [← hk.base p h]
      exact f1 p (fun hpc => h (notOld p hpc)) (hk.base p h ▸ h)
    have oldNone : ∀ p, s.heap.live p = none → h₀.live p = none := by
      intro p h
      by_contra h'
      exact h' (hk.base p h' ▸ h)
    -- what each thread holds
    have foreign : ∀ j, j ≠ i → ∀ y ∈ held (s.logOf j), y.1 ∉ c.changes := by
      intro j hj y hy hyc
      obtain ⟨z, hz, e⟩ := List.mem_map.mp (tidy.2 _ hyc).1
      exact hk.apart j i hj y hy z hz e.symm
    have own : ∀ (ts : List (CThread Γ Φ R T)) (b : Bool) y,
        y ∈ held (CProcess.logOf { heap := h', threads := ts, log := s.log ++ [(i, c, r)], ended := b } i) ↔
        (y ∈ held (s.logOf i) ∧ y.1 ∉ c.frees) ∨ (y.1 ∈ handlesOf r.results ∧ y.2 = c.args) := by
      intro ts b y
      rw [logOf_self, held_snoc, List.mem_append, List.mem_filter, List.mem_map]
      refine or_congr (by simp) ⟨?_, fun h => ⟨y.1, h.1, by rw [← h.2]⟩⟩
      rintro ⟨p, hpr, rfl⟩
      exact ⟨hpr, rfl⟩
    have others : ∀ (ts : List (CThread Γ Φ R T)) (b : Bool) j, j ≠ i →
        CProcess.logOf { heap := h', threads := ts, log := s.log ++ [(i, c, r)], ended := b } j = s.logOf j :=
      fun ts b j hj => logOf_other s hj _ _ _ _ _
    have self : ∀ (ts : List (CThread Γ Φ R T)) (b : Bool),
        CProcess.logOf { heap := h', threads := ts, log := s.log ++ [(i, c, r)], ended := b } i = s.logOf i ++ [(c, r)] :=
      fun ts b => logOf_self s i c r h' ts b
    have stays : ∀ y ∈ held (s.logOf i), y.1 ∉ c.frees → ∀ q ∈ y.2,
        h₀.live q ≠ none ∨ ∃ z ∈ held (s.logOf i), z.1 ∉ c.frees ∧ z.1 = q := by
      intro y hy _ q hq
      rcases hk.parents i y hy q hq with h | h
      · exact .inl h
      · obtain ⟨z, hz, rfl⟩ := List.mem_map.mp h
        exact .inr ⟨z, hz, fun hf => (tidy.2 _ (CCall.frees_changes hf)).2 y hy hq, rfl⟩
    generalize (s.threads.set i { t with done := t.done ++ r.results, current := none }).map (CThread.sees h') = ts
    have alive : r.results.isEmpty = false → ∃ x, r = .ok x := by
      cases r with
      | ok x => exact fun _ => ⟨x, rfl⟩
      | _ => simp [Ffi.results]
    generalize r.results.isEmpty = b at alive
    refine ⟨base', fun j y hy => ?_, fun j y hy o ho q hq => ?_, fun j y hy q hq => ?_, fun j k hjk y hy z hz e => ?_, fun j => ?_,
      fun hb p hl => ?_⟩
    · by_cases hj : j = i
      · subst hj
        rcases (own ts b y).mp hy with ⟨h1, h2⟩ | ⟨h1, h2⟩
        · exact ⟨(hk.mine j y h1).1, keeps (hk.mine j y h1).2 h2⟩
        · obtain ⟨h3, -, o, ho, -⟩ := f3 y.1 h1
          exact ⟨oldNone _ h3, by dsimp only; rw [ho]; simp⟩
      · rw [others ts b j hj] at hy
        have := hk.mine j y hy
        exact ⟨this.1, by dsimp only; rw [f1 y.1 (foreign j hj y hy) this.2]; exact this.2⟩
    · dsimp only at ho
      by_cases hj : j = i
      · subst hj
        rcases (own ts b y).mp hy with ⟨h1, h2⟩ | ⟨h1, h2⟩
        · obtain ⟨o', ho', hq'⟩ := f2 y.1 o ho (hk.mine j y h1).2 q hq
          exact hk.refs j y h1 o' ho' q hq'
        · obtain ⟨-, -, o', ho', hr⟩ := f3 y.1 h1
          rw [ho] at ho'
          cases ho'
          rw [h2]
          exact hr q hq
      · rw [others ts b j hj] at hy
        obtain ⟨o', ho', hq'⟩ := f2 y.1 o ho (hk.mine j y hy).2 q hq
        exact hk.refs j y hy o' ho' q hq'
    · by_cases hj : j = i
      · subst hj
        have lift : (h₀.live q ≠ none ∨ ∃ z ∈ held (s.logOf j), z.1 ∉ c.frees ∧ z.1 = q) →
            h₀.live q ≠ none ∨ q ∈ (held (CProcess.logOf { heap := h', threads := ts, log := s.log ++ [(j, c, r)], ended := b } j)).map
              Prod.fst := by
          rintro (h | ⟨z, hz, hzf, rfl⟩)
          · exact .inl h
          · exact .inr (List.mem_map.mpr ⟨z, (own ts b z).mpr (.inl ⟨hz, hzf⟩), rfl⟩)
        rcases (own ts b y).mp hy with ⟨h1, h2⟩ | ⟨h1, h2⟩
        · exact lift (stays y h1 h2 q hq)
        · rw [h2] at hq
          refine lift ?_
          have hnf : c.frees = [] := by
            obtain ⟨-, rfl, -⟩ := f3 y.1 h1
            cases ef with
            | keep hr => exact absurd rfl (hr _)
            | alloc o ho =>
              cases c with
              | free k x => exact absurd st (CCall.free_no_handle _)
              | _ => rfl
          rcases tidy.1 q hq with h | h
          · exact .inl h
          · obtain ⟨z, hz, rfl⟩ := List.mem_map.mp h
            exact .inr ⟨z, hz, by simp [hnf], rfl⟩
      · rw [others ts b j hj] at hy ⊢
        exact hk.parents j y hy q hq
    · -- a new pointer is none of those that another thread holds
      have new : ∀ j, j ≠ i → ∀ y ∈ held (s.logOf j), y.1 ∉ handlesOf r.results := fun j hj y hy h =>
        (hk.mine j y hy).2 (f3 y.1 h).1
      by_cases hj : j = i
      · subst hj
        rw [others ts b k (Ne.symm hjk)] at hz
        rcases (own ts b y).mp hy with ⟨h1, -⟩ | ⟨h1, -⟩
        · exact hk.apart j k hjk y h1 z hz e
        · exact new k (Ne.symm hjk) z hz (e ▸ h1)
      · rw [others ts b j hj] at hy
        by_cases hki : k = i
        · subst hki
          rcases (own ts b z).mp hz with ⟨h1, -⟩ | ⟨h1, -⟩
          · exact hk.apart j k hjk y hy z h1 e
          · exact new j hj y hy (e ▸ h1)
        · rw [others ts b k hki] at hz
          exact hk.apart j k hjk y hy z hz e
    · by_cases hj : j = i
      · subst hj
        rw [self]
        refine (hk.fresh j).snoc fun p hr => ?_
        have h1 := (f3 p (by rw [hr]; simp [handlesOf, Ffi.results])).1
        exact ⟨oldNone p h1, fun y hy e => (hk.mine j y hy).2 (e ▸ h1)⟩
      · rw [others ts b j hj]
        exact hk.fresh j
    · obtain ⟨x, hx⟩ := alive hb
      dsimp only at hl
      by_cases hold : s.heap.live p = none
      · right
        refine ⟨i, ?_⟩
        have hpa : p ∈ handlesOf r.results := by
          cases ef with
          | keep => exact absurd hold hl
          | alloc o ho =>
            by_cases e : p = a
            · simp [handlesOf, Ffi.results, e]
            · exact absurd hold (by simpa [CHeap.alloc, e] using hl)
          | store q o hq hlq ho =>
            by_cases e : p = q
            · exact absurd (e ▸ hold) hlq
            · exact absurd hold (by simpa [CHeap.store, e] using hl)
        exact List.mem_map.mpr ⟨(p, c.args), (own ts b _).mpr (.inr ⟨hpa, rfl⟩), rfl⟩
      · rcases hk.all running p hold with h | ⟨j, h⟩
        · exact .inl h
        · refine .inr ⟨j, ?_⟩
          by_cases hj : j = i
          · subst hj
            obtain ⟨y, hy, rfl⟩ := List.mem_map.mp h
            exact List.mem_map.mpr ⟨y, (own ts b y).mpr (.inl ⟨hy, fun hf => hl (freed hx hf)⟩), rfl⟩
          · rw [others ts b j hj]
            exact h

theorem CProcess.AllocSteps.tidy {h₀ : CHeap Γ Φ T} {progs : List (List (CResult T) → Option (CCall Γ Φ R T))} {s : CProcess Γ Φ R T}
    (ok : AllocatorOk gives) (hv : ∀ p, h₀.live p ≠ none → p ∈ vars₀) (hd : h₀.NoDangling) (hp : ∀ p ∈ progs, TidyThread h₀ p)
    (h : CProcess.AllocSteps newSpace kernel env gives vars₀ (CProcess.start h₀ progs) s) :
    CProcess.AllocClean newSpace kernel env gives vars₀ (CProcess.start h₀ progs) s ∧ s.Keep h₀ := by
  induction h with
  | refl =>
    have hk : (CProcess.start h₀ progs).Keep h₀ := .start progs
    exact ⟨.start ((CProcess.AllocGood.start (newSpace := newSpace) (kernel := kernel) (env := env) (gives := gives) hv progs).noConflict
      hk hd hp), hk⟩
  | tail _ st ih =>
    have hg := ih.1.good ok hv
    have hk' := ih.2.step ok hg ih.1.noConflict hp st
    exact ⟨.step ih.1 st ((hg.step ok ih.1.noConflict st).noConflict hk' hd hp), hk'⟩

/-! ### A tidy thread alone -/

theorem CCall.Effect.other {c : CCall Γ Φ R T} {h h' : CHeap Γ Φ T} {a : Nat} {r : Ffi (CResult T)}
    (ef : c.Effect { h with next := a } h' r) (ha : h.live a = none) {p : Nat} (hpc : p ∉ c.changes) (hl : h.live p ≠ none) :
    h'.live p = h.live p := by
  cases ef with
  | keep => rfl
  | alloc o ho =>
    have : p ≠ a := fun e => hl (e ▸ ha)
    simp [CHeap.alloc, this]
  | store q o hq hlq ho =>
    have : p ≠ q := by rintro rfl; exact hpc hq
    simp [CHeap.store, this]

theorem CCall.Effect.new {c : CCall Γ Φ R T} {h h' : CHeap Γ Φ T} {a : Nat} {r : Ffi (CResult T)}
    (ef : c.Effect { h with next := a } h' r) (ha : h.live a = none) {p : Nat} (hp : p ∈ handlesOf r.results) :
    h.live p = none ∧ h'.live p ≠ none := by
  cases ef with
  | keep hr => rw [handlesOf_other hr] at hp; cases hp
  | alloc o ho =>
    obtain rfl : p = a := by simpa [handlesOf, Ffi.results] using hp
    exact ⟨ha, by simp [CHeap.alloc]⟩
  | store q o hq hlq ho => simp [handlesOf, Ffi.results] at hp

theorem CCall.Effect.made_mem {c : CCall Γ Φ R T} {h h' : CHeap Γ Φ T} {a : Nat} {r : Ffi (CResult T)} {vars : CVars}
    (ef : c.Effect { h with next := a } h' r) (hv : ∀ p, h.live p ≠ none → p ∈ vars) (p : Nat) (hp : h'.live p ≠ none) :
    p ∈ r.results.foldl CVars.after vars := by
  cases ef with
  | keep hr =>
    have e : r.results.foldl CVars.after vars = vars := by
      cases r with
      | ok x => cases x <;> first | rfl | exact absurd rfl (hr _)
      | _ => rfl
    rw [e]
    exact hv p hp
  | alloc o ho =>
    simp only [Ffi.results, List.foldl, CVars.after]
    simp only [CHeap.alloc] at hp
    split at hp
    · rename_i e; simp [e]
    · exact List.mem_append_left _ (hv p hp)
  | store q o hq hlq ho =>
    simp only [Ffi.results, List.foldl, CVars.after]
    simp only [CHeap.store] at hp
    split at hp
    · rename_i e; exact hv p (e ▸ hlq)
    · exact hv p hp

variable (newSpace kernel env vars₀) in
/-- The memory `g` if thread `i` had been alone. -/
structure CProcess.Alone (h₀ : CHeap Γ Φ T) (s : CProcess Γ Φ R T) (i : Nat) (g : CHeap Γ Φ T) : Prop where
  runs : CAllocRuns newSpace kernel env anyFree h₀ vars₀ (numbered vars₀ (s.ownLog i)) g (madeIn vars₀ (s.ownLog i))
    ((s.ownLog i).map fun x => x.2.2)
  made : ∀ p, g.live p ≠ none → p ∈ madeIn vars₀ (s.ownLog i)
  same : ∀ p, (h₀.live p ≠ none ∨ p ∈ (held (s.logOf i)).map Prod.fst) → g.live p = s.heap.live p
  only : s.ended = false → ∀ p, ¬ (h₀.live p ≠ none ∨ p ∈ (held (s.logOf i)).map Prod.fst) → g.live p = none

theorem ownLog_self (s : CProcess Γ Φ R T) (i : Nat) (c : CCall Γ Φ R T) (r : Ffi (CResult T)) (h : CHeap Γ Φ T)
    (ts : List (CThread Γ Φ R T)) (b : Bool) :
    CProcess.ownLog { heap := h, threads := ts, log := s.log ++ [(i, c, r)], ended := b } i = s.ownLog i ++ [(i, c, r)] := by
  simp [CProcess.ownLog, List.filter_append]

theorem ownLog_other (s : CProcess Γ Φ R T) {i j : Nat} (hij : j ≠ i) (c : CCall Γ Φ R T) (r : Ffi (CResult T)) (h : CHeap Γ Φ T)
    (ts : List (CThread Γ Φ R T)) (b : Bool) :
    CProcess.ownLog { heap := h, threads := ts, log := s.log ++ [(i, c, r)], ended := b } j = s.ownLog j := by
  simp [CProcess.ownLog, List.filter_append, Ne.symm hij]

theorem CProcess.Alone.start {h₀ : CHeap Γ Φ T} (hv : ∀ p, h₀.live p ≠ none → p ∈ vars₀)
    (progs : List (List (CResult T) → Option (CCall Γ Φ R T))) (i : Nat) :
    CProcess.Alone newSpace kernel env vars₀ h₀ (CProcess.start h₀ progs) i h₀ :=
  ⟨.nil _ _, hv, fun _ _ => rfl, fun _ p hp => by
    by_contra h
    exact hp (.inl h)⟩

theorem CProcess.Alone.step {h₀ : CHeap Γ Φ T} {progs : List (List (CResult T) → Option (CCall Γ Φ R T))} {s s' : CProcess Γ Φ R T}
    (ok : AllocatorOk gives) (hd : h₀.NoDangling) (hk : s.Keep h₀) (hk' : s'.Keep h₀)
    (hg : CProcess.AllocGood newSpace kernel env gives vars₀ h₀ progs s) (hn : s.NoConflict) (hp : ∀ p ∈ progs, TidyThread h₀ p)
    (st : CProcess.AllocStep newSpace kernel env gives vars₀ s s') {j : Nat} {g : CHeap Γ Φ T}
    (al : CProcess.Alone newSpace kernel env vars₀ h₀ s j g) : ∃ g', CProcess.Alone newSpace kernel env vars₀ h₀ s' j g' := by
  cases st with
  | @begins i t c running thread idle next => exact ⟨g, al.runs, al.made, al.same, al.only⟩
  | @finishes i t c seen a v v' r running thread current given view call =>
    have ha := ok _ _ _ given
    have st := hg.alone hn thread current ha view call
    have ef := st.does
    have tidy := hg.tidy hk hp thread current
    have freed : ∀ {x : CResult T} {p : Nat}, r = .ok x → p ∈ c.frees → (s.heap.patch v v').live p = none := by
      rintro x p rfl hf
      exact st.freed hf
    have alive : r.results.isEmpty = false → ∃ x, r = .ok x := by
      cases r with
      | ok x => exact fun _ => ⟨x, rfl⟩
      | _ => simp [Ffi.results]
    generalize s.heap.patch v v' = h' at st ef freed hk' ⊢
    generalize (s.threads.set i { t with done := t.done ++ r.results, current := none }).map (CThread.sees h') = ts at hk' ⊢
    have hall := hk'.all
    generalize r.results.isEmpty = b at alive hk' hall ⊢
    dsimp only at hall
    by_cases hj : j = i
    · subst hj
      have hrun := al.only running
      have hga : g.live a = none := by
        apply hrun
        intro h
        exact hk.there h ha
      have hargs : ∀ p ∈ c.args, g.live p = s.heap.live p := fun p hpa => al.same p (tidy.1 p hpa)
      have hu : c.uses { g with next := a } = c.uses s.heap := CCall.uses_congr hargs
      have agr : c.Agrees { s.heap with next := a } { g with next := a } := by
        refine ⟨rfl, ha, fun p hpu => ?_, fun p x hc => ?_⟩
        · rw [hu] at hpu
          exact (al.same p (hk.uses hd tidy.1 hpu)).symm
        · have hpc : p ∈ c.changes := by rw [hc]; simp [CCall.changes]
          obtain ⟨y, hy, hyp⟩ := List.mem_map.mp (tidy.2 p hpc).1
          have hp0 : h₀.live p = none := hyp ▸ (hk.mine j y hy).1
          constructor
          · rintro ⟨q, e, op, d, hq⟩
            change s.heap.live q = _ at hq
            have hqj : h₀.live q ≠ none ∨ q ∈ (held (s.logOf j)).map Prod.fst := by
              rcases hk.all running q (by rw [hq]; simp) with h | ⟨k, h⟩
              · exact .inl h
              · obtain ⟨z, hz, rfl⟩ := List.mem_map.mp h
                by_cases hkj : k = j
                · subst hkj; exact .inr h
                · have hpz := hk.refs k z hz _ hq p (by simp [CObj.refs])
                  rcases hk.parents k z hz p hpz with h' | h'
                  · exact absurd hp0 h'
                  · obtain ⟨w, hw, e'⟩ := List.mem_map.mp h'
                    exact absurd (e'.trans hyp.symm) (hk.apart k j hkj w hw y hy)
            exact ⟨q, e, op, d, (al.same q hqj).trans hq⟩
          · rintro ⟨q, e, op, d, hq⟩
            change g.live q = _ at hq
            have hqj : h₀.live q ≠ none ∨ q ∈ (held (s.logOf j)).map Prod.fst := by
              by_contra h
              rw [hrun q h] at hq
              cases hq
            exact ⟨q, e, op, d, (al.same q hqj).symm.trans hq⟩
      have stg := st.transfer agr
      have efg := stg.does
      let g' := CHeap.patch { g with next := a } { s.heap with next := a } h'
      have own : ∀ p, p ∈ (held (CProcess.logOf { heap := h', threads := ts, log := s.log ++ [(j, c, r)], ended := b } j)).map Prod.fst ↔
          (p ∈ (held (s.logOf j)).map Prod.fst ∧ p ∉ c.frees) ∨ p ∈ handlesOf r.results := by
        intro p
        rw [logOf_self, held_snoc, List.map_append, List.mem_append, List.map_map]
        refine or_congr ?_ (by simp [Function.comp_def])
        constructor
        · intro h
          obtain ⟨y, hy, rfl⟩ := List.mem_map.mp h
          have := List.mem_filter.mp hy
          exact ⟨List.mem_map.mpr ⟨y, this.1, rfl⟩, by simpa using this.2⟩
        · rintro ⟨h, hf⟩
          obtain ⟨y, hy, rfl⟩ := List.mem_map.mp h
          exact List.mem_map.mpr ⟨y, List.mem_filter.mpr ⟨hy, by simpa using hf⟩, rfl⟩
      refine ⟨g', ?_, ?_, fun p hpp => ?_, fun hb p hpp => ?_⟩
      · rw [ownLog_self]
        simp only [List.map_append, List.map_cons, List.map_nil, numbered_snoc, madeIn_snoc]
        refine al.runs.snoc (fun x hx => ?_) hga ?_
        · obtain ⟨y, hy, rfl⟩ := List.mem_map.mp hx
          exact hg.alive running y (List.mem_of_mem_filter hy)
        · rw [CCall.rename_back fun p hpa => CVars.address_newest (al.made p ?_)]
          · exact stg
          · rw [hargs p hpa]
            exact hk.there (tidy.1 p hpa)
      · rw [ownLog_self, madeIn_snoc]
        exact efg.made_mem al.made
      · rw [own p] at hpp
        simp only [g', CHeap.patch]
        split
        · rename_i e
          rw [e]
          rcases hpp with h | ⟨h, -⟩ | h
          · exact al.same p (.inl h)
          · exact al.same p (.inr h)
          · exact absurd (e.trans (ef.new ha h).1) (ef.new ha h).2
        · rfl
      · obtain ⟨x, hx⟩ := alive hb
        simp only [g', CHeap.patch]
        split
        · rename_i e
          apply hrun
          rintro (h | h)
          · exact hpp (.inl h)
          · by_cases hf : p ∈ c.frees
            · exact hk.there (.inr h) (e ▸ freed hx hf)
            · exact hpp (.inr ((own p).mpr (.inl ⟨h, hf⟩)))
        · rename_i e
          by_contra hl
          rcases hall hb p hl with h | ⟨k, h⟩
          · exact hpp (.inl h)
          · by_cases hkj : k = j
            · subst hkj; exact hpp (.inr h)
            · rw [logOf_other s hkj] at h
              refine e (ef.other ha (fun hpc => ?_) (hk.there (.inr h)))
              obtain ⟨z, hz, rfl⟩ := List.mem_map.mp h
              obtain ⟨y, hy, e'⟩ := List.mem_map.mp (tidy.2 _ hpc).1
              exact hk.apart k j hkj z hz y hy e'.symm
    · refine ⟨g, ?_, ?_, fun p hpp => ?_, fun _ p hpp => ?_⟩
      · rw [ownLog_other s hj]
        exact al.runs
      · rw [ownLog_other s hj]
        exact al.made
      · rw [logOf_other s hj] at hpp
        rw [al.same p hpp]
        refine (ef.other ha (fun hpc => ?_) (hk.there hpp)).symm
        obtain ⟨y, hy, rfl⟩ := List.mem_map.mp (tidy.2 _ hpc).1
        rcases hpp with h | h
        · exact h (hk.mine i y hy).1
        · obtain ⟨z, hz, e⟩ := List.mem_map.mp h
          exact hk.apart j i hj z hz y hy e
      · rw [logOf_other s hj] at hpp
        exact al.only running p hpp

theorem CProcess.AllocSteps.alone {h₀ : CHeap Γ Φ T} {progs : List (List (CResult T) → Option (CCall Γ Φ R T))} {s : CProcess Γ Φ R T}
    (ok : AllocatorOk gives) (hv : ∀ p, h₀.live p ≠ none → p ∈ vars₀) (hd : h₀.NoDangling) (hp : ∀ p ∈ progs, TidyThread h₀ p)
    (h : CProcess.AllocSteps newSpace kernel env gives vars₀ (CProcess.start h₀ progs) s) (i : Nat) :
    ∃ g, CProcess.Alone newSpace kernel env vars₀ h₀ s i g := by
  induction h with
  | refl => exact ⟨h₀, .start hv progs i⟩
  | tail h st ih =>
    obtain ⟨g, al⟩ := ih
    obtain ⟨hc, hk⟩ := CProcess.AllocSteps.tidy ok hv hd hp h
    obtain ⟨-, hk'⟩ := CProcess.AllocSteps.tidy ok hv hd hp (h.tail st)
    exact al.step ok hd hk hk' (hc.good ok hv) hc.noConflict hp st

end
end Bempp
