import Verif.Proofs.AllocThreads
import Verif.Props.Allocator
import Verif.Props.CThreads
/-
C115: programs whose threads use the C interface at the same time, when the addresses of freed objects are used again.
-/
set_option linter.unusedVariables false
set_option linter.unusedSectionVars false
namespace Bempp

variable {Γ Φ R T : Type}

section
variable [Zero T] [Add T] [Sub T] [Mul T] [Div T] [Neg T] [Zero R] [Mul R] {newSpace : Γ → Φ → Option (Space R T)}
  {kernel : DType → Kernel R T} {env : DType → Env R T} {gives : CHeap Γ Φ T → CVars → Nat → Prop} {vars₀ : CVars}

/-- **C115.** Whichever free addresses the allocator gives out: if there is no data race on the way, the calls of all threads, in the order
in which they ended, are a program with one thread that has the same results and the same memory at the end, and the calls of each
thread are those of its program. -/
theorem C115_sequence (ok : AllocatorOk gives) {h₀ : CHeap Γ Φ T} (hv : ∀ p, h₀.live p ≠ none → p ∈ vars₀)
    {progs : List (List (CResult T) → Option (CCall Γ Φ R T))} {s : CProcess Γ Φ R T}
    (h : CProcess.AllocClean newSpace kernel env gives vars₀ (CProcess.start h₀ progs) s) :
    CAllocRuns newSpace kernel env gives h₀ vars₀ (numbered vars₀ s.log) s.heap (madeIn vars₀ s.log) (s.log.map fun x => x.2.2) ∧
      (∀ x ∈ s.log, x.1 < progs.length) ∧ ∀ (i : Nat) prog, progs[i]? = some prog → FollowsProg prog (s.logOf i) := by
  have hg := h.good ok hv
  refine ⟨hg.runs, fun x hx => ?_, fun i prog hi => ?_⟩
  · rw [← hg.progs, List.length_map]
    exact hg.numbers x hx
  · rw [← hg.progs, List.getElem?_map, Option.map_eq_some_iff] at hi
    obtain ⟨t, ht, rfl⟩ := hi
    exact hg.follows i t ht

/-- **C115.** The numbers in that program stand for the addresses that the threads passed. -/
theorem C115_numbers (ok : AllocatorOk gives) {h₀ : CHeap Γ Φ T} (hv : ∀ p, h₀.live p ≠ none → p ∈ vars₀)
    {progs : List (List (CResult T) → Option (CCall Γ Φ R T))} {s : CProcess Γ Φ R T}
    (h : CProcess.AllocClean newSpace kernel env gives vars₀ (CProcess.start h₀ progs) s) :
    (numbered vars₀ s.log).length = s.log.length ∧ ∀ (k : Nat) x c, s.log[k]? = some x → (numbered vars₀ s.log)[k]? = some c →
      c.rename (madeIn vars₀ (s.log.take k)).address = x.2.1 := by
  have len : ∀ (vars : CVars) (l : List (Nat × CCall Γ Φ R T × Ffi (CResult T))), (numbered vars l).length = l.length := by
    intro vars l
    induction l generalizing vars with
    | nil => rfl
    | cons x l ih => simp [numbered, ih]
  refine ⟨len _ _, ?_⟩
  induction h with
  | start _ => intro k x c hx; simp [CProcess.start] at hx
  | @step s s' h st _ ih =>
    have hg := h.good ok hv
    have hn := h.noConflict
    cases st with
    | begins => exact ih
    | @finishes i t c seen a v v' r running thread current given view call =>
      intro k x d hx hd
      dsimp only at hx hd ⊢
      rw [numbered_snoc] at hd
      rcases Nat.lt_trichotomy k s.log.length with hk | hk | hk
      · rw [List.getElem?_append_left hk] at hx
        rw [List.getElem?_append_left (by rw [len]; exact hk)] at hd
        rw [List.take_append_of_le_length hk.le]
        exact ih k x d hx hd
      · subst hk
        rw [List.getElem?_append_right le_rfl, Nat.sub_self, List.getElem?_cons_zero, Option.some.injEq] at hx
        rw [List.getElem?_append_right (by rw [len]), len, Nat.sub_self, List.getElem?_cons_zero, Option.some.injEq] at hd
        subst hx hd
        rw [List.take_append_of_le_length le_rfl, List.take_length]
        exact CCall.rename_back fun p hp => CVars.address_newest
          (hg.made p (hn.exist i t c seen thread current p (CCall.args_uses hp)))
      · rw [List.getElem?_eq_none (by simp; omega)] at hx
        cases hx

/-- **C115.** If that program is disciplined, the threads get what they would get if everything behind the pointers were a value, up to the
addresses, and no call has undefined behaviour. -/
theorem C115_values (ok : AllocatorOk gives) {progs : List (List (CResult T) → Option (CCall Γ Φ R T))} {s : CProcess Γ Φ R T}
    (h : CProcess.AllocClean newSpace kernel env gives [] (CProcess.start CHeap.start progs) s)
    (hd : Disciplined newSpace kernel env CValues.start (numbered [] s.log)) :
    (∃ v rs₀, CMeans newSpace kernel env CValues.start (numbered [] s.log) v rs₀ ∧
      (s.log.map fun x => x.2.2) = rs₀.map (Ffi.at (madeIn [] s.log))) ∧
      ∀ x ∈ s.log, x.2.2 = .panic ∨ ∃ y, x.2.2 = .ok y := by
  have hr := (C115_sequence ok (by simp [CHeap.start]) h).1
  exact ⟨C111_any_allocator ok hd hr, fun x hx => C111_defined ok hd hr _ (List.mem_map_of_mem hx)⟩

/-- **C115.** Threads that share what was there when they started, otherwise pass only pointers that they got themselves and have not freed,
and free and change only what they made themselves and only while they hold nothing made from it, have no data race, whatever
their programs, the allocator and the schedule. -/
theorem C115_tidy (ok : AllocatorOk gives) {h₀ : CHeap Γ Φ T} (hv : ∀ p, h₀.live p ≠ none → p ∈ vars₀) (hd : h₀.NoDangling)
    {progs : List (List (CResult T) → Option (CCall Γ Φ R T))} (hp : ∀ prog ∈ progs, TidyThread h₀ prog) {s : CProcess Γ Φ R T}
    (h : CProcess.AllocSteps newSpace kernel env gives vars₀ (CProcess.start h₀ progs) s) :
    CProcess.AllocClean newSpace kernel env gives vars₀ (CProcess.start h₀ progs) s :=
  (CProcess.AllocSteps.tidy ok hv hd hp h).1

/-- **C115.** What was there when tidy threads started is unchanged. What each thread made and did not free is there, at addresses of its own
that no other thread holds, and as long as the process goes on there is nothing else. -/
theorem C115_memory (ok : AllocatorOk gives) {h₀ : CHeap Γ Φ T} (hv : ∀ p, h₀.live p ≠ none → p ∈ vars₀) (hd : h₀.NoDangling)
    {progs : List (List (CResult T) → Option (CCall Γ Φ R T))} (hp : ∀ prog ∈ progs, TidyThread h₀ prog) {s : CProcess Γ Φ R T}
    (h : CProcess.AllocSteps newSpace kernel env gives vars₀ (CProcess.start h₀ progs) s) :
    (∀ p, h₀.live p ≠ none → s.heap.live p = h₀.live p) ∧
    (∀ i, ∀ p ∈ (held (s.logOf i)).map Prod.fst, h₀.live p = none ∧ s.heap.live p ≠ none ∧
      ∀ j, j ≠ i → p ∉ (held (s.logOf j)).map Prod.fst) ∧
    (s.ended = false → ∀ p, s.heap.live p ≠ none → h₀.live p ≠ none ∨ ∃ i, p ∈ (held (s.logOf i)).map Prod.fst) := by
  have hk := (CProcess.AllocSteps.tidy ok hv hd hp h).2
  refine ⟨hk.base, fun i p hpi => ?_, hk.all⟩
  obtain ⟨y, hy, rfl⟩ := List.mem_map.mp hpi
  refine ⟨(hk.mine i y hy).1, (hk.mine i y hy).2, fun j hj hpj => ?_⟩
  obtain ⟨z, hz, e⟩ := List.mem_map.mp hpj
  exact hk.apart j i hj z hz y hy e

/-- **C115.** A tidy thread gets what it could get if it were alone: its calls are a program with one thread, on the memory at the start, that
has the same results, with an allocator that gives out free addresses. At the end of that program the memory contains what was there at the
start and what the thread holds, as it is in the memory of the process. -/
theorem C115_alone (ok : AllocatorOk gives) {h₀ : CHeap Γ Φ T} (hv : ∀ p, h₀.live p ≠ none → p ∈ vars₀) (hd : h₀.NoDangling)
    {progs : List (List (CResult T) → Option (CCall Γ Φ R T))} (hp : ∀ prog ∈ progs, TidyThread h₀ prog) {s : CProcess Γ Φ R T}
    (h : CProcess.AllocSteps newSpace kernel env gives vars₀ (CProcess.start h₀ progs) s) (i : Nat) :
    ∃ g, CAllocRuns newSpace kernel env anyFree h₀ vars₀ (numbered vars₀ (s.ownLog i)) g (madeIn vars₀ (s.ownLog i))
        ((s.ownLog i).map fun x => x.2.2) ∧
      (∀ p, (h₀.live p ≠ none ∨ p ∈ (held (s.logOf i)).map Prod.fst) → g.live p = s.heap.live p) ∧
      (s.ended = false → ∀ p, ¬ (h₀.live p ≠ none ∨ p ∈ (held (s.logOf i)).map Prod.fst) → g.live p = none) := by
  obtain ⟨g, al⟩ := CProcess.AllocSteps.alone ok hv hd hp h i
  exact ⟨g, al.runs, al.same, al.only⟩

/-- **C115.** So if all threads are tidy and the calls of one of them are a disciplined program, it gets what it would get if everything behind
its pointers were a value, up to addresses, whatever the other threads do. -/
theorem C115_thread_values (ok : AllocatorOk gives) {progs : List (List (CResult T) → Option (CCall Γ Φ R T))}
    (hp : ∀ prog ∈ progs, TidyThread CHeap.start prog) {s : CProcess Γ Φ R T}
    (h : CProcess.AllocSteps newSpace kernel env gives [] (CProcess.start CHeap.start progs) s) (i : Nat)
    (hd : Disciplined newSpace kernel env CValues.start (numbered [] (s.ownLog i))) :
    ∃ v rs₀, CMeans newSpace kernel env CValues.start (numbered [] (s.ownLog i)) v rs₀ ∧
      ((s.ownLog i).map fun x => x.2.2) = rs₀.map (Ffi.at (madeIn [] (s.ownLog i))) := by
  obtain ⟨g, hr, -⟩ := C115_alone ok (by simp [CHeap.start]) (fun p o ho => by cases ho) hp h i
  exact C111_any_allocator (fun h vars a ha => ha) hd hr

/-- A call that sees the memory as it is now. -/
theorem CProcess.alloc_finish {s : CProcess Γ Φ R T} {i : Nat} {t : CThread Γ Φ R T} {c : CCall Γ Φ R T} {seen : List (CHeap Γ Φ T)}
    {h' : CHeap Γ Φ T} {r : Ffi (CResult T)} {a : Nat} (running : s.ended = false) (thread : s.threads[i]? = some t)
    (current : t.current = some (c, seen)) (hseen : s.heap ∈ seen) (free : s.heap.live a = none)
    (given : gives s.heap (madeIn vars₀ s.log) a) (call : c.Step newSpace kernel env { s.heap with next := a } h' r) :
    CProcess.AllocStep newSpace kernel env gives vars₀ s
      { heap := h', threads := (s.threads.set i { t with done := t.done ++ r.results, current := none }).map (CThread.sees h'),
        log := s.log ++ [(i, c, r)], ended := r.results.isEmpty } := by
  have e : s.heap.patch { s.heap with next := a } h' = h' := by
    refine CHeap.same rfl fun p => ?_
    simp only [CHeap.patch]
    split
    · rename_i h; exact h.symm
    · rfl
  have := CProcess.AllocStep.finishes (newSpace := newSpace) (kernel := kernel) (env := env)
    (v := { s.heap with next := a }) running thread current given
    ⟨rfl, free, fun p _ => ⟨s.heap, hseen, rfl⟩⟩ call
  rwa [e] at this

/-- A whole call with nothing in between. -/
theorem CProcess.alloc_call {s : CProcess Γ Φ R T} {i : Nat} {t : CThread Γ Φ R T} {c : CCall Γ Φ R T} {h' : CHeap Γ Φ T}
    {r : Ffi (CResult T)} {a : Nat} (running : s.ended = false) (thread : s.threads[i]? = some t) (idle : t.current = none)
    (next : t.prog t.done = some c) (free : s.heap.live a = none) (given : gives s.heap (madeIn vars₀ s.log) a)
    (call : c.Step newSpace kernel env { s.heap with next := a } h' r) :
    CProcess.AllocSteps newSpace kernel env gives vars₀ s
      { heap := h', threads := (s.threads.set i { t with done := t.done ++ r.results, current := none }).map (CThread.sees h'),
        log := s.log ++ [(i, c, r)], ended := r.results.isEmpty } := by
  have h1 := CProcess.AllocStep.begins (newSpace := newSpace) (kernel := kernel) (env := env) (gives := gives) (vars₀ := vars₀) running
    thread idle next
  have h2 := CProcess.alloc_finish (newSpace := newSpace) (kernel := kernel) (env := env) (gives := gives) (vars₀ := vars₀) (i := i)
    (t := { t with current := some (c, [s.heap]) }) (c := c) (seen := [s.heap]) (r := r) (h' := h') (a := a)
    (s := { s with threads := s.threads.set i { t with current := some (c, [s.heap]) } }) running
    (List.getElem?_set_self (List.getElem?_eq_some_iff.mp thread).1) rfl (List.mem_singleton_self _) free given call
  simp only [List.set_set] at h2
  exact (Relation.ReflTransGen.single h1).tail h2

/-- **C115.** Every order is possible: at any time a thread that is between two calls can make its next call, at each address that the
allocator can give, and this can end in every way in which it can end if it is alone. -/
theorem C115_any_order (ok : AllocatorOk gives) {s : CProcess Γ Φ R T} {i : Nat} {t : CThread Γ Φ R T} {c : CCall Γ Φ R T}
    {h' : CHeap Γ Φ T} {r : Ffi (CResult T)} {a : Nat} (running : s.ended = false) (thread : s.threads[i]? = some t)
    (idle : t.current = none) (next : t.prog t.done = some c) (given : gives s.heap (madeIn vars₀ s.log) a)
    (call : c.Step newSpace kernel env { s.heap with next := a } h' r) :
    ∃ s', CProcess.AllocSteps newSpace kernel env gives vars₀ s s' ∧ s'.heap = h' ∧ s'.log = s.log ++ [(i, c, r)] :=
  ⟨_, CProcess.alloc_call running thread idle next (ok _ _ _ given) given call, rfl, rfl⟩

/-- A thread that frees its options twice. -/
def freesTwice : List (CResult T) → Option (CCall Γ Φ R T)
  | [] => some .newOptions
  | [.handle p] => some (.free .options (some p))
  | [.handle p, .nothing] => some (.free .options (some p))
  | _ => none

/-- A thread that makes options and looks at them. -/
def looks : List (CResult T) → Option (CCall Γ Φ R T)
  | [] => some .newOptions
  | [.handle p] => some (.getOptions p .batch)
  | _ => none

/-- A history of calls that returned one result. -/
theorem one_result {l : List (CCall Γ Φ R T × Ffi (CResult T))} {x : CResult T} (hok : ∀ y ∈ l, ∃ x, y.2 = .ok x)
    (e : (l.flatMap fun y => y.2.results) = [x]) : ∃ c, l = [(c, .ok x)] := by
  rcases l with _ | ⟨⟨c, r⟩, l⟩
  · cases e
  · obtain ⟨y, rfl⟩ := hok _ List.mem_cons_self
    rcases l with _ | ⟨⟨d, r'⟩, l⟩
    · simp only [List.flatMap_cons, List.flatMap_nil, Ffi.results, List.append_nil, List.cons.injEq, and_true] at e
      exact ⟨c, by rw [e]⟩
    · obtain ⟨z, hz⟩ := hok (d, r') (by simp)
      simp only at hz
      subst hz
      simp [Ffi.results] at e

theorem looks_tidy (h : CHeap Γ Φ T) : TidyThread h (looks : List (CResult T) → Option (CCall Γ Φ R T)) := by
  intro l c hf hok hfresh hc
  unfold looks at hc
  split at hc
  · cases hc
    simp [CCall.args, CCall.changes]
  · rename_i p e
    cases hc
    obtain ⟨d, rfl⟩ := one_result hok e
    refine ⟨fun q hq => .inr ?_, by simp [CCall.changes]⟩
    obtain rfl : q = p := by simpa [CCall.args] using hq
    simp [held, handlesOf, Ffi.results]
  · cases hc

/-- **C115.** Without the condition this is false, and the thread that is harmed need not be the one that errs: if one thread frees its options
twice and the other one, which is tidy, makes options at the same address in between, both calls that free return, and the other
thread finds that its options are gone. -/
theorem C115_double_free : ∃ s, CProcess.AllocSteps newSpace kernel env leastFree []
      (CProcess.start (CHeap.start : CHeap Γ Φ T) [(freesTwice : List (CResult T) → Option (CCall Γ Φ R T)), looks]) s ∧
    s.log = [(0, .newOptions, .ok (.handle 0)), (0, .free .options (some 0), .ok .nothing), (1, .newOptions, .ok (.handle 0)),
      (0, .free .options (some 0), .ok .nothing), (1, .getOptions 0 .batch, .undefined)] := by
  let o : CObj Γ Φ T := .options Options.default
  let g1 : CHeap Γ Φ T := CHeap.start.alloc o
  let g2 : CHeap Γ Φ T := ({ g1 with next := 1 } : CHeap Γ Φ T).store 0 none
  let g3 : CHeap Γ Φ T := ({ g2 with next := 0 } : CHeap Γ Φ T).alloc o
  let g4 : CHeap Γ Φ T := ({ g3 with next := 1 } : CHeap Γ Φ T).store 0 none
  have free1 : ∀ {h : CHeap Γ Φ T} {vars}, h.live 1 = none → h.live 0 ≠ none → leastFree h vars 1 := by
    intro h vars h1 h0
    refine ⟨h1, fun b hb => ?_⟩
    obtain rfl : b = 0 := by omega
    exact h0
  let p0 : List (CResult T) → Option (CCall Γ Φ R T) := freesTwice
  let p1 : List (CResult T) → Option (CCall Γ Φ R T) := looks
  let s0 : CProcess Γ Φ R T := ⟨CHeap.start, [⟨p0, [], none⟩, ⟨p1, [], none⟩], [], false⟩
  let l1 : List (Nat × CCall Γ Φ R T × Ffi (CResult T)) := [(0, .newOptions, .ok (.handle 0))]
  let s1 : CProcess Γ Φ R T := ⟨g1, [⟨p0, [.handle 0], none⟩, ⟨p1, [], none⟩], l1, false⟩
  let l2 := l1 ++ [(0, .free .options (some 0), .ok .nothing)]
  let s2 : CProcess Γ Φ R T := ⟨g2, [⟨p0, [.handle 0, .nothing], none⟩, ⟨p1, [], none⟩], l2, false⟩
  let l3 := l2 ++ [(1, .newOptions, .ok (.handle 0))]
  let s3 : CProcess Γ Φ R T := ⟨g3, [⟨p0, [.handle 0, .nothing], none⟩, ⟨p1, [.handle 0], none⟩], l3, false⟩
  let l4 := l3 ++ [(0, .free .options (some 0), .ok .nothing)]
  let s4 : CProcess Γ Φ R T := ⟨g4, [⟨p0, [.handle 0, .nothing, .nothing], none⟩, ⟨p1, [.handle 0], none⟩], l4, false⟩
  have c1 : CProcess.AllocSteps newSpace kernel env leastFree [] s0 s1 :=
    CProcess.alloc_call (s := s0) (i := 0) (c := .newOptions) (a := 0) (h' := g1) (r := .ok (.handle 0)) rfl rfl rfl rfl rfl
      (firstStep rfl _) rfl
  have c2 : CProcess.AllocSteps newSpace kernel env leastFree [] s1 s2 :=
    CProcess.alloc_call (s := s1) (i := 0) (c := .free .options (some 0)) (a := 1) (h' := g2) (r := .ok .nothing) rfl rfl rfl rfl rfl
      (free1 rfl (by simp [s1, g1, CHeap.alloc, CHeap.start])) rfl
  have c3 : CProcess.AllocSteps newSpace kernel env leastFree [] s2 s3 :=
    CProcess.alloc_call (s := s2) (i := 1) (c := .newOptions) (a := 0) (h' := g3) (r := .ok (.handle 0)) rfl rfl rfl rfl rfl
      (firstStep rfl _) rfl
  have c4 : CProcess.AllocSteps newSpace kernel env leastFree [] s3 s4 :=
    CProcess.alloc_call (s := s3) (i := 0) (c := .free .options (some 0)) (a := 1) (h' := g4) (r := .ok .nothing) rfl rfl rfl rfl rfl
      (free1 rfl (by simp [s3, g3, CHeap.alloc])) rfl
  have c5 := CProcess.alloc_call (newSpace := newSpace) (kernel := kernel) (env := env) (gives := leastFree) (vars₀ := []) (s := s4)
    (i := 1) (c := .getOptions 0 .batch) (a := 0) (h' := { g4 with next := 0 }) (r := .undefined) rfl rfl rfl rfl rfl
    (firstStep rfl _) rfl
  exact ⟨_, (((c1.trans c2).trans c3).trans c4).trans c5, rfl⟩

/-- Any number of threads that make options and look at them, with any allocator and any schedule: each one finds the default. -/
example (ok : AllocatorOk gives) (n : Nat) {s : CProcess Γ Φ R T}
    (h : CProcess.AllocSteps newSpace kernel env gives []
      (CProcess.start CHeap.start (List.replicate n (looks : List (CResult T) → Option (CCall Γ Φ R T)))) s) {i p : Nat} {r : Ffi (CResult T)}
    (hl : s.ownLog i = [(i, .newOptions, .ok (.handle p)), (i, .getOptions p .batch, r)]) :
    r = .ok (.nat Options.default.batchSize) := by
  have hn : numbered [] (s.ownLog i) = [(.newOptions : CCall Γ Φ R T), .getOptions 0 .batch] := by
    simp [hl, numbered, CCall.rename, Ffi.results, CVars.after, CVars.newest]
  have hnew : ∀ v' x, (CCall.newOptions : CCall Γ Φ R T).Means newSpace kernel env CValues.start (v', .ok x) →
      v' = CValues.start.add (.options Options.default) [] := by
    intro v' x hm
    cases hm with
    | simple hs => cases hs; rfl
  obtain ⟨v, rs₀, hm, e⟩ := C115_thread_values ok (fun prog hp => (List.mem_replicate.mp hp).2 ▸ looks_tidy _) h i (by
    rw [hn]
    refine ⟨trivial, fun v' x hm => ⟨?_, fun _ _ _ => trivial⟩⟩
    rw [hnew v' x hm]
    exact ⟨_, rfl, rfl⟩)
  rw [hn] at hm
  rw [hl] at e
  cases hm with
  | ended hs hr => simp at e
  | returned hs ht =>
    have := hnew _ _ hs
    subst this
    have hget : ∀ v' r', (CCall.getOptions 0 .batch : CCall Γ Φ R T).Means newSpace kernel env
        (CValues.start.add (.options Options.default) []) (v', r') → r' = .ok (.nat Options.default.batchSize) := by
      intro v' r' hm
      cases hm with
      | simple hs =>
        generalize he : (v', r') = e at hs
        cases hs with
        | getOptions q hp =>
          cases hp
          exact congrArg Prod.snd he
    cases ht with
    | ended hs' hr => exact absurd (hget _ _ hs') (hr _)
    | returned hs' ht' =>
      cases ht'
      have h1 := hget _ _ hs'
      simp only [List.map_cons, List.map_nil, List.cons.injEq, and_true] at e
      rw [e.2, h1]
      rfl

end

/-! ### Two threads that assemble at the same time -/

open Examples

theorem octHeap_noDangling : octHeap.NoDangling := by
  intro p o ho
  rcases p with _ | _ | _ | _ | _ | p <;> simp [octHeap, CHeap.alloc, CHeap.start] at ho <;> subst ho <;>
    simp [CObj.refs, octHeap, CHeap.alloc, CHeap.start]

theorem assembleAndFree_tidy : TidyThread octHeap assembleAndFree := by
  intro l c hf hok hfresh hc
  unfold assembleAndFree at hc
  split at hc
  · cases hc
    refine ⟨fun p hp => .inl ?_, by simp [CCall.changes]⟩
    simp only [CCall.args, List.mem_cons, List.not_mem_nil, or_false] at hp
    rcases hp with rfl | rfl | rfl <;> simp [octHeap, CHeap.alloc, CHeap.start]
  · rename_i p e
    cases hc
    obtain ⟨d, rfl⟩ := one_result hok e
    have hd : d = .assemble 4 2 2 := by
      have := hf 0 _ rfl
      simpa [assembleAndFree] using this.symm
    subst hd
    have hp := (hfresh 0 _ p rfl).1
    have hh : held [((.assemble 4 2 2 : CCall Unit Unit Rat Rat), Ffi.ok (CResult.handle p : CResult Rat))] = [(p, [4, 2, 2])] := rfl
    rw [hh]
    refine ⟨fun q hq => .inr (by simpa [CCall.args] using hq), fun q hq => ?_⟩
    obtain rfl : q = p := by simpa [CCall.changes] using hq
    refine ⟨by simp, fun y hy => ?_⟩
    rw [List.mem_singleton.mp hy]
    simp only [List.mem_cons, List.not_mem_nil, or_false]
    rintro (rfl | rfl | rfl) <;> simp [octHeap, CHeap.alloc, CHeap.start] at hp
  · cases hc

/-- Any number of threads that assemble a matrix and free it, with any allocator and any schedule: there is no data race, and the octahedron is
as before. -/
example {gives : CHeap Unit Unit Rat → CVars → Nat → Prop} (ok : AllocatorOk gives) (n : Nat) (s : CProcess Unit Unit Rat Rat)
    (h : CProcess.AllocSteps octNewSpace (fun _ => kernelOf squareKernel) (fun _ => exEnv) gives [0, 1, 2, 3, 4]
      (CProcess.start octHeap (List.replicate n assembleAndFree)) s) :
    CProcess.AllocClean octNewSpace (fun _ => kernelOf squareKernel) (fun _ => exEnv) gives [0, 1, 2, 3, 4]
      (CProcess.start octHeap (List.replicate n assembleAndFree)) s ∧ ∀ p, p < 5 → s.heap.live p = octHeap.live p := by
  have hv : ∀ p, octHeap.live p ≠ none → p ∈ [0, 1, 2, 3, 4] := by
    intro p hp
    rcases p with _ | _ | _ | _ | _ | p <;> simp [octHeap, CHeap.alloc, CHeap.start] at hp ⊢
  have hp : ∀ prog ∈ List.replicate n assembleAndFree, TidyThread octHeap prog := fun prog h =>
    (List.mem_replicate.mp h).2 ▸ assembleAndFree_tidy
  refine ⟨C115_tidy ok hv octHeap_noDangling hp h, fun p hp5 => (C115_memory ok hv octHeap_noDangling hp h).1 p ?_⟩
  rcases p with _ | _ | _ | _ | _ | p
  all_goals first
    | omega
    | simp [octHeap, CHeap.alloc, CHeap.start]

/-- Two threads, with the allocator that gives out the least free address: while the second one assembles, the first one assembles and frees its
matrix; the second one then gets the same address. -/
example : ∃ (s₁ s₂ : CProcess Unit Unit Rat Rat),
    CProcess.AllocSteps octNewSpace (fun _ => kernelOf squareKernel) (fun _ => exEnv) leastFree [0, 1, 2, 3, 4]
      (CProcess.start octHeap [assembleAndFree, assembleAndFree]) s₁ ∧
    (∀ t ∈ s₁.threads, ∃ seen, t.current = some (.assemble 4 2 2, seen)) ∧
    CProcess.AllocSteps octNewSpace (fun _ => kernelOf squareKernel) (fun _ => exEnv) leastFree [0, 1, 2, 3, 4] s₁ s₂ ∧
    s₂.log = [(0, .assemble 4 2 2, .ok (.handle 5)), (0, .free .matrix (some 5), .ok .nothing),
      (1, .assemble 4 2 2, .ok (.handle 5))] := by
  obtain ⟨M, hM⟩ := octHeap_assembles
  let c : CCall Unit Unit Rat Rat := .assemble 4 2 2
  let m : CObj Unit Unit Rat := .dense .f64 (octFs.globalSize, octFs.globalSize) M
  let h := octHeap
  let h1 := h.alloc m
  let h2 := ({ h1 with next := 6 } : CHeap Unit Unit Rat).store 5 none
  let h3 := ({ h2 with next := 5 } : CHeap Unit Unit Rat).alloc m
  let P := assembleAndFree
  let s0 : CProcess Unit Unit Rat Rat := ⟨h, [⟨P, [], none⟩, ⟨P, [], none⟩], [], false⟩
  let s1 : CProcess Unit Unit Rat Rat := ⟨h, [⟨P, [], some (c, [h])⟩, ⟨P, [], none⟩], [], false⟩
  let s2 : CProcess Unit Unit Rat Rat := ⟨h, [⟨P, [], some (c, [h])⟩, ⟨P, [], some (c, [h])⟩], [], false⟩
  let s3 : CProcess Unit Unit Rat Rat := ⟨h1, [⟨P, [.handle 5], none⟩, ⟨P, [], some (c, [h1, h])⟩], [(0, c, .ok (.handle 5))], false⟩
  let s4 : CProcess Unit Unit Rat Rat := ⟨h2, [⟨P, [.handle 5, .nothing], none⟩, ⟨P, [], some (c, [h2, h1, h])⟩],
    [(0, c, .ok (.handle 5)), (0, .free .matrix (some 5), .ok .nothing)], false⟩
  let s5 : CProcess Unit Unit Rat Rat := ⟨h3, [⟨P, [.handle 5, .nothing], none⟩, ⟨P, [.handle 5], none⟩],
    [(0, c, .ok (.handle 5)), (0, .free .matrix (some 5), .ok .nothing), (1, c, .ok (.handle 5))], false⟩
  have least5 : ∀ {g : CHeap Unit Unit Rat} {vars}, g.live 5 = none → (∀ p, p < 5 → g.live p = h.live p) → leastFree g vars 5 := by
    intro g vars hn hl
    refine ⟨hn, fun b hb => ?_⟩
    rw [hl b hb]
    rcases b with _ | _ | _ | _ | _ | b
    all_goals first
      | omega
      | simp [h, octHeap, CHeap.alloc, CHeap.start]
  have least6 : ∀ {vars}, leastFree h1 vars 6 := by
    intro vars
    refine ⟨rfl, fun b hb => ?_⟩
    rcases b with _ | _ | _ | _ | _ | _ | b
    all_goals first
      | omega
      | simp [h1, h, octHeap, CHeap.alloc, CHeap.start]
  have b0 : CProcess.AllocStep octNewSpace (fun _ => kernelOf squareKernel) (fun _ => exEnv) leastFree [0, 1, 2, 3, 4] s0 s1 :=
    .begins (s := s0) (i := 0) rfl rfl rfl rfl
  have b1 : CProcess.AllocStep octNewSpace (fun _ => kernelOf squareKernel) (fun _ => exEnv) leastFree [0, 1, 2, 3, 4] s1 s2 :=
    .begins (s := s1) (i := 1) rfl rfl rfl rfl
  have f0 : CProcess.AllocStep octNewSpace (fun _ => kernelOf squareKernel) (fun _ => exEnv) leastFree [0, 1, 2, 3, 4] s2 s3 :=
    CProcess.alloc_finish (s := s2) (i := 0) (a := 5) rfl rfl rfl (List.mem_singleton_self _) rfl (least5 rfl fun _ _ => rfl)
      (hM _ fun _ _ => rfl)
  have f1 : CProcess.AllocSteps octNewSpace (fun _ => kernelOf squareKernel) (fun _ => exEnv) leastFree [0, 1, 2, 3, 4] s3 s4 :=
    CProcess.alloc_call (s := s3) (i := 0) (c := .free .matrix (some 5)) (a := 6) (h' := h2) (r := .ok .nothing) rfl rfl rfl rfl rfl
      least6 rfl
  have low : ∀ p, p < 5 → h2.live p = h.live p := by
    intro p hp
    have h5 : p ≠ 5 := by omega
    have h6 : p ≠ octHeap.next := h5
    simp [h2, h1, CHeap.store, CHeap.alloc, h5, h6, h]
  have f2 : CProcess.AllocStep octNewSpace (fun _ => kernelOf squareKernel) (fun _ => exEnv) leastFree [0, 1, 2, 3, 4] s4 s5 :=
    CProcess.alloc_finish (s := s4) (i := 1) (a := 5) rfl rfl rfl List.mem_cons_self rfl (least5 rfl low) (hM _ low)
  refine ⟨s2, s5, (Relation.ReflTransGen.single b0).tail b1, ?_, ((Relation.ReflTransGen.single f0).trans f1).tail f2, rfl⟩
  intro t ht
  simp only [s2, List.mem_cons, List.not_mem_nil, or_false] at ht
  rcases ht with rfl | rfl <;> exact ⟨_, rfl⟩

end Bempp
