import Verif.Proofs.CThreads
import Verif.Props.CInterface
import Verif.Props.Options
/-
C109: programs whose threads use the C interface at the same time.
-/
set_option linter.unusedVariables false
set_option linter.unusedSectionVars false
namespace Bempp

variable {Γ Φ R T : Type}

section
variable [Zero T] [Add T] [Sub T] [Mul T] [Div T] [Neg T] [Zero R] [Mul R] {newSpace : Γ → Φ → Option (Space R T)}
  {kernel : DType → Kernel R T} {env : DType → Env R T}

/-- **C109.** If there is no data race on the way, the calls of all threads, in the order in which they ended, are a sequence of calls one
after the other with the same results and the same memory at the end, and the calls of each thread are those of its program. -/
theorem C109_sequence {h₀ : CHeap Γ Φ T} (hs : h₀.Sound) {progs : List (List (CResult T) → Option (CCall Γ Φ R T))}
    {s : CProcess Γ Φ R T} (h : CProcess.Clean newSpace kernel env (CProcess.start h₀ progs) s) :
    CRuns newSpace kernel env h₀ (s.log.map fun x => x.2.1) s.heap (s.log.map fun x => x.2.2) ∧
      (∀ x ∈ s.log, x.1 < progs.length) ∧ ∀ (i : Nat) prog, progs[i]? = some prog → FollowsProg prog (s.logOf i) := by
  have hg := h.good hs
  refine ⟨hg.runs, ?_, fun i prog hi => ?_⟩
  · have key : ∀ {s}, CProcess.Clean newSpace kernel env (CProcess.start h₀ progs) s →
        s.threads.length = progs.length ∧ ∀ x ∈ s.log, x.1 < progs.length := by
      intro s h
      induction h with
      | start _ => simp [CProcess.start]
      | step _ st _ ih =>
        cases st with
        | begins => simpa using ih
        | @finishes i t c seen v v' r running thread current view call =>
          refine ⟨by simpa using ih.1, fun x hx => ?_⟩
          rcases List.mem_append.mp hx with hx | hx
          · exact ih.2 x hx
          · rw [List.mem_singleton.mp hx, ← ih.1]
            exact (List.getElem?_eq_some_iff.mp thread).1
    exact (key h).2
  · rw [← hg.progs, List.getElem?_map, Option.map_eq_some_iff] at hi
    obtain ⟨t, ht, rfl⟩ := hi
    exact hg.follows i t ht

/-- **C109.** Threads that share what was there when they started, and otherwise use, change and free only what they made themselves, have
no data race, whatever their programs and whatever the schedule. -/
theorem C109_polite {h₀ : CHeap Γ Φ T} (hs : h₀.Sound) {progs : List (List (CResult T) → Option (CCall Γ Φ R T))}
    (hp : ∀ prog ∈ progs, Polite h₀ prog) {s : CProcess Γ Φ R T}
    (h : CProcess.Steps newSpace kernel env (CProcess.start h₀ progs) s) :
    CProcess.Clean newSpace kernel env (CProcess.start h₀ progs) s :=
  (CProcess.Steps.polite hs hp h).1

/-- **C109.** What was there when polite threads started is still there, and unchanged. -/
theorem C109_shared {h₀ : CHeap Γ Φ T} (hs : h₀.Sound) {progs : List (List (CResult T) → Option (CCall Γ Φ R T))}
    (hp : ∀ prog ∈ progs, Polite h₀ prog) {s : CProcess Γ Φ R T}
    (h : CProcess.Steps newSpace kernel env (CProcess.start h₀ progs) s) (p : Nat) (hlt : p < h₀.next) :
    s.heap.live p = h₀.live p := by
  induction h with
  | refl => rfl
  | tail h st ih =>
    obtain ⟨hc, ho⟩ := CProcess.Steps.polite hs hp h
    have hg := hc.good hs
    cases st with
    | begins => exact ih
    | @finishes i t c seen v v' r running thread current view call =>
      have ef := (hg.alone thread current view call).does
      have hpol := hg.polite hp thread current
      show (CHeap.patch _ v v').live p = _
      generalize CHeap.patch _ v v' = h' at ef
      rw [← ih]
      have hlow := ho.low
      cases ef with
      | keep => rfl
      | alloc o _ =>
        simp only [CHeap.alloc]
        rw [if_neg (by omega)]
      | store q o hq _ _ =>
        have := (ho.handles i t thread q (hpol.2 q hq)).1
        simp only [CHeap.store]
        rw [if_neg (by omega)]

/-- **C109.** If the sequence of all calls is disciplined, the threads get what they would get if everything behind the pointers were a
value, and no call has undefined behaviour. -/
theorem C109_values {progs : List (List (CResult T) → Option (CCall Γ Φ R T))} {s : CProcess Γ Φ R T}
    (h : CProcess.Clean newSpace kernel env (CProcess.start CHeap.start progs) s)
    (hd : Disciplined newSpace kernel env CValues.start (s.log.map fun x => x.2.1)) :
    (∃ v, CMeans newSpace kernel env CValues.start (s.log.map fun x => x.2.1) v (s.log.map fun x => x.2.2)) ∧
      ∀ x ∈ s.log, x.2.2 = .panic ∨ ∃ y, x.2.2 = .ok y := by
  have hr := (C109_sequence (fun p o ho => by simp [CHeap.start] at ho) h).1
  exact ⟨(C97_values hd _).mp ⟨_, hr⟩, fun x hx => C97_defined hd hr _ (List.mem_map_of_mem hx)⟩

/-- A call that is alone. -/
theorem CProcess.finish_now {s : CProcess Γ Φ R T} {i : Nat} {t : CThread Γ Φ R T} {c : CCall Γ Φ R T} {seen : List (CHeap Γ Φ T)}
    {h' : CHeap Γ Φ T} {r : Ffi (CResult T)} (running : s.ended = false) (thread : s.threads[i]? = some t)
    (current : t.current = some (c, seen)) (hseen : s.heap ∈ seen) (call : c.Step newSpace kernel env s.heap h' r) :
    CProcess.Step newSpace kernel env s
      { heap := h', threads := (s.threads.set i { t with done := t.done ++ r.results, current := none }).map (CThread.sees h'),
        log := s.log ++ [(i, c, r)], ended := r.results.isEmpty } := by
  have e : s.heap.patch s.heap h' = h' := by
    refine CHeap.same rfl fun p => ?_
    simp only [CHeap.patch]
    split
    · rename_i h; exact h.symm
    · rfl
  have := CProcess.Step.finishes (newSpace := newSpace) (kernel := kernel) (env := env) running thread current
    ⟨rfl, fun p => ⟨s.heap, hseen, rfl⟩⟩ call
  rwa [e] at this

/-- **C109.** Every order is possible: at any time a thread that is between two calls can make its next call, and this can end in every way in
which it can end if it is alone. -/
theorem C109_any_order {s : CProcess Γ Φ R T} {i : Nat} {t : CThread Γ Φ R T} {c : CCall Γ Φ R T} {h' : CHeap Γ Φ T}
    {r : Ffi (CResult T)} (running : s.ended = false) (thread : s.threads[i]? = some t) (idle : t.current = none)
    (next : t.prog t.done = some c) (call : c.Step newSpace kernel env s.heap h' r) :
    ∃ s', CProcess.Steps newSpace kernel env s s' ∧ s'.heap = h' ∧ s'.log = s.log ++ [(i, c, r)] := by
  have h1 := CProcess.Step.begins (newSpace := newSpace) (kernel := kernel) (env := env) running thread idle next
  have h2 := CProcess.finish_now (newSpace := newSpace) (kernel := kernel) (env := env) (i := i)
    (t := { t with current := some (c, [s.heap]) }) (c := c) (seen := [s.heap]) (r := r) (h' := h')
    (s := { s with threads := s.threads.set i { t with current := some (c, [s.heap]) } }) running
    (List.getElem?_set_self (List.getElem?_eq_some_iff.mp thread).1) rfl (List.mem_singleton_self _) call
  exact ⟨_, (Relation.ReflTransGen.single h1).tail h2, rfl, rfl⟩

/-- Only options. -/
def onlyOptions (o : Options) : CHeap Γ Φ T := CHeap.start.alloc (.options o)

theorem onlyOptions_live (o : Options) (p : Nat) : (onlyOptions o : CHeap Γ Φ T).live p = if p = 0 then some (.options o) else none := rfl

theorem onlyOptions_set {o : Options} {c : OptionChange} {h' : CHeap Γ Φ T} {r : Ffi (CResult T)} :
    (CCall.setOptions 0 c : CCall Γ Φ R T).Step newSpace kernel env (onlyOptions o) h' r ↔ h' = onlyOptions (c.apply o) ∧ r = .ok .nothing := by
  have h1 : (onlyOptions o : CHeap Γ Φ T).readOptions 0 = .ok o := rfl
  have h2 : ¬ (onlyOptions o : CHeap Γ Φ T).Borrowed 0 := by
    rintro ⟨q, e, op, d, h⟩
    rw [onlyOptions_live] at h
    split at h <;> cases h
  have h3 : (onlyOptions o : CHeap Γ Φ T).store 0 (some (.options (c.apply o))) = onlyOptions (c.apply o) := by
    refine CHeap.same rfl fun p => ?_
    simp only [CHeap.store, onlyOptions_live]
    split <;> rfl
  show (h', r) = (onlyOptions o : CHeap Γ Φ T).call newSpace (.setOptions 0 c : CCall Γ Φ R T) ↔ _
  simp only [CHeap.call, h1, h2, if_false, h3, Prod.mk.injEq]

theorem onlyOptions_two {o : Options} {c d : OptionChange} {h' : CHeap Γ Φ T} {rs : List (Ffi (CResult T))}
    (h : CRuns newSpace kernel env (onlyOptions o) [(.setOptions 0 c : CCall Γ Φ R T), .setOptions 0 d] h' rs) :
    h' = onlyOptions (d.apply (c.apply o)) := by
  cases h with
  | returned s t =>
    obtain ⟨rfl, -⟩ := onlyOptions_set.mp s
    cases t with
    | returned s t =>
      obtain ⟨rfl, -⟩ := onlyOptions_set.mp s
      cases t
      rfl
    | ended s hr => exact (onlyOptions_set.mp s).1
  | ended s hr => exact absurd (onlyOptions_set.mp s).2 (hr _)

/-- The calls of the two threads in the next theorem. -/
def setTwo (t : CellType) (m n : Nat) : List (List (CResult T) → Option (CCall Γ Φ R T)) :=
  [fun done => if done.isEmpty then some (.setOptions 0 (.regular t m)) else none,
    fun done => if done.isEmpty then some (.setOptions 0 (.batch n)) else none]

/-- **C109.** Without the condition this is false: if two threads change the same options, one change can be lost although both calls return. No
order of the two calls leaves this memory. -/
theorem C109_race {o : Options} {t : CellType} {k m n : Nat} (hk : o.getRegularQuadratureDegree t = some k) (hm : k ≠ m) (hn : o.batchSize ≠ n) :
    ∃ s, CProcess.Steps newSpace kernel env
        (CProcess.start (onlyOptions o : CHeap Γ Φ T) (setTwo t m n : List (List (CResult T) → Option (CCall Γ Φ R T)))) s ∧
      s.log = [(0, .setOptions 0 (.regular t m), .ok .nothing), (1, .setOptions 0 (.batch n), .ok .nothing)] ∧
      (∀ rs, ¬ CRuns newSpace kernel env (onlyOptions o : CHeap Γ Φ T)
        [.setOptions 0 (.regular t m), .setOptions 0 (.batch n)] s.heap rs) ∧
      ∀ rs, ¬ CRuns newSpace kernel env (onlyOptions o : CHeap Γ Φ T)
        [.setOptions 0 (.batch n), .setOptions 0 (.regular t m)] s.heap rs := by
  have lost : (onlyOptions (o.setBatchSize n) : CHeap Γ Φ T) ≠ onlyOptions ((o.setRegularQuadratureDegree t m).setBatchSize n) ∧
      (onlyOptions (o.setBatchSize n) : CHeap Γ Φ T) ≠ onlyOptions ((o.setBatchSize n).setRegularQuadratureDegree t m) := by
    have key : ∀ o', o'.getRegularQuadratureDegree t = some m → (onlyOptions (o.setBatchSize n) : CHeap Γ Φ T) ≠ onlyOptions o' := by
      intro o' ho e
      have e1 := congrArg (fun h : CHeap Γ Φ T => h.live 0) e
      simp only [onlyOptions_live, if_true, Option.some.injEq, CObj.options.injEq] at e1
      rw [← e1] at ho
      have : o.getRegularQuadratureDegree t = some m := ho
      rw [hk] at this
      exact hm (Option.some.inj this)
    have hg : (o.setRegularQuadratureDegree t m).getRegularQuadratureDegree t = some m := by
      unfold Options.getRegularQuadratureDegree at hk
      simp [Options.getRegularQuadratureDegree, Options.setRegularQuadratureDegree, get_andModify, hk]
    exact ⟨key _ hg, key _ hg⟩
  let oR := o.setRegularQuadratureDegree t m
  have hpatch : (onlyOptions oR : CHeap Γ Φ T).patch (onlyOptions o) (onlyOptions (o.setBatchSize n)) = onlyOptions (o.setBatchSize n) := by
    refine CHeap.same rfl fun p => ?_
    by_cases hp : p = 0
    · subst hp
      refine if_neg fun e => hn ?_
      simp only [onlyOptions_live, if_true, Option.some.injEq, CObj.options.injEq] at e
      exact (congrArg Options.batchSize e).symm
    · simp [CHeap.patch, onlyOptions_live, hp]
  let p0 : List (CResult T) → Option (CCall Γ Φ R T) := fun done => if done.isEmpty then some (.setOptions 0 (.regular t m)) else none
  let p1 : List (CResult T) → Option (CCall Γ Φ R T) := fun done => if done.isEmpty then some (.setOptions 0 (.batch n)) else none
  let h : CHeap Γ Φ T := onlyOptions o
  let hR : CHeap Γ Φ T := onlyOptions oR
  let s0 : CProcess Γ Φ R T := ⟨h, [⟨p0, [], none⟩, ⟨p1, [], none⟩], [], false⟩
  let s1 : CProcess Γ Φ R T := ⟨h, [⟨p0, [], some (.setOptions 0 (.regular t m), [h])⟩, ⟨p1, [], none⟩], [], false⟩
  let s2 : CProcess Γ Φ R T :=
    ⟨h, [⟨p0, [], some (.setOptions 0 (.regular t m), [h])⟩, ⟨p1, [], some (.setOptions 0 (.batch n), [h])⟩], [], false⟩
  let s3 : CProcess Γ Φ R T := ⟨hR, [⟨p0, [.nothing], none⟩, ⟨p1, [], some (.setOptions 0 (.batch n), [hR, h])⟩],
    [(0, .setOptions 0 (.regular t m), .ok .nothing)], false⟩
  have b0 : CProcess.Step newSpace kernel env s0 s1 := CProcess.Step.begins (s := s0) (i := 0) rfl rfl rfl rfl
  have b1 : CProcess.Step newSpace kernel env s1 s2 := CProcess.Step.begins (s := s1) (i := 1) rfl rfl rfl rfl
  have f0 : CProcess.Step newSpace kernel env s2 s3 := CProcess.finish_now (s := s2) (i := 0) rfl rfl rfl (List.mem_singleton_self _)
    (onlyOptions_set.mpr ⟨rfl, rfl⟩)
  have f1 := CProcess.Step.finishes (newSpace := newSpace) (kernel := kernel) (env := env) (s := s3) (i := 1) (v := h) rfl rfl rfl
    ⟨rfl, fun p => ⟨h, List.mem_cons_of_mem _ (List.mem_singleton_self _), rfl⟩⟩ (onlyOptions_set.mpr ⟨rfl, rfl⟩)
  have e : s3.heap.patch h (onlyOptions ((OptionChange.batch n).apply o)) = onlyOptions (o.setBatchSize n) := hpatch
  rw [e] at f1
  exact ⟨_, (((Relation.ReflTransGen.single b0).tail b1).tail f0).tail f1, rfl, fun rs hr => lost.1 (onlyOptions_two hr),
    fun rs hr => lost.2 (onlyOptions_two hr)⟩

/-- The options of the library and two changes of which one is lost. -/
example : Options.default.getRegularQuadratureDegree .triangle = some 37 ∧ (37 : Nat) ≠ 4 ∧ Options.default.batchSize ≠ 64 := by decide

end

/-! ### Two threads that assemble at the same time -/

namespace Examples

/-- The octahedron: a grid, a family, a space, options and an assembler. -/
def octHeap : CHeap Unit Unit Rat :=
  ((((CHeap.start.alloc (.grid false .f64 ())).alloc (.family .lagrange .f64 ())).alloc (.space .f64 false .f64 0 1)).alloc
    (.options smallOptions)).alloc (.assembler .laplace .singleLayer .f64 3)

/-- A thread that assembles a matrix and frees it. -/
def assembleAndFree : List (CResult Rat) → Option (CCall Unit Unit Rat Rat)
  | [] => some (.assemble 4 2 2)
  | [.handle p] => some (.free .matrix (some p))
  | _ => none

end Examples

open Examples

theorem octHeap_sound : octHeap.Sound := by
  intro p o ho
  have hn : octHeap.next = 5 := rfl
  rw [hn]
  rcases p with _ | _ | _ | _ | _ | p <;> simp [octHeap, CHeap.alloc, CHeap.start] at ho <;> subst ho <;> simp [CObj.refs]

theorem assembleAndFree_polite : Polite octHeap assembleAndFree := by
  intro done c hc
  unfold assembleAndFree at hc
  split at hc
  · cases hc
    exact ⟨fun p hp => .inl (by simp [CCall.args] at hp; rcases hp with rfl | rfl <;> decide), by simp [CCall.changes]⟩
  · cases hc
    exact ⟨fun q hq => .inr (by simpa [CCall.args, handlesOf] using hq), fun q hq => by simpa [CCall.changes, handlesOf] using hq⟩
  · cases hc

theorem octHeap_assembles : ∃ M : List Rat, ∀ h : CHeap Unit Unit Rat, (∀ p, p < 5 → h.live p = octHeap.live p) →
    (CCall.assemble 4 2 2 : CCall Unit Unit Rat Rat).Step octNewSpace (fun _ => kernelOf squareKernel) (fun _ => exEnv) h
      (h.alloc (.dense .f64 (octFs.globalSize, octFs.globalSize) M)) (.ok (.handle h.next)) := by
  obtain ⟨M, hM, -, -⟩ := C14_operators (octSpacePair octFs_space.1 octFs_space.2)
    (.laplaceSingleLayer (kernelOf_computes squareKernel .value)) (by decide)
  refine ⟨M, fun h hl => ?_⟩
  have ha : h.arguments octNewSpace (fun _ => kernelOf squareKernel) 4 2 2 =
      .ok (.f64, Laplace.singleLayer (kernelOf squareKernel) smallOptions, Examples.spaceOf octFs p1 octGeometry p1Basis,
        Examples.spaceOf octFs p1 octGeometry p1Basis) := by
    have h0 : octHeap.arguments octNewSpace (fun _ => kernelOf squareKernel) 4 2 2 =
      .ok (.f64, Laplace.singleLayer (kernelOf squareKernel) smallOptions, Examples.spaceOf octFs p1 octGeometry p1Basis,
        Examples.spaceOf octFs p1 octGeometry p1Basis) := by
      have hm2 : [RustType.assembler .laplace .singleLayer .f64, .space .f64 false .f64, .space .f64 false .f64] ∈
        RustType.assembleTable := by decide
      simp [octHeap, CHeap.arguments, CHeap.read, CHeap.alloc, CHeap.start, CObj.kind, CObj.type, Bind.bind, Ffi.bind,
        concretise, hm2, CHeap.readOptions, CHeap.spaceOf, createLaplaceAssembler, octNewSpace, Ffi.mem, pure]
    rw [← h0]
    refine CHeap.arguments_congr (c := (.assemble 4 2 2 : CCall Unit Unit Rat Rat)) rfl fun p hp => hl p ?_
    exact CCall.uses_lt octHeap_sound (fun q hq => by simp [CCall.args] at hq; rcases hq with rfl | rfl <;> decide) hp
  simp only [CCall.Step, ha]
  exact ⟨some M, (hM _).mpr rfl, rfl⟩

/-- Both threads are in the middle of the assembly at the same time; the second one ends first. Then both matrices are there, with the same
numbers. -/
example : ∃ (M : List Rat) (s₁ s₂ : CProcess Unit Unit Rat Rat),
    CProcess.Steps octNewSpace (fun _ => kernelOf squareKernel) (fun _ => exEnv)
      (CProcess.start octHeap [assembleAndFree, assembleAndFree]) s₁ ∧
    (∀ t ∈ s₁.threads, ∃ seen, t.current = some (.assemble 4 2 2, seen)) ∧
    CProcess.Steps octNewSpace (fun _ => kernelOf squareKernel) (fun _ => exEnv) s₁ s₂ ∧
    s₂.log = [(1, .assemble 4 2 2, .ok (.handle 5)), (0, .assemble 4 2 2, .ok (.handle 6))] ∧
    s₂.heap.live 5 = some (.dense .f64 (octFs.globalSize, octFs.globalSize) M) ∧
    s₂.heap.live 6 = some (.dense .f64 (octFs.globalSize, octFs.globalSize) M) ∧
    CProcess.Clean octNewSpace (fun _ => kernelOf squareKernel) (fun _ => exEnv)
      (CProcess.start octHeap [assembleAndFree, assembleAndFree]) s₂ := by
  obtain ⟨M, hM⟩ := octHeap_assembles
  let c : CCall Unit Unit Rat Rat := .assemble 4 2 2
  let h := octHeap
  let h1 := h.alloc (.dense .f64 (octFs.globalSize, octFs.globalSize) M)
  let h2 := h1.alloc (.dense .f64 (octFs.globalSize, octFs.globalSize) M)
  let s0 : CProcess Unit Unit Rat Rat := ⟨h, [⟨assembleAndFree, [], none⟩, ⟨assembleAndFree, [], none⟩], [], false⟩
  let s1 : CProcess Unit Unit Rat Rat := ⟨h, [⟨assembleAndFree, [], some (c, [h])⟩, ⟨assembleAndFree, [], none⟩], [], false⟩
  let s2 : CProcess Unit Unit Rat Rat := ⟨h, [⟨assembleAndFree, [], some (c, [h])⟩, ⟨assembleAndFree, [], some (c, [h])⟩], [], false⟩
  let s3 : CProcess Unit Unit Rat Rat := ⟨h1, [⟨assembleAndFree, [], some (c, [h1, h])⟩, ⟨assembleAndFree, [.handle 5], none⟩],
    [(1, c, .ok (.handle 5))], false⟩
  let s4 : CProcess Unit Unit Rat Rat := ⟨h2, [⟨assembleAndFree, [.handle 6], none⟩, ⟨assembleAndFree, [.handle 5], none⟩],
    [(1, c, .ok (.handle 5)), (0, c, .ok (.handle 6))], false⟩
  have b0 : CProcess.Step octNewSpace (fun _ => kernelOf squareKernel) (fun _ => exEnv) s0 s1 := .begins (s := s0) (i := 0) rfl rfl rfl rfl
  have b1 : CProcess.Step octNewSpace (fun _ => kernelOf squareKernel) (fun _ => exEnv) s1 s2 := .begins (s := s1) (i := 1) rfl rfl rfl rfl
  have f1 : CProcess.Step octNewSpace (fun _ => kernelOf squareKernel) (fun _ => exEnv) s2 s3 :=
    CProcess.finish_now (s := s2) (i := 1) rfl rfl rfl (List.mem_singleton_self _) (hM h fun _ _ => rfl)
  have f0 : CProcess.Step octNewSpace (fun _ => kernelOf squareKernel) (fun _ => exEnv) s3 s4 :=
    CProcess.finish_now (s := s3) (i := 0) rfl rfl rfl List.mem_cons_self (hM h1 fun p hp => by
      have : p ≠ octHeap.next := Nat.ne_of_lt hp
      simp [h1, h, CHeap.alloc, this])
  have st1 := (Relation.ReflTransGen.single b0).tail b1
  have st2 := (Relation.ReflTransGen.single f1).tail f0
  refine ⟨M, s2, s4, st1, ?_, st2, rfl, rfl, rfl, C109_polite octHeap_sound ?_ (st1.trans st2)⟩
  · intro t ht
    simp only [s2, List.mem_cons, List.not_mem_nil, or_false] at ht
    rcases ht with rfl | rfl <;> exact ⟨_, rfl⟩
  · intro p hp
    simp only [List.mem_cons, List.not_mem_nil, or_false, or_self] at hp
    exact hp ▸ assembleAndFree_polite

end Bempp
