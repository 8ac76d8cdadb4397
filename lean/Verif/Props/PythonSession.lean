import Verif.Proofs.Session
import Verif.Spec.ExamplesAssembly
/-
C74: sessions of the Python interface.
-/
set_option linter.unusedVariables false

namespace Bempp

variable {R T : Type}

/-- The calls about function spaces. -/
def spaceCalls (calls : List SessionCall) : List PyCall :=
  calls.filterMap fun
    | .space c => some c
    | _ => none

/-- The number of options objects that a program asks for. -/
def optionsMade (calls : List SessionCall) : Nat :=
  calls.countP fun
    | .newOptions => true
    | _ => false

section
variable [Zero T] [Add T] [Mul T] [Sub T] [Div T] [Neg T] [Zero R] [Mul R]
  {content : Nat → Nat → PyFs R T} {kernel : DType → Kernel R T} {env : DType → Env R T}

/-- **C74.** The results of a session are those of a session in which everything is a value: assemblers own a copy of the options they
were created with, and there are no objects to be freed. Both can end in the same ways. -/
theorem C74_values (calls : List SessionCall) (rs : List (Ffi (PyValue T))) :
    (∃ s, SessionRuns content kernel env PySession.start calls s rs) ↔
      ∃ v, SessionMeans content kernel env Values.start calls v rs := by
  constructor
  · rintro ⟨s, h⟩
    obtain ⟨v, hv, -⟩ := (Agrees.start kernel).runs h
    exact ⟨v, hv⟩
  · rintro ⟨v, h⟩
    obtain ⟨s, hs, -⟩ := (Agrees.start kernel).means h
    exact ⟨s, hs⟩

/-- **C74.** No call of a session uses or frees something that was freed or never existed. -/
theorem C74_defined {calls : List SessionCall} {s : PySession} {rs : List (Ffi (PyValue T))}
    (h : SessionRuns content kernel env PySession.start calls s rs) : ∀ r ∈ rs, r ≠ .undefined := by
  obtain ⟨v, -, -, hd⟩ := (Agrees.start kernel).runs h
  exact hd

/-- The state after a call does not depend on how the call ends. -/
theorem SessionCall.Means.unique {v v₁ v₂ : Values R T} {c : SessionCall} {r₁ r₂ : Ffi (PyValue T)}
    (h₁ : c.Means content kernel env v v₁ r₁) (h₂ : c.Means content kernel env v v₂ r₂) : v₁ = v₂ := by
  cases c with
  | createLaplace op i d =>
    simp only [SessionCall.Means] at h₁ h₂
    repeat' split at h₁
    all_goals
      simp_all only
  | setRegular => exact congrArg Prod.fst ((show _ = _ from h₁).trans (show _ = _ from h₂).symm)
  | setSingular => exact congrArg Prod.fst ((show _ = _ from h₁).trans (show _ = _ from h₂).symm)
  | setBatch => exact congrArg Prod.fst ((show _ = _ from h₁).trans (show _ = _ from h₂).symm)
  | _ => exact h₁.1.trans h₂.1.symm

/-- What calls do not change: an assembler that is not deleted. New ones get new numbers. -/
theorem SessionCall.Means.keeps {v v' : Values R T} {c : SessionCall} {r : Ffi (PyValue T)}
    (h : c.Means content kernel env v v' r) {k : Nat} (hk : k < v.nextAssembler) (hc : c ≠ .deleteAssembler k) :
    v'.assemblers k = v.assemblers k ∧ v.nextAssembler ≤ v'.nextAssembler := by
  have set : ∀ {i : Nat} {b : Bool} {f : Options → Options}, (v', r) = v.setOption i b f →
      v'.assemblers = v.assemblers ∧ v'.nextAssembler = v.nextAssembler := by
    intro i b f e
    unfold Values.setOption at e
    split at e
    · split at e <;> cases e <;> exact ⟨rfl, rfl⟩
    · cases e; exact ⟨rfl, rfl⟩
  cases c with
  | createLaplace op i d =>
    simp only [SessionCall.Means] at h
    split at h
    · split at h
      · rw [h.1]
        exact ⟨if_neg (Nat.ne_of_lt hk), Nat.le_succ _⟩
      · rw [h.1]; exact ⟨rfl, Nat.le_refl _⟩
    · rw [h.1]; exact ⟨rfl, Nat.le_refl _⟩
  | deleteAssembler j =>
    rw [h.1]
    refine ⟨if_neg ?_, Nat.le_refl _⟩
    rintro rfl
    exact hc rfl
  | setRegular => obtain ⟨e1, e2⟩ := set h; rw [e1, e2]; exact ⟨rfl, Nat.le_refl _⟩
  | setSingular => obtain ⟨e1, e2⟩ := set h; rw [e1, e2]; exact ⟨rfl, Nat.le_refl _⟩
  | setBatch => obtain ⟨e1, e2⟩ := set h; rw [e1, e2]; exact ⟨rfl, Nat.le_refl _⟩
  | _ => rw [h.1]; exact ⟨rfl, Nat.le_refl _⟩

/-- The spaces are those of the ledger. -/
theorem SessionCall.Means.ledger {v v' : Values R T} {c : SessionCall} {r : Ffi (PyValue T)}
    (h : c.Means content kernel env v v' r) : v'.ledger = v.ledger.run (spaceCalls [c]) := by
  have set : ∀ {i : Nat} {b : Bool} {f : Options → Options}, (v', r) = v.setOption i b f →
      v'.ledger = v.ledger := by
    intro i b f e
    unfold Values.setOption at e
    split at e
    · split at e <;> cases e <;> rfl
    · cases e; rfl
  cases c with
  | createLaplace op i d =>
    simp only [SessionCall.Means] at h
    split at h
    · split at h <;> rw [h.1] <;> rfl
    · rw [h.1]; rfl
  | setRegular => exact set h
  | setSingular => exact set h
  | setBatch => exact set h
  | _ => rw [h.1]; rfl

theorem spaceCalls_append (a b : List SessionCall) : spaceCalls (a ++ b) = spaceCalls a ++ spaceCalls b :=
  List.filterMap_append

theorem Ledger.run_append (l : Ledger) (a b : List PyCall) : l.run (a ++ b) = (l.run a).run b := List.foldl_append

/-- A session that went through all calls, and one that a part of it is. -/
theorem SessionMeans.ledger {v v' : Values R T} {calls : List SessionCall} {rs : List (Ffi (PyValue T))}
    (h : SessionMeans content kernel env v calls v' rs) :
    v'.ledger = v.ledger.run (spaceCalls (calls.take rs.length)) := by
  induction h with
  | nil v => rfl
  | @returned v v' v'' c cs r rs h hr t ih =>
    rw [ih, h.ledger, List.length_cons, List.take_succ_cons, ← List.singleton_append (l := List.take _ _),
      spaceCalls_append, Ledger.run_append]
  | @ended v v' c cs r h hr =>
    rw [h.ledger]
    rfl

theorem SessionMeans.keeps {v v' : Values R T} {calls : List SessionCall} {rs : List (Ffi (PyValue T))}
    (h : SessionMeans content kernel env v calls v' rs) {k : Nat} (hk : k < v.nextAssembler)
    (hc : .deleteAssembler k ∉ calls) : v'.assemblers k = v.assemblers k := by
  induction h with
  | nil v => rfl
  | @returned v v' v'' c cs r rs h hr t ih =>
    obtain ⟨e, hle⟩ := h.keeps hk (fun e => hc (e ▸ List.mem_cons_self))
    rw [ih (Nat.lt_of_lt_of_le hk hle) (fun m => hc (List.mem_cons_of_mem _ m)), e]
  | @ended v v' c cs r h hr =>
    exact (h.keeps hk (fun e => hc (e ▸ List.mem_cons_self))).1

theorem SessionMeans.length_le {v v' : Values R T} {calls : List SessionCall} {rs : List (Ffi (PyValue T))}
    (h : SessionMeans content kernel env v calls v' rs) : rs.length ≤ calls.length := by
  induction h with
  | nil v => exact Nat.le_refl _
  | returned h hr t ih => exact Nat.succ_le_succ ih
  | ended h hr => exact Nat.succ_le_succ (Nat.zero_le _)

/-- A session that comes to its last part. -/
theorem SessionMeans.split {a b : List SessionCall} {v v' : Values R T} {rs : List (Ffi (PyValue T))}
    (h : SessionMeans content kernel env v (a ++ b) v' rs) (hl : a.length < rs.length) :
    ∃ w ra rb, SessionMeans content kernel env v a w ra ∧ SessionMeans content kernel env w b v' rb ∧ rs = ra ++ rb ∧
      ra.length = a.length := by
  induction a generalizing v rs with
  | nil => exact ⟨v, [], rs, .nil v, h, rfl, rfl⟩
  | cons c a ih =>
    cases h with
    | @returned _ v₁ _ _ _ r rs' hc hr t =>
      obtain ⟨w, ra, rb, h1, h2, e, e'⟩ := ih t (by simpa using hl)
      exact ⟨w, r :: ra, rb, .returned hc hr h1, h2, by rw [e]; rfl, congrArg (· + 1) e'⟩
    | ended hc hr =>
      simp only [List.length_cons, List.length_nil] at hl
      omega

/-- The state after a session that goes through does not depend on the results. -/
theorem SessionMeans.unique {v v₁ v₂ : Values R T} {calls : List SessionCall} {rs₁ rs₂ : List (Ffi (PyValue T))}
    (h₁ : SessionMeans content kernel env v calls v₁ rs₁) (h₂ : SessionMeans content kernel env v calls v₂ rs₂)
    (e₁ : rs₁.length = calls.length) (e₂ : rs₂.length = calls.length) : v₁ = v₂ := by
  induction h₁ generalizing v₂ rs₂ with
  | nil v => cases h₂; rfl
  | @returned v v' v'' c cs r rs h hr t ih =>
    cases h₂ with
    | returned h' hr' t' =>
      have := h.unique h'
      subst this
      exact ih t' (by simpa using e₁) (by simpa using e₂)
    | ended h' hr' =>
      have : cs = [] := by simpa using e₂.symm
      subst this
      cases t
      exact h.unique h'
  | @ended v v' c cs r h hr =>
    have : cs = [] := by simpa using e₁.symm
    subst this
    cases h₂ with
    | returned h' hr' t' => cases t'; exact h.unique h'
    | ended h' hr' => exact h.unique h'

/-- The number of options objects. -/
theorem SessionRuns.counts {s s' : PySession} {calls : List SessionCall} {rs : List (Ffi (PyValue T))}
    (h : SessionRuns content kernel env s calls s' rs) (hd : ∀ r ∈ rs, r ≠ .undefined) :
    s'.nextOptions = s.nextOptions + optionsMade (calls.take rs.length) ∧
      runPy s.py (spaceCalls (calls.take rs.length)) = some s'.py := by
  have step : ∀ {s s' : PySession} {c : SessionCall} {r : Ffi (PyValue T)} (h : c.Step content kernel env s s' r)
      (hr : r ≠ .undefined), s'.nextOptions = s.nextOptions + optionsMade [c] ∧
        ∀ cs, runPy s.py (spaceCalls (c :: cs)) = runPy s'.py (spaceCalls cs) := by
    intro s s' c r h hr
    have set : ∀ {i : Nat} {b : Options → Bool} {f : Options → Options}, (s', r) = s.setOption i b f →
        s'.nextOptions = s.nextOptions ∧ s'.py = s.py := by
      intro i b f e
      unfold PySession.setOption at e
      repeat' split at e
      all_goals cases e; exact ⟨rfl, rfl⟩
    cases c with
    | space c =>
      refine ⟨?_, fun cs => ?_⟩
      · simp only [SessionCall.Step] at h
        split at h <;> rw [h.1] <;> rfl
      · change runPy s.py (c :: spaceCalls cs) = _
        conv_lhs => unfold runPy
        simp only [SessionCall.Step] at h
        split at h
        · rename_i e; rw [e, h.1]
        · rename_i e; rw [e, h.1]
        · exact absurd h.2 hr
    | createLaplace op i d =>
      have : s'.nextOptions = s.nextOptions ∧ s'.py = s.py := by
        have h : (s', r) = s.createLaplace kernel op i d := h
        unfold PySession.createLaplace at h
        repeat' split at h
        all_goals cases h; exact ⟨rfl, rfl⟩
      exact ⟨this.1, fun cs => by rw [this.2]; rfl⟩
    | deleteAssembler k =>
      have : s'.nextOptions = s.nextOptions ∧ s'.py = s.py := by
        simp only [SessionCall.Step] at h
        repeat' split at h
        all_goals rw [h.1]; exact ⟨rfl, rfl⟩
      exact ⟨this.1, fun cs => by rw [this.2]; rfl⟩
    | setRegular => exact ⟨(set h).1, fun cs => by rw [(set h).2]; rfl⟩
    | setSingular => exact ⟨(set h).1, fun cs => by rw [(set h).2]; rfl⟩
    | setBatch => exact ⟨(set h).1, fun cs => by rw [(set h).2]; rfl⟩
    | _ => rw [h.1]; exact ⟨rfl, fun cs => rfl⟩
  induction h with
  | nil s => exact ⟨rfl, rfl⟩
  | @returned s s' s'' c cs r rs h hr t ih =>
    obtain ⟨a, b⟩ := step h hr.2
    obtain ⟨a', b'⟩ := ih fun r hr => hd r (List.mem_cons_of_mem _ hr)
    rw [List.length_cons, List.take_succ_cons]
    refine ⟨?_, by rw [b, b']⟩
    rw [a', a, ← List.singleton_append (l := List.take _ _)]
    unfold optionsMade
    rw [List.countP_append]
    omega
  | @ended s s' c cs r h hr =>
    obtain ⟨a, b⟩ := step h (hd r List.mem_cons_self)
    exact ⟨a, by rw [List.length_singleton, List.take_succ_cons, b]; rfl⟩

/-- **C74.** Which Rust objects exist after a session: one assembler for each Python assembler that has not been deleted, which has the
options of one options object; one options object for each Python options object ever made (they are never freed), with the
default one, and no others. The function spaces are those of `C66_what_exists`. -/
theorem C74_what_exists {calls : List SessionCall} {s : PySession} {rs : List (Ffi (PyValue T))}
    (h : SessionRuns content kernel env PySession.start calls s rs) :
    (∀ p, (∃ op d q, s.heap.live p = some (.assembler op d q)) ↔ ∃ k y, s.assemblers k = some y ∧ y.rs = p) ∧
    (∀ i j x y, s.assemblers i = some x → s.assemblers j = some y → x.rs = y.rs → i = j) ∧
    (∀ p, (∃ o, s.heap.live p = some (.options o)) ↔ ∃ i x, s.options i = some x ∧ x.rs = p) ∧
    (∀ i j x y, s.options i = some x → s.options j = some y → x.rs = y.rs → i = j) ∧
    (∀ i, s.options i ≠ none ↔ i < 1 + optionsMade (calls.take rs.length)) ∧
    (∀ p op d q, s.heap.live p = some (.assembler op d q) → ∃ o, s.heap.live q = some (.options o)) ∧
    runPy Py.start (spaceCalls (calls.take rs.length)) = some s.py := by
  obtain ⟨v, -, a, hd⟩ := (Agrees.start kernel).runs h
  obtain ⟨c1, c2⟩ := h.counts hd
  have asm : ∀ k y, s.assemblers k = some y → ∃ op d q o, s.heap.live y.rs = some (.assembler op d q) ∧
      s.heap.live q = some (.options o) := by
    intro k y hk
    rcases a.asms k with k1 | ⟨y', a', op, d, x, o, k1, k2, k3, k4, k5, k6, k7⟩
    · rw [k1.1] at hk; cases hk
    · rw [k1] at hk
      cases hk
      exact ⟨op, d, x.rs, o, k5, k6⟩
  refine ⟨fun p => ⟨fun ⟨op, d, q, hp⟩ => a.aliveA p op d q hp, ?_⟩, a.injA,
    fun p => ⟨fun ⟨o, hp⟩ => a.aliveO p o hp, ?_⟩, a.injO, fun i => ?_, fun p op d q hp => ?_, c2⟩
  · rintro ⟨k, y, hk, rfl⟩
    obtain ⟨op, d, q, o, e, -⟩ := asm k y hk
    exact ⟨op, d, q, e⟩
  · rintro ⟨i, x, hi, rfl⟩
    rcases a.opts i with k1 | ⟨x', o, k1, k2, k3, k4⟩
    · rw [k1.1] at hi; cases hi
    · rw [k1] at hi
      cases hi
      exact ⟨o, k3⟩
  · change s.nextOptions = 1 + _ at c1
    rw [← c1]
    constructor
    · intro hi
      by_contra hn
      exact hi (a.freshO i (by omega))
    · exact a.usedO i
  · obtain ⟨k, y, hk, rfl⟩ := a.aliveA p op d q hp
    obtain ⟨op', d', q', o, e, e'⟩ := asm k y hk
    rw [hp] at e
    cases e
    exact ⟨o, e'⟩

end

/-- **C74.** From start to end. Any program `before` makes, among other things, options object `i` with value `o`. Then an assembler is
created with it, `later` does anything but delete the assembler, and the assembler is used with two spaces that exist. Unless
something has ended the process before, the last call returns the array of the sums over all pairs of cells, computed
with the options `o` and the given operator; whatever else was created, changed, deleted or assembled. -/
theorem C74_matrix [Zero R] [Mul R] [Neg R] [AddCommMonoid T] [Mul T] [Sub T] [Div T] [Neg T]
    {content : Nat → Nat → PyFs R T} {kernel : DType → Kernel R T} {env : DType → Env R T}
    {before later : List SessionCall} {v : Values R T} {rs₁ : List (Ffi (PyValue T))}
    (h₁ : SessionMeans content kernel env Values.start before v rs₁) (hl₁ : rs₁.length = before.length)
    {i : Nat} {o : Options} {editable : Bool} (ho : v.options i = some (o, editable)) {op : PyOperator}
    {F : MathIntegrand T} (hF : laplaceIntegrand op = some F) {d : DType} (hd : d = .f32 ∨ d = .f64)
    (hk : .deleteAssembler v.nextAssembler ∉ later) {t u : Nat} {g f g' f' : Nat}
    (ht : (Ledger.start.run (spaceCalls (before ++ later))).spaces.lookup t = some (g, f))
    (hu : (Ledger.start.run (spaceCalls (before ++ later))).spaces.lookup u = some (g', f'))
    {trial test : Space R T} (hct : content g f = ⟨trial, d⟩) (hcu : content g' f' = ⟨test, d⟩)
    {famT famR : CellType → ElementDofs} {K : MathKernel R T}
    {GT GR : Geometry R} {BT BR : Basis R T} {Q : Quadrature R} {ct : CellType}
    (h : SpacePair (env d) o trial test famT famR GT GR BT BR Q ct) (hb : 0 < o.batchSize)
    (hK : (kernel d).Computes .value K) (hK' : (kernel d).Computes .valueDeriv K)
    {s : PySession} {rs : List (Ffi (PyValue T))}
    (hr : SessionRuns content kernel env PySession.start
      (before ++ .createLaplace op i (some d) :: (later ++ [.assemble v.nextAssembler t u])) s rs)
    (hl : rs.length = before.length + (later.length + 2)) :
    ∃ A : NpArray T, rs.getLast? = some (.ok (.array A)) ∧
      A.shape0 = test.fs.globalSize ∧ A.shape1 = trial.fs.globalSize ∧
      ∀ i j, i < test.fs.globalSize → j < trial.fs.globalSize → A.item i j =
        some (doubleSum test.fs trial.fs (cellPairValue (env d).cast F K GT GR BT BR Q test.fs trial.fs) i j) := by
  obtain ⟨a, ha, A, hA, s0, s1, hv⟩ := C56_laplace h hb hK hK' hF hd
  refine ⟨A, ?_, s0, s1, hv⟩
  obtain ⟨v', hm, -⟩ := (Agrees.start kernel).runs hr
  obtain ⟨w, ra, rb, m1, m2, e, el⟩ := hm.split (by omega)
  have := m1.unique h₁ el hl₁
  subst this
  have hlb : rb.length = later.length + 2 := by
    have := congrArg List.length e
    rw [List.length_append] at this
    omega
  rw [show (SessionCall.createLaplace op i (some d) :: (later ++ [SessionCall.assemble w.nextAssembler t u])) =
    [.createLaplace op i (some d)] ++ (later ++ [.assemble w.nextAssembler t u]) from rfl] at m2
  obtain ⟨w₁, rc, rd, m3, m4, e', el'⟩ := m2.split (by rw [List.length_singleton]; omega)
  have hld : rd.length = later.length + 1 := by
    have := congrArg List.length e'
    rw [List.length_append, el', List.length_singleton] at this
    omega
  obtain ⟨w₂, re, rf, m5, m6, e'', el''⟩ := m4.split (by omega)
  have E₁ : w₁ = { w with
      options := fun j => if j = i then some (o, false) else w.options j
      assemblers := fun k => if k = w.nextAssembler then some a else w.assemblers k
      nextAssembler := w.nextAssembler + 1 } := by
    cases m3 with
    | returned hc hr t =>
      cases t
      simp only [SessionCall.Means, ho, ha] at hc
      exact hc.1
    | ended hc hr =>
      simp only [SessionCall.Means, ho, ha] at hc
      exact hc.1
  have hasm : w₂.assemblers w.nextAssembler = some a := by
    rw [m5.keeps (k := w.nextAssembler) (by rw [E₁]; exact Nat.lt_succ_self _) hk, E₁]
    exact if_pos rfl
  have hled : w₂.ledger = Ledger.start.run (spaceCalls (before ++ later)) := by
    rw [m5.ledger, el'', List.take_length, E₁]
    change w.ledger.run _ = _
    rw [m1.ledger, el, List.take_length, spaceCalls_append, Ledger.run_append]
    rfl
  have had : a.dtype = d := by
    unfold createLaplaceAssembler at ha
    split at ha
    · cases ha
    · cases op <;> cases ha <;> rfl
  have last : ∀ {v'' r}, (SessionCall.assemble w.nextAssembler t u).Means content kernel env w₂ v'' r →
      r = .ok (.array A) := by
    rintro v'' r ⟨-, hc⟩
    have st : w₂.space content t = some ⟨trial, d⟩ := by
      unfold Values.space
      rw [hled, ht, ← hct]
      rfl
    have su : w₂.space content u = some ⟨test, d⟩ := by
      unfold Values.space
      rw [hled, hu, ← hcu]
      rfl
    rw [hasm, st, su] at hc
    obtain ⟨out, ho, e⟩ := hc
    rw [had] at ho
    rw [(hA out).mp ho] at e
    exact e
  rw [e, e', e'']
  cases m6 with
  | returned hc hr t =>
    cases t
    rw [last hc]
    simp
  | ended hc hr =>
    rw [last hc]
    simp

/-! ### The hypotheses can be met -/

open Examples

/-- A program: options are made and changed, a P1 space on the octahedron and an assembler are created. -/
def exBefore : List SessionCall := [.newOptions, .setRegular 1 .triangle 2, .space (.create 0 0 true true)]

/-- The program goes on: the options cannot be changed any more, a second assembler comes and goes. -/
def exLater : List SessionCall :=
  [.setRegular 1 .triangle 5, .createLaplace .doubleLayer 1 (some .f32), .deleteAssembler 1, .getRegular 1 .triangle]

/-- The program returns from all its calls; the attempt to change the options raises, the getter returns 2, the last call
returns a 6 by 6 array. -/
example : let content : Nat → Nat → PyFs Rat Rat := fun _ _ => ⟨Examples.spaceOf octFs p1 octGeometry p1Basis, .f64⟩
    let kernel : DType → Kernel Rat Rat := fun _ => kernelOf squareKernel
    ∃ s rs A, SessionRuns content kernel (fun _ => exEnv) PySession.start
        (exBefore ++ .createLaplace .singleLayer 1 (some .f64) :: (exLater ++ [.assemble 0 0 0])) s rs ∧
      rs = [.ok .nothing, .ok .nothing, .ok .nothing, .ok .nothing, .raised, .ok .nothing, .ok .nothing, .ok (.nat 2),
        .ok (.array A)] ∧ A.shape0 = 6 ∧ A.shape1 = 6 := by
  intro content kernel
  obtain ⟨a, ha, A, hA, s0, s1, -⟩ := C56_laplace (octSpacePair octFs_space.1 octFs_space.2) (by decide)
    (kernelOf_computes squareKernel _) (kernelOf_computes squareKernel _) (op := .singleLayer) rfl (dt := .f64) (.inr rfl)
  cases ha
  have hm : ∃ v, SessionMeans content kernel (fun _ => exEnv) Values.start
      (exBefore ++ .createLaplace .singleLayer 1 (some .f64) :: (exLater ++ [.assemble 0 0 0])) v
      [.ok .nothing, .ok .nothing, .ok .nothing, .ok .nothing, .raised, .ok .nothing, .ok .nothing, .ok (.nat 2),
        .ok (.array A)] := by
    refine ⟨_, .returned ⟨rfl, rfl⟩ (by simp) (.returned (show _ = _ from rfl) (by simp) (.returned ⟨rfl, ?_⟩ (by simp)
      (.returned (show _ ∧ _ from ⟨rfl, rfl⟩) (by simp) (.returned (show _ = _ from rfl) (by simp)
      (.returned (show _ ∧ _ from ⟨rfl, rfl⟩) (by simp) (.returned ⟨rfl, rfl⟩ (by simp) (.returned ⟨rfl, rfl⟩ (by simp)
      (.returned ⟨rfl, .ok A, (hA _).mpr rfl, rfl⟩ (by simp) (.nil _)))))))))⟩
    have : (Ledger.start.call (.create 0 0 true true)).2 = false := by decide
    exact (if_neg (by rw [show (Values.ledger _).call _ = Ledger.start.call (.create 0 0 true true) from rfl, this]; simp)).symm
  obtain ⟨s, hs⟩ := (C74_values _ _).mpr hm
  have hg : octFs.globalSize = 6 := by decide +kernel
  exact ⟨s, _, A, hs, rfl, s0.trans hg, s1.trans hg⟩

/-- `C74_matrix` for this program. -/
example : let content : Nat → Nat → PyFs Rat Rat := fun _ _ => ⟨Examples.spaceOf octFs p1 octGeometry p1Basis, .f64⟩
    let kernel : DType → Kernel Rat Rat := fun _ => kernelOf squareKernel
    ∀ s rs, SessionRuns content kernel (fun _ => exEnv) PySession.start
        (exBefore ++ .createLaplace .singleLayer 1 (some .f64) :: (exLater ++ [.assemble 0 0 0])) s rs → rs.length = 9 →
      ∃ A : NpArray Rat, rs.getLast? = some (.ok (.array A)) ∧ ∀ i j, i < 6 → j < 6 → A.item i j =
        some (doubleSum octFs octFs (cellPairValue exEnv.cast slF squareKernel octGeometry octGeometry p1Basis p1Basis
          smallRules octFs octFs) i j) := by
  intro content kernel s rs hr hl
  have hm : SessionMeans content kernel (fun _ => exEnv) Values.start exBefore
      { ledger := ⟨[(0, 0, 0)], 1, []⟩
        options := fun j => if j = 1 then some (smallOptions, true)
          else if j = 1 then some (Options.default, true) else if j = 0 then some (Options.default, true) else none
        nextOptions := 2
        assemblers := fun _ => none
        nextAssembler := 0 } [.ok .nothing, .ok .nothing, .ok .nothing] := by
    refine .returned ⟨rfl, rfl⟩ (by simp) (.returned (show _ = _ from rfl) (by simp) (.returned ⟨?_, ?_⟩ (by simp)
      (.nil _)))
    · have : (Ledger.start.call (.create 0 0 true true)).1 = ⟨[(0, 0, 0)], 1, []⟩ := by
        simp only [Ledger.call, Ledger.start, Ledger.hasGrid, Ledger.hasFamily]
        simp
      rw [← this]
      rfl
    · have : (Ledger.start.call (.create 0 0 true true)).2 = false := by decide
      exact (if_neg (by rw [show (Values.ledger _).call _ = Ledger.start.call (.create 0 0 true true) from rfl, this]; simp)).symm
  have hg : octFs.globalSize = 6 := by decide +kernel
  obtain ⟨A, h1, -, -, h2⟩ := C74_matrix (content := content) (kernel := kernel) (env := fun _ => exEnv) hm rfl (i := 1)
    (o := smallOptions) (editable := true) rfl (op := .singleLayer) rfl (d := .f64) (.inr rfl) (later := exLater)
    (by simp [exLater]) (t := 0) (u := 0) (g := 0) (f := 0) (g' := 0) (f' := 0) (by decide) (by decide) rfl rfl
    (octSpacePair octFs_space.1 octFs_space.2) (by decide) (kernelOf_computes squareKernel _)
    (kernelOf_computes squareKernel _) hr hl
  exact ⟨A, h1, fun i j hi hj => h2 i j (by rw [← hg] at hi; exact hi) (by rw [← hg] at hj; exact hj)⟩

end Bempp
