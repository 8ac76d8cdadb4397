import Verif.Spec.SessionMisuse
import Verif.Props.PythonSession
/-
C74: sessions have no undefined behaviour (`C74_defined`) although every use of something that is not there has.
-/
set_option linter.unusedVariables false
set_option linter.unusedSectionVars false
namespace Bempp

variable {R T : Type} [Zero T] [Add T] [Mul T] [Sub T] [Div T] [Neg T] [Zero R] [Mul R]
  {content : Nat → Nat → PyFs R T} {kernel : DType → Kernel R T} {env : DType → Env R T}

theorem AsmHeap.readOptions_lost {h : AsmHeap} {p : Nat} (hp : ¬ h.HasOptions p) : h.readOptions p = .undefined := by
  unfold AsmHeap.readOptions
  split
  · rename_i o ho
    exact absurd ⟨o, ho⟩ hp
  · rfl

theorem AsmHeap.readAssembler_lost {h : AsmHeap} {p : Nat} (hp : ¬ h.HasWhole p) :
    h.readAssembler kernel p = (.undefined : Ffi (PyAssembler R T)) := by
  unfold AsmHeap.readAssembler
  split
  · rename_i op d q ho
    rw [AsmHeap.readOptions_lost fun hq => hp ⟨op, d, q, ho, hq⟩]
    rfl
  · rfl

/-- **C74.** In any state, reading options whose Rust side is gone, or making an assembler with them, is undefined behaviour, and so is changing
them, unless Python refuses because they are read-only. -/
theorem C74_lost_options {s s' : PySession} {c : SessionCall} {r : Ffi (PyValue T)} {i : Nat} {x : PyOptObj} (hx : s.options i = some x)
    (hlost : ¬ s.heap.HasOptions x.rs) (hc : c.readsOptions = some i ∨ c.writesOptions = some i ∧ x.readOnly = false) :
    c.Step content kernel env s s' r ↔ s' = s ∧ r = .undefined := by
  have hl := AsmHeap.readOptions_lost hlost
  have get : ∀ f : Options → Option Nat, s.getOption i f = (.undefined : Ffi (PyValue T)) := by
    intro f
    simp only [PySession.getOption, hx, hl]
    rfl
  have set : ∀ (hr : x.readOnly = false) (f : Options → Bool) (g : Options → Options),
      s.setOption i f g = (s, (.undefined : Ffi (PyValue T))) := by
    intro hr f g
    simp [PySession.setOption, hx, hl, hr]
  cases c with
  | getRegular j t =>
    obtain rfl : j = i := by simpa [SessionCall.readsOptions, SessionCall.writesOptions] using hc
    simp only [SessionCall.Step, get]
  | getSingular j t u =>
    obtain rfl : j = i := by simpa [SessionCall.readsOptions, SessionCall.writesOptions] using hc
    simp only [SessionCall.Step, get]
  | getBatch j =>
    obtain rfl : j = i := by simpa [SessionCall.readsOptions, SessionCall.writesOptions] using hc
    simp only [SessionCall.Step, get]
  | setRegular j t n =>
    obtain ⟨rfl, hr⟩ : j = i ∧ x.readOnly = false := by simpa [SessionCall.readsOptions, SessionCall.writesOptions] using hc
    simp only [SessionCall.Step, set hr, Prod.mk.injEq]
  | setSingular j t u n =>
    obtain ⟨rfl, hr⟩ : j = i ∧ x.readOnly = false := by simpa [SessionCall.readsOptions, SessionCall.writesOptions] using hc
    simp only [SessionCall.Step, set hr, Prod.mk.injEq]
  | setBatch j n =>
    obtain ⟨rfl, hr⟩ : j = i ∧ x.readOnly = false := by simpa [SessionCall.readsOptions, SessionCall.writesOptions] using hc
    simp only [SessionCall.Step, set hr, Prod.mk.injEq]
  | createLaplace op j d =>
    cases d with
    | none => simp [SessionCall.readsOptions, SessionCall.writesOptions] at hc
    | some d =>
      obtain rfl : j = i := by simpa [SessionCall.readsOptions, SessionCall.writesOptions] using hc
      simp only [SessionCall.Step, PySession.createLaplace, hx, hl, Prod.mk.injEq]
  | _ => simp [SessionCall.readsOptions, SessionCall.writesOptions] at hc

/-- **C74.** In any state, asking an assembler whose Rust side is gone for its type is undefined behaviour, and so is freeing it. -/
theorem C74_lost_assembler {s s' : PySession} {r : Ffi (PyValue T)} {k : Nat} {y : PyAsmObj} (hy : s.assemblers k = some y)
    (hlost : ¬ s.heap.HasAssembler y.rs) :
    ((SessionCall.dtype k).Step content kernel env s s' r ↔ s' = s ∧ r = .undefined) ∧
    (s.heap.live y.rs = none → ((SessionCall.deleteAssembler k).Step content kernel env s s' r ↔ s' = s ∧ r = .undefined)) := by
  constructor
  · simp only [SessionCall.Step, hy]
    split
    · rename_i op d q e
      exact absurd ⟨op, d, q, e⟩ hlost
    · exact Iff.rfl
  · intro h0
    simp only [SessionCall.Step, hy, AsmHeap.free, h0]

/-- **C74.** In any state, assembly with two spaces that can be read and an assembler whose Rust side is gone, or whose options are gone, is
undefined behaviour. -/
theorem C74_lost_assembly {s s' : PySession} {r : Ffi (PyValue T)} {k t u : Nat} {y : PyAsmObj} (hy : s.assemblers k = some y)
    {x x' : PyFs R T} (ht : s.readSpace content t = .ok x) (hu : s.readSpace content u = .ok x') (hlost : ¬ s.heap.HasWhole y.rs)
    {c : SessionCall} (hc : c = .assemble k t u ∨ c = .assembleSingular k t u ∨ c = .assembleSingularCorrection k t u) :
    c.Step content kernel env s s' r ↔ s' = s ∧ r = .undefined := by
  have ha : s.readArguments content kernel k t u = (.undefined : Ffi (PyAssembler R T × PyFs R T × PyFs R T)) := by
    have hl := AsmHeap.readAssembler_lost (kernel := kernel) hlost
    simp only [PySession.readArguments, hy, ht, hu, hl]
    rfl
  rcases hc with rfl | rfl | rfl <;> simp only [SessionCall.Step, ha]

/-- **C74.** A session never meets such a state: all that its objects refer to is there. -/
theorem C74_nothing_lost {calls : List SessionCall} {s : PySession} {rs : List (Ffi (PyValue T))}
    (h : SessionRuns content kernel env PySession.start calls s rs) :
    (∀ i x, s.options i = some x → s.heap.HasOptions x.rs) ∧ ∀ k y, s.assemblers k = some y → s.heap.HasWhole y.rs := by
  obtain ⟨w1, -, w3, -, -, w6, -⟩ := C74_what_exists h
  refine ⟨fun i x hx => (w3 x.rs).mpr ⟨i, x, hx, rfl⟩, fun k y hy => ?_⟩
  obtain ⟨op, d, q, e⟩ := (w1 y.rs).mpr ⟨k, y, hy, rfl⟩
  exact ⟨op, d, q, e, w6 _ _ _ _ e⟩

/-- If the default options were freed together with the first assembler that uses them, the next call would be undefined. -/
example : let s : PySession := { PySession.start with heap := ⟨1, fun _ => none⟩ }
    ∀ s' (r : Ffi (PyValue T)), (SessionCall.getBatch 0).Step content kernel env s s' r ↔ s' = s ∧ r = .undefined :=
  fun s' r => C74_lost_options (i := 0) (x := ⟨false, 0⟩) rfl (fun ⟨_, e⟩ => nomatch e) (.inl rfl)

/-- An assembler that is still there while its options are gone, and a space that can be read: assembly would be undefined. -/
example {py : Py} (hpy : runPy Py.start [.create 0 0 true true] = some py) {x : PyFs R T} :
    let s : PySession := { PySession.start with
      py := py
      heap := ⟨2, fun p => if p = 1 then some (.assembler .singleLayer .f64 0) else none⟩
      assemblers := fun k => if k = 0 then some ⟨0, 1⟩ else none }
    s.heap.HasAssembler 1 ∧ ∀ s' (r : Ffi (PyValue T)),
      (SessionCall.assemble 0 0 0).Step (fun _ _ => x) kernel env s s' r ↔ s' = s ∧ r = .undefined := by
  cases hpy
  intro s
  refine ⟨⟨_, _, _, rfl⟩, fun s' r => ?_⟩
  have ht : s.readSpace (fun _ _ => x) 0 = .ok x := rfl
  refine C74_lost_assembly (k := 0) (y := ⟨0, 1⟩) rfl ht ht ?_ (.inl rfl)
  rintro ⟨op, d, q, e, o, ho⟩
  have e' : some (AsmObj.assembler .singleLayer .f64 0) = some (.assembler op d q) := e
  injection e' with e'
  injection e' with _ _ e'
  subst e'
  cases ho

example : ∃ py, runPy Py.start [.create 0 0 true true] = some py := ⟨_, rfl⟩

end Bempp
