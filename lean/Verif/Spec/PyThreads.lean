import Verif.Model.PyThreads
/-
For C117: runs of one call, and runs of several calls at the same time.
-/
namespace Bempp

/-- The steps of one call while nothing else happens. -/
inductive PyPc.Runs : Py → PyPc → Py → PyPc → Prop
  | refl (s : Py) (pc : PyPc) : Runs s pc s pc
  | step {s s' s'' : Py} {pc pc' pc'' : PyPc} (h : pc.step s = some (s', pc')) (t : Runs s' pc' s'' pc'') : Runs s pc s'' pc''

/-- A call that nothing interrupts ends in this way. -/
def PyCall.EndsAs (c : PyCall) (s : Py) : PyResult → Prop
  | .done s' => PyPc.Runs (c.begin s).1 (c.begin s).2 s' (.over false)
  | .raised s' => PyPc.Runs (c.begin s).1 (c.begin s).2 s' (.over true)
  | .undefined => ∃ s' pc, PyPc.Runs (c.begin s).1 (c.begin s).2 s' pc ∧ pc.step s' = none

/-- Any number of steps of any of the calls. -/
inductive PyProcess.Steps : PyProcess → PyProcess → Prop
  | refl (s : PyProcess) : Steps s s
  | step {s s' s'' : PyProcess} (h : s.Step s') (t : Steps s' s'') : Steps s s''

/-- Nothing has happened yet. -/
def PyProcess.start : PyProcess := ⟨Py.start, []⟩

/-- The grid or family whose attributes a call reads and writes, until the call is over. The methods of a space do not look at them. -/
def PyPc.uses : PyPc → Which → Option Nat
  | .has _ a, w | .make _ a, w | .keep _ _ a, w | .zero _ a, w | .load _ a, w | .plus _ _ a, w | .argGrid a, w | .argFamily _ a, w
  | .new _ _ a, w | .wrap _ a, w => some (a.which w)
  | .drop x, w | .loadDown _ x, w | .minus _ _ x, w | .test _ x, w | .argFree _ x, w | .free _ _ x, w | .delRs _ x, w | .delCount x, w =>
    some (x.which w)
  | .use _, _ | .over _, _ => none

/-- The space that a call deletes, until the call is over. -/
def PyPc.deletes : PyPc → Option PySpace
  | .drop x | .loadDown _ x | .minus _ _ x | .test _ x | .argFree _ x | .free _ _ x | .delRs _ x | .delCount x => some x
  | _ => none

/-- No two calls that make or delete spaces work on the same grid or the same family, and no space is deleted while one of its methods runs
(Python does not delete objects that somebody uses). -/
def PyProcess.Apart (s : PyProcess) : Prop :=
  ∀ (i j : Nat) (pc pc' : PyPc), s.calls[i]? = some pc → s.calls[j]? = some pc' → i ≠ j →
    (∀ w n, pc.uses w = some n → pc'.uses w ≠ some n) ∧ ∀ x, pc = .use x → pc'.deletes ≠ some x

/-- Any number of steps, where the calls that overlap are always apart. -/
inductive PyProcess.ApartSteps : PyProcess → PyProcess → Prop
  | refl (s : PyProcess) : ApartSteps s s
  | step {s s' s'' : PyProcess} (t : ApartSteps s s') (h : s'.Step s'') (a : s''.Apart) : ApartSteps s s''

/-- A call only raises when it tries a conversion that fails. -/
def PyPc.RaisesOnly (pc pc' : PyPc) : Prop := pc' = .over true → pc = .over true ∨ ∃ w a, pc = PyPc.make w a ∧ a.ok w = false

/-- `n` steps of one call, whatever the other calls do in between: each step may begin in any state. -/
inductive PyPc.Own : Nat → PyPc → PyPc → Prop
  | none (pc : PyPc) : Own 0 pc pc
  | next {n : Nat} {pc pc' pc'' : PyPc} {s s' : Py} : Own n pc pc' → pc'.step s = some (s', pc'') → Own (n + 1) pc pc''

/-- The addresses that the next step gives to Rust. -/
def PyPc.gives : PyPc → List Nat
  | .new p q _ => [p, q]
  | .drop x => [x.rsSpace]
  | .free _ p _ => [p]
  | .use x => [x.rsSpace]
  | _ => []

/-- A schedule: a call that begins, or the number of a call that makes a step. -/
def PyProcess.exec : PyProcess → List (PyCall ⊕ Nat) → Option PyProcess
  | s, [] => some s
  | s, .inl c :: l => exec ⟨(c.begin s.py).1, s.calls ++ [(c.begin s.py).2]⟩ l
  | s, .inr i :: l =>
    match s.calls[i]? with
    | none => none
    | some pc =>
      match pc.step s.py with
      | none => none
      | some (py, pc') => exec ⟨py, s.calls.set i pc'⟩ l

theorem PyProcess.exec_steps {l : List (PyCall ⊕ Nat)} {s s' : PyProcess} (h : s.exec l = some s') : s.Steps s' := by
  induction l generalizing s with
  | nil => cases h; exact .refl _
  | cons x l ih =>
    cases x with
    | inl c => exact .step (.begin s c) (ih h)
    | inr i =>
      unfold PyProcess.exec at h
      split at h
      · cases h
      · rename_i pc e
        split at h
        · cases h
        · rename_i py pc' e'
          exact .step (.step s e e') (ih h)

end Bempp
