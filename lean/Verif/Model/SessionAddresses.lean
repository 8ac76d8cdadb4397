import Verif.Model.PythonSession
/-
Sessions of the Python interface with an allocator that chooses the addresses, so that addresses of objects that were freed can be given again.
`Model/Python` and `Model/PythonSession` give every object a new address. The two parts of the memory (spaces, grids and families; options
and assemblers) have one allocator each. Addresses in different parts can be equal here, which is more than the program can do.
-/
namespace Bempp

/-- An allocator: from the number of objects that were allocated before and from what is in the memory, the address of the next object.
The first argument lets it give different addresses in the same memory. Behind `Box::into_raw(Box::new(..))`, for example
`src/bindings/boundary_assemblers.rs:39`. -/
abbrev Picker (α : Type) := Nat → (Nat → Option α) → Nat

/-- `Box::into_raw(Box::new(..))`. For example `src/bindings/space.rs:38-41`. -/
def RustHeap.allocAt (pick : Picker RustObj) (h : RustHeap) (o : RustObj) : RustHeap × Nat :=
  ({ next := h.next + 1, live := fun p => if p = pick h.next h.live then some o else h.live p }, pick h.next h.live)

/-- `boundary_assembler_t_create()`. `src/bindings/boundary_assemblers.rs:35-40,138-139`. -/
def AsmHeap.allocAt (pick : Picker AsmObj) (h : AsmHeap) (o : AsmObj) : AsmHeap × Nat :=
  ({ next := h.next + 1, live := fun p => if p = pick h.next h.live then some o else h.live p }, pick h.next h.live)

/-- `if not hasattr(..): .. = recreate_..(..); .._refcount = 0`, `python/bempp/function_space.py:133-135` and 137-139. -/
def acquireAt (pick : Picker RustObj) (kind : RustObj) (ok : Bool) (h : RustHeap) (a : Shared) : Option (RustHeap × Shared) :=
  match a.rs with
  | some _ => some (h, a)
  | none =>
    if ok then
      let (h, p) := h.allocAt pick kind
      some (h, { rs := some p, refcount := some 0 })
    else none

/-- `function_space(grid, family)`, `python/bempp/function_space.py:131-144`. -/
def functionSpaceAt (pick : Picker RustObj) (g f : Nat) (gridOk familyOk : Bool) (s : Py) : PyResult :=
  match acquireAt pick .grid gridOk s.heap (s.grids g) with
  | none => .raised s
  | some (h, a) =>
    let s := { s.setGrid g a with heap := h }
    match a.refcount with
    | none => .raised s
    | some c =>
      let s := s.setGrid g { a with refcount := some (c + 1) }
      match acquireAt pick .family familyOk s.heap (s.families f) with
      | none => .raised s
      | some (h, b) =>
        let s := { s.setFamily f b with heap := h }
        match b.refcount with
        | none => .raised s
        | some d =>
          let s := s.setFamily f { b with refcount := some (d + 1) }
          match a.rs, b.rs with
          | some p, some q =>
            match s.heap.live p, s.heap.live q with
            | some .grid, some .family =>
              let (h, r) := s.heap.allocAt pick (.space p q)
              .done { s with
                heap := h
                spaces := (s.nextSpace, ⟨r, g, f⟩) :: s.spaces
                nextSpace := s.nextSpace + 1 }
            | _, _ => .undefined
          | _, _ => .raised s

/-- A call about function spaces. `python/bempp/function_space.py:52-66,72-128,131-144`. -/
def PyCall.runAt (pick : Picker RustObj) (s : Py) : PyCall → PyResult
  | .create g f gridOk familyOk => functionSpaceAt pick g f gridOk familyOk s
  | .delete k => deleteSpaceCall k s
  | .use k => useSpaceCall k s

section
variable {R T : Type} [Add T] [Sub T] [Mul T] [Div T] [Neg T]

/-- `create_laplace_assembler`, `python/bempp/assembly/boundary.py:177-188` and 113-120, with `laplace_boundary_assembler_new`,
`src/bindings/boundary_assemblers.rs:128-166`. -/
def PySession.createLaplaceAt (pick : Picker AsmObj) (kernel : DType → Kernel R T) (s : PySession) (op : PyOperator) (i : Nat)
    (dtype : Option DType) : PySession × Ffi (PyValue T) :=
  match s.options i with
  | none => (s, .raised)
  | some x =>
    match dtype with
    | none => (s, .raised)
    | some d =>
      match s.heap.readOptions x.rs with
      | .ok o =>
        match createLaplaceAssembler (kernel d) op o d with
        | .ok _ =>
          let (h, p) := s.heap.allocAt pick (.assembler op d x.rs)
          ({ s with
              heap := h
              options := fun j => if j = i then some { x with readOnly := true } else s.options j
              assemblers := fun k => if k = s.nextAssembler then some ⟨i, p⟩ else s.assemblers k
              nextAssembler := s.nextAssembler + 1 }, .ok .nothing)
        | .raised => (s, .raised)
        | .panic => (s, .panic)
        | .undefined => (s, .undefined)
      | _ => (s, .undefined)
end

section
variable {R T : Type} [Zero T] [Add T] [Mul T] [Sub T] [Div T] [Neg T] [Zero R] [Mul R]

/-- One call. Calls that allocate nothing are those of `Model/PythonSession`. `python/bempp/function_space.py:52-144`,
`python/bempp/assembly/boundary.py:49-188`. -/
def SessionCall.StepAt (pick : Picker RustObj) (pickAsm : Picker AsmObj) (content : Nat → Nat → PyFs R T) (kernel : DType → Kernel R T)
    (env : DType → Env R T) (s : PySession) (c : SessionCall) (s' : PySession) (r : Ffi (PyValue T)) : Prop :=
  match c with
  | .space c =>
    match c.runAt pick s.py with
    | .done p => s' = { s with py := p } ∧ r = .ok .nothing
    | .raised p => s' = { s with py := p } ∧ r = .raised
    | .undefined => s' = s ∧ r = .undefined
  | .newOptions =>
    let (h, p) := s.heap.allocAt pickAsm (.options Options.default)
    s' = { s with
      heap := h
      options := fun i => if i = s.nextOptions then some ⟨false, p⟩ else s.options i
      nextOptions := s.nextOptions + 1 } ∧ r = .ok .nothing
  | .createLaplace op i d => (s', r) = s.createLaplaceAt pickAsm kernel op i d
  | c => c.Step content kernel env s s' r

/-- A session: the calls one after the other until one ends the process. `python/bempp/function_space.py:52-144`,
`python/bempp/assembly/boundary.py:49-188`. -/
inductive SessionRunsAt (pick : Picker RustObj) (pickAsm : Picker AsmObj) (content : Nat → Nat → PyFs R T) (kernel : DType → Kernel R T)
    (env : DType → Env R T) : PySession → List SessionCall → PySession → List (Ffi (PyValue T)) → Prop
  | nil (s : PySession) : SessionRunsAt pick pickAsm content kernel env s [] s []
  | returned {s s' s'' : PySession} {c : SessionCall} {cs : List SessionCall} {r : Ffi (PyValue T)}
      {rs : List (Ffi (PyValue T))} (h : c.StepAt pick pickAsm content kernel env s s' r) (hr : r ≠ .panic ∧ r ≠ .undefined)
      (t : SessionRunsAt pick pickAsm content kernel env s' cs s'' rs) : SessionRunsAt pick pickAsm content kernel env s (c :: cs) s'' (r :: rs)
  | ended {s s' : PySession} {c : SessionCall} {cs : List SessionCall} {r : Ffi (PyValue T)}
      (h : c.StepAt pick pickAsm content kernel env s s' r) (hr : ¬ (r ≠ .panic ∧ r ≠ .undefined)) :
      SessionRunsAt pick pickAsm content kernel env s (c :: cs) s' [r]
end

end Bempp
