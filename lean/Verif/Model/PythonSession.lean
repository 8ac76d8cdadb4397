import Verif.Model.Python
import Verif.Model.PythonData
/-
Model of whole Python sessions: function spaces (`Model/Python`), options objects, assemblers and the matrices they
assemble (`Model/PythonData`), with the Rust objects behind the options and assemblers. A Rust assembler keeps a reference to
the Rust options it was created with (`src/boundary_assemblers.rs:113`), which Python knows nothing of.

The Rust objects of `Model/Python` and those of this file do not refer to each other, so they are kept on two heaps. The
contents of the space that Rust creates from grid number `g` and family number `f` is a parameter. Values of both precisions
are values of one type `T`; the kernels and the arithmetic of a precision are parameters indexed by the data type.
-/
namespace Bempp

/-- What Rust allocates for options and assemblers. `src/bindings/boundary_assemblers.rs:30-40,127-166`; the reference from the
assembler to its options is `src/boundary_assemblers.rs:113`. -/
inductive AsmObj where
  | options (o : Options)
  | assembler (op : PyOperator) (dtype : DType) (options : Nat)

/-- The Rust heap. Addresses are not reused. `src/bindings/boundary_assemblers.rs:26-50`. -/
structure AsmHeap where
  next : Nat
  live : Nat → Option AsmObj

/-- `Box::into_raw(Box::new(..))`, `boundary_assembler_t_create()`. `src/bindings/boundary_assemblers.rs:35-40,138-139`. -/
def AsmHeap.alloc (h : AsmHeap) (o : AsmObj) : AsmHeap × Nat :=
  ({ next := h.next + 1, live := fun p => if p = h.next then some o else h.live p }, h.next)

/-- A write through a pointer. `src/bindings/boundary_assemblers.rs:58-59,85-86,116-117`. -/
def AsmHeap.store (h : AsmHeap) (p : Nat) (o : AsmObj) : AsmHeap :=
  { h with live := fun q => if q = p then some o else h.live q }

/-- `boundary_assembler_t_free`, `src/bindings/boundary_assemblers.rs:26` (undefined for an object that is not there). -/
def AsmHeap.free (h : AsmHeap) (p : Nat) : Ffi AsmHeap :=
  match h.live p with
  | none => .undefined
  | some _ => .ok { h with live := fun q => if q = p then none else h.live q }

/-- `&(*options).options`. `src/bindings/boundary_assemblers.rs:58,66,74,85,94,105,116,123,137`. -/
def AsmHeap.readOptions (h : AsmHeap) (p : Nat) : Ffi Options :=
  match h.live p with
  | some (.options o) => .ok o
  | _ => .undefined

/-- A Python options object. `python/bempp/assembly/boundary.py:49-51`. -/
structure PyOptObj where
  readOnly : Bool
  rs : Nat

/-- A Python assembler object (always with `owned = True`). `python/bempp/assembly/boundary.py:113-120`. -/
structure PyAsmObj where
  options : Nat
  rs : Nat

/-- All objects of a session. Options object number 0 is the default argument of `create_laplace_assembler`,
`python/bempp/assembly/boundary.py:179`. Options objects that nobody refers to any more are kept in the model: they have no
`__del__`, so that their end changes nothing. `python/bempp/assembly/boundary.py:46-51,110-125`. -/
structure PySession where
  py : Py
  heap : AsmHeap
  options : Nat → Option PyOptObj
  nextOptions : Nat
  assemblers : Nat → Option PyAsmObj
  nextAssembler : Nat

/-- After `import bempp`. `python/bempp/assembly/boundary.py:177-181`. -/
def PySession.start : PySession :=
  { py := Py.start
    heap := ⟨1, fun p => if p = 0 then some (.options Options.default) else none⟩
    options := fun i => if i = 0 then some ⟨false, 0⟩ else none
    nextOptions := 1
    assemblers := fun _ => none
    nextAssembler := 0 }

/-- A call of the user. An argument `dtype = none` is a type that is not in the table `_rtypes`.
`python/bempp/function_space.py:52,72-128,131`, `python/bempp/assembly/boundary.py:49-188`. -/
inductive SessionCall where
  | space (c : PyCall)
  | newOptions
  | setRegular (i : Nat) (t : CellType) (n : Nat)
  | setSingular (i : Nat) (t0 t1 : CellType) (n : Nat)
  | setBatch (i : Nat) (n : Nat)
  | getRegular (i : Nat) (t : CellType)
  | getSingular (i : Nat) (t0 t1 : CellType)
  | getBatch (i : Nat)
  | createLaplace (op : PyOperator) (i : Nat) (dtype : Option DType)
  | deleteAssembler (k : Nat)
  | dtype (k : Nat)
  | assemble (k trial test : Nat)
  | assembleSingular (k trial test : Nat)
  | assembleSingularCorrection (k trial test : Nat)

/-- What a call returns. `python/bempp/assembly/boundary.py:32,71,95,107,141,174`. -/
inductive PyValue (T : Type) where
  | nothing
  | nat (n : Nat)
  | dtype (d : DType)
  | array (a : NpArray T)
  | csr (m : ScipyCsr T)

/-- A setter. `python/bempp/assembly/boundary.py:53-63,75-87,99-103` with
`src/bindings/boundary_assemblers.rs:52-60,69-76,78-87,99-109,111-118`; `has` is `has_..`, `set` is `set_..`. -/
def PySession.setOption {T : Type} (s : PySession) (i : Nat) (has : Options → Bool) (set : Options → Options) :
    PySession × Ffi (PyValue T) :=
  match s.options i with
  | none => (s, .raised)
  | some x =>
    if x.readOnly then (s, .raised)
    else match s.heap.readOptions x.rs with
      | .ok o => if has o then ({ s with heap := s.heap.store x.rs (.options (set o)) }, .ok .nothing) else (s, .raised)
      | _ => (s, .undefined)

/-- A getter: Rust's `unwrap` comes after Python's test. `python/bempp/assembly/boundary.py:65-73,89-97,105-107` with
`src/bindings/boundary_assemblers.rs:61-76,88-109,119-125`. -/
def PySession.getOption {T : Type} (s : PySession) (i : Nat) (get : Options → Option Nat) : Ffi (PyValue T) :=
  match s.options i with
  | none => .raised
  | some x => do
    let o ← s.heap.readOptions x.rs
    if (get o).isSome then return .nat (← Ffi.rust (get o)) else .raised

section
variable {R T : Type} [Add T] [Sub T] [Mul T] [Div T] [Neg T]

/-- `create_laplace_assembler`, `python/bempp/assembly/boundary.py:177-188` and 113-120, with `laplace_boundary_assembler_new`,
`src/bindings/boundary_assemblers.rs:128-166`. The options object becomes read-only when Rust has returned. -/
def PySession.createLaplace (kernel : DType → Kernel R T) (s : PySession) (op : PyOperator) (i : Nat)
    (dtype : Option DType) : PySession × Ffi (PyValue T) :=
  match s.options i with
  | none => (s, .raised)
  | some x =>
    match dtype with
    | none => (s, .raised)
    | some d =>
      match s.heap.readOptions x.rs with
      | .ok o =>
        match createLaplaceAssembler (kernel d) op o d with
        | .ok _ =>
          let (h, p) := s.heap.alloc (.assembler op d x.rs)
          ({ s with
              heap := h
              options := fun j => if j = i then some { x with readOnly := true } else s.options j
              assemblers := fun k => if k = s.nextAssembler then some ⟨i, p⟩ else s.assemblers k
              nextAssembler := s.nextAssembler + 1 }, .ok .nothing)
        | .raised => (s, .raised)
        | .panic => (s, .panic)
        | .undefined => (s, .undefined)
      | _ => (s, .undefined)

/-- What Rust finds behind the pointer of an assembler: the integrand, the kernel and, through the reference, the options as
they are now. `src/bindings/boundary_assemblers.rs:256-270,330-348`, `src/boundary_assemblers.rs:105-116`. -/
def AsmHeap.readAssembler (kernel : DType → Kernel R T) (h : AsmHeap) (p : Nat) : Ffi (PyAssembler R T) :=
  match h.live p with
  | some (.assembler op d q) => do
    let o ← h.readOptions q
    createLaplaceAssembler (kernel d) op o d
  | _ => .undefined

/-- The Rust space behind a Python space: Rust reads the space, its grid and its family.
`python/bempp/function_space.py:105-128`, `python/bempp/assembly/boundary.py:131-139,147-153`. -/
def PySession.readSpace (content : Nat → Nat → PyFs R T) (s : PySession) (k : Nat) : Ffi (PyFs R T) :=
  match s.py.spaces.get? k with
  | none => .raised
  | some x =>
    match useSpaceCall k s.py with
    | .done _ => .ok (content x.grid x.family)
    | .raised _ => .raised
    | .undefined => .undefined

/-- The arguments of `assemble`, `assemble_singular` and `assemble_singular_correction`.
`python/bempp/assembly/boundary.py:127-139,143-153,157-167`. -/
def PySession.readArguments (content : Nat → Nat → PyFs R T) (kernel : DType → Kernel R T) (s : PySession)
    (k trial test : Nat) : Ffi (PyAssembler R T × PyFs R T × PyFs R T) :=
  match s.assemblers k with
  | none => .raised
  | some a => do
    let x ← s.readSpace content trial
    let y ← s.readSpace content test
    let a ← s.heap.readAssembler kernel a.rs
    return (a, x, y)
end

section
variable {R T : Type} [Zero T] [Add T] [Mul T] [Sub T] [Div T] [Neg T] [Zero R] [Mul R]

/-- One call: the state after it and how it can end. `python/bempp/function_space.py:52-144`,
`python/bempp/assembly/boundary.py:49-188`. `assemble_singular_correction` calls a function that the bindings do not have, which
is an `AttributeError`. -/
def SessionCall.Step (content : Nat → Nat → PyFs R T) (kernel : DType → Kernel R T) (env : DType → Env R T)
    (s : PySession) (c : SessionCall) (s' : PySession) (r : Ffi (PyValue T)) : Prop :=
  match c with
  | .space c =>
    match c.run s.py with
    | .done p => s' = { s with py := p } ∧ r = .ok .nothing
    | .raised p => s' = { s with py := p } ∧ r = .raised
    | .undefined => s' = s ∧ r = .undefined
  | .newOptions =>
    let (h, p) := s.heap.alloc (.options Options.default)
    s' = { s with
      heap := h
      options := fun i => if i = s.nextOptions then some ⟨false, p⟩ else s.options i
      nextOptions := s.nextOptions + 1 } ∧ r = .ok .nothing
  | .setRegular i t n =>
    (s', r) = s.setOption i (fun o => (o.getRegularQuadratureDegree t).isSome) (·.setRegularQuadratureDegree t n)
  | .setSingular i t0 t1 n =>
    (s', r) = s.setOption i (fun o => (o.getSingularQuadratureDegree (t0, t1)).isSome)
      (·.setSingularQuadratureDegree (t0, t1) n)
  | .setBatch i n => (s', r) = s.setOption i (fun _ => true) (·.setBatchSize n)
  | .getRegular i t => s' = s ∧ r = s.getOption i (·.getRegularQuadratureDegree t)
  | .getSingular i t0 t1 => s' = s ∧ r = s.getOption i (·.getSingularQuadratureDegree (t0, t1))
  | .getBatch i => s' = s ∧ r = s.getOption i (fun o => some o.getBatchSize)
  | .createLaplace op i d => (s', r) = s.createLaplace kernel op i d
  | .deleteAssembler k =>
    match s.assemblers k with
    | none => s' = s ∧ r = .raised
    | some a =>
      match s.heap.free a.rs with
      | .ok h =>
        s' = { s with heap := h, assemblers := fun j => if j = k then none else s.assemblers j } ∧ r = .ok .nothing
      | _ => s' = s ∧ r = .undefined
  | .dtype k =>
    s' = s ∧ r = match s.assemblers k with
      | none => .raised
      | some a =>
        match s.heap.live a.rs with
        | some (.assembler _ d _) => .ok (.dtype d)
        | _ => .undefined
  | .assemble k trial test =>
    s' = s ∧ match s.readArguments content kernel k trial test with
      | .ok (a, x, y) => ∃ out, PyAssemble (env a.dtype) a x y out ∧ r = (do return .array (← out))
      | .raised => r = .raised
      | .panic => r = .panic
      | .undefined => r = .undefined
  | .assembleSingular k trial test =>
    s' = s ∧ match s.readArguments content kernel k trial test with
      | .ok (a, x, y) => ∃ out, PyAssembleSingular (env a.dtype) a x y out ∧ r = (do return .csr (← out).1)
      | .raised => r = .raised
      | .panic => r = .panic
      | .undefined => r = .undefined
  | .assembleSingularCorrection k trial test =>
    s' = s ∧ r = match s.readArguments content kernel k trial test with
      | .ok (a, x, y) =>
        match checkDtypes a.dtype x.dtype y.dtype with
        | .ok () => .raised
        | .raised => .raised
        | .panic => .panic
        | .undefined => .undefined
      | .raised => .raised
      | .panic => .panic
      | .undefined => .undefined

/-- A session: the calls one after the other until one ends the process. The last argument is how the calls ended.
`python/bempp/function_space.py:52-144`, `python/bempp/assembly/boundary.py:49-188`. -/
inductive SessionRuns (content : Nat → Nat → PyFs R T) (kernel : DType → Kernel R T) (env : DType → Env R T) :
    PySession → List SessionCall → PySession → List (Ffi (PyValue T)) → Prop
  | nil (s : PySession) : SessionRuns content kernel env s [] s []
  | returned {s s' s'' : PySession} {c : SessionCall} {cs : List SessionCall} {r : Ffi (PyValue T)}
      {rs : List (Ffi (PyValue T))} (h : c.Step content kernel env s s' r) (hr : r ≠ .panic ∧ r ≠ .undefined)
      (t : SessionRuns content kernel env s' cs s'' rs) : SessionRuns content kernel env s (c :: cs) s'' (r :: rs)
  | ended {s s' : PySession} {c : SessionCall} {cs : List SessionCall} {r : Ffi (PyValue T)}
      (h : c.Step content kernel env s s' r) (hr : ¬ (r ≠ .panic ∧ r ≠ .undefined)) :
      SessionRuns content kernel env s (c :: cs) s' [r]
end

end Bempp
