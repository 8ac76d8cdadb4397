import Verif.Model.Options
/-
Model of the state that the Python wrappers keep: `python/bempp/function_space.py` (reference counts of
the Rust grids and element families) and `python/bempp/assembly/boundary.py` (options objects).

Python objects are numbers. An attribute that may be missing is an `Option`. Rust objects are allocations
on a heap; to free or use one that is not there is undefined behaviour. Whether a conversion succeeds is not
modelled: it is an argument of each call. Not modelled: the contents of grids and families, the interpreter
shutting down, spaces made by hand with `owned = False`.
-/
namespace Bempp

/-- What Rust allocates for the wrappers; a space refers to its grid and family
(`src/bindings/space.rs:30-41`: `&'static`). -/
inductive RustObj where
  | grid
  | family
  | space (grid family : Nat)
deriving DecidableEq, Repr

/-- The Rust heap: the next address and the live objects. Addresses are not reused.
What the functions of `src/bindings` allocate, for example `src/bindings/space.rs:38-41`. -/
structure RustHeap where
  next : Nat
  live : Nat → Option RustObj

/-- `Box::into_raw(Box::new(..))`. For example `src/bindings/boundary_assemblers.rs:39`. -/
def RustHeap.alloc (h : RustHeap) (o : RustObj) : RustHeap × Nat :=
  ({ next := h.next + 1, live := fun p => if p = h.next then some o else h.live p }, h.next)

/-- `drop(Box::from_raw(ptr))`, `src/bindings/ndgrid.rs:7-14`, `src/bindings/ndelement.rs:8-16`
(`none`: undefined behaviour). -/
def RustHeap.free (h : RustHeap) (p : Nat) : Option RustHeap :=
  match h.live p with
  | none => none
  | some _ => some { h with live := fun q => if q = p then none else h.live q }

/-- The attributes `_bempp_rs_grid`, `_bempp_rs_grid_refcount` of a grid, or the same for a family.
`python/bempp/function_space.py:133-140`. -/
structure Shared where
  rs : Option Nat
  refcount : Option Int

/-- A `FunctionSpace` object, `python/bempp/function_space.py:45-50`. -/
structure PySpace where
  rsSpace : Nat
  grid : Nat
  family : Nat

/-- All Python and Rust objects. What `python/bempp/function_space.py:42-66,131-144` work on. -/
structure Py where
  heap : RustHeap
  grids : Nat → Shared
  families : Nat → Shared
  spaces : Map Nat PySpace
  nextSpace : Nat

/-- Nothing has been created yet: grids and families have none of the attributes.
Before the first call of `python/bempp/function_space.py:131`. -/
def Py.start : Py :=
  { heap := ⟨0, fun _ => none⟩, grids := fun _ => ⟨none, none⟩, families := fun _ => ⟨none, none⟩, spaces := [],
    nextSpace := 0 }

/-- How a call ends: normally, with a Python exception, or with undefined behaviour.
For `python/bempp/function_space.py:52-66,131-144`. -/
inductive PyResult where
  | done (s : Py)
  | raised (s : Py)
  | undefined

/-- Assignments to attributes of a grid, `python/bempp/function_space.py:63-66,134-136`. -/
def Py.setGrid (s : Py) (g : Nat) (a : Shared) : Py :=
  { s with grids := fun x => if x = g then a else s.grids x }

/-- Assignments to attributes of a family, `python/bempp/function_space.py:57-61,138-140`. -/
def Py.setFamily (s : Py) (f : Nat) (a : Shared) : Py :=
  { s with families := fun x => if x = f then a else s.families x }

/-- `if not hasattr(..): .. = recreate_..(..); .._refcount = 0`, `python/bempp/function_space.py:133-135`
and 137-139 (`none`: the conversion raises). -/
def acquire (kind : RustObj) (ok : Bool) (h : RustHeap) (a : Shared) : Option (RustHeap × Shared) :=
  match a.rs with
  | some _ => some (h, a)
  | none =>
    if ok then
      let (h, p) := h.alloc kind
      some (h, { rs := some p, refcount := some 0 })
    else none

/-- `function_space(grid, family)`, `python/bempp/function_space.py:131-144`. -/
def functionSpaceCall (g f : Nat) (gridOk familyOk : Bool) (s : Py) : PyResult :=
  match acquire .grid gridOk s.heap (s.grids g) with
  | none => .raised s
  | some (h, a) =>
    let s := { s.setGrid g a with heap := h }
    match a.refcount with
    | none => .raised s
    | some c =>
      let s := s.setGrid g { a with refcount := some (c + 1) }
      match acquire .family familyOk s.heap (s.families f) with
      | none => .raised s
      | some (h, b) =>
        let s := { s.setFamily f b with heap := h }
        match b.refcount with
        | none => .raised s
        | some d =>
          let s := s.setFamily f { b with refcount := some (d + 1) }
          match a.rs, b.rs with
          | some p, some q =>
            match s.heap.live p, s.heap.live q with
            | some .grid, some .family =>
              let (h, r) := s.heap.alloc (.space p q)
              .done { s with
                heap := h
                spaces := (s.nextSpace, ⟨r, g, f⟩) :: s.spaces
                nextSpace := s.nextSpace + 1 }
            | _, _ => .undefined
          | _, _ => .raised s

/-- How giving back a grid or family ends. For `python/bempp/function_space.py:57-66`. -/
inductive Released where
  | done (h : RustHeap) (a : Shared)
  | raised
  | undefined

/-- `.. -= 1; if .. == 0: free; del ..`, `python/bempp/function_space.py:57-61` (`keepCount = false`) and
63-66 (`keepCount = true`: the count is not deleted). -/
def release (keepCount : Bool) (h : RustHeap) (a : Shared) : Released :=
  match a.refcount with
  | none => .raised
  | some c =>
    if c - 1 = 0 then
      match a.rs with
      | none => .raised
      | some p =>
        match h.free p with
        | none => .undefined
        | some h => .done h { rs := none, refcount := if keepCount then some 0 else none }
    else .done h { a with refcount := some (c - 1) }

/-- `FunctionSpace.__del__`, `python/bempp/function_space.py:52-66`, when the object `k` goes away; nothing if
there is no such object. -/
def deleteSpaceCall (k : Nat) (s : Py) : PyResult :=
  match s.spaces.get? k with
  | none => .done s
  | some x =>
    let s := { s with spaces := s.spaces.filter fun e => e.1 ≠ k }
    match s.heap.free x.rsSpace with
    | none => .undefined
    | some h =>
      let s := { s with heap := h }
      match release false s.heap (s.families x.family) with
      | .raised => .raised s
      | .undefined => .undefined
      | .done h b =>
        let s := { s.setFamily x.family b with heap := h }
        match release true s.heap (s.grids x.grid) with
        | .raised => .raised s
        | .undefined => .undefined
        | .done h a => .done { s.setGrid x.grid a with heap := h }

/-- Any method of a `FunctionSpace` (`python/bempp/function_space.py:72-128`) or its use by an assembler: Rust
reads the space, its grid and its family. -/
def useSpaceCall (k : Nat) (s : Py) : PyResult :=
  match s.spaces.get? k with
  | none => .done s
  | some x =>
    match s.heap.live x.rsSpace with
    | some (.space p q) =>
      match s.heap.live p, s.heap.live q with
      | some .grid, some .family => .done s
      | _, _ => .undefined
    | _ => .undefined

/-- A call of the user. `python/bempp/function_space.py:52,72-128,131`. -/
inductive PyCall where
  | create (grid family : Nat) (gridOk familyOk : Bool)
  | delete (space : Nat)
  | use (space : Nat)

/-- `python/bempp/function_space.py:52-66,72-128,131-144`. -/
def PyCall.run (s : Py) : PyCall → PyResult
  | .create g f gridOk familyOk => functionSpaceCall g f gridOk familyOk s
  | .delete k => deleteSpaceCall k s
  | .use k => useSpaceCall k s

/-- A history of calls; the program goes on after an exception (`none`: undefined behaviour).
Of calls to `python/bempp/function_space.py:52-144`. -/
def runPy (s : Py) : List PyCall → Option Py
  | [] => some s
  | c :: cs =>
    match c.run s with
    | .done s => runPy s cs
    | .raised s => runPy s cs
    | .undefined => none

/-- A Python `BoundaryAssemblerOptions`, `python/bempp/assembly/boundary.py:49-51`. -/
structure PyOptions where
  readOnly : Bool
  rs : Options

/-- A call on an options object or the creation of an assembler. `python/bempp/assembly/boundary.py:53-107,177-188`. -/
inductive OptCall where
  | setRegular (t : CellType) (n : Nat)
  | setSingular (t0 t1 : CellType) (n : Nat)
  | setBatch (n : Nat)
  | createAssembler

/-- The effect of a call on the options object it is made on, and whether it succeeds (`false`: `ValueError`).
`python/bempp/assembly/boundary.py:53-63` (with `has` and `set` of
`src/bindings/boundary_assemblers.rs:51-76`), and in `python/bempp/assembly/boundary.py:75-87,99-103,113-120,177-188`. -/
def OptCall.run (o : PyOptions) : OptCall → PyOptions × Bool
  | .setRegular t n =>
    if o.readOnly then (o, false)
    else if (o.rs.getRegularQuadratureDegree t).isNone then (o, false)
    else ({ o with rs := o.rs.setRegularQuadratureDegree t n }, true)
  | .setSingular t0 t1 n =>
    if o.readOnly then (o, false)
    else if (o.rs.getSingularQuadratureDegree (t0, t1)).isNone then (o, false)
    else ({ o with rs := o.rs.setSingularQuadratureDegree (t0, t1) n }, true)
  | .setBatch n =>
    if o.readOnly then (o, false) else ({ o with rs := o.rs.setBatchSize n }, true)
  | .createAssembler => ({ o with readOnly := true }, true)

/-- All options objects; number 0 is the default argument of `create_laplace_assembler`
(`python/bempp/assembly/boundary.py:177-181`), which is made once and shared by all calls. -/
structure PyOptState where
  objects : List PyOptions

/-- `python/bempp/assembly/boundary.py:49-51`. -/
def PyOptions.new : PyOptions := { readOnly := false, rs := Options.default }

/-- The default argument, `python/bempp/assembly/boundary.py:179`. -/
def PyOptState.start : PyOptState := ⟨[PyOptions.new]⟩

/-- A call in a program with many options objects. `python/bempp/assembly/boundary.py:49-107,177-188`. -/
inductive ProgCall where
  | new
  | call (object : Nat) (c : OptCall)

/-- `python/bempp/assembly/boundary.py:49-107,177-188`. -/
def ProgCall.run (s : PyOptState) : ProgCall → PyOptState × Bool
  | .new => (⟨s.objects ++ [PyOptions.new]⟩, true)
  | .call i c =>
    match s.objects[i]? with
    | none => (s, true)
    | some o => (⟨s.objects.set i (c.run o).1⟩, (c.run o).2)

end Bempp
