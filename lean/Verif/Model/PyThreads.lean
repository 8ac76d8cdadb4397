import Verif.Model.Python
/-
Calls of the Python interface in small steps. `Model/Python` runs each call as a whole. The interpreter can switch to another thread, or run
`__del__` of a space that the garbage collector found, between any two of these steps: `x.a += 1` reads the attribute and writes it later.
Every read or write of an attribute and every call of Rust is one step (Rust's functions are called through cffi one at a time here).
-/
namespace Bempp

/-- A grid or a family: `python/bempp/function_space.py:133-136` and 137-140 are the same for both. -/
inductive Which where
  | grid
  | family
deriving DecidableEq, Repr

/-- What Rust allocates for it. `python/bempp/function_space.py:134,138`. -/
def Which.kind : Which → RustObj
  | .grid => .grid
  | .family => .family

/-- The attributes. `python/bempp/function_space.py:57-66,133-140`. -/
def Py.shared (s : Py) : Which → Nat → Shared
  | .grid, i => s.grids i
  | .family, i => s.families i

/-- An assignment to an attribute. `python/bempp/function_space.py:57-66,133-140`. -/
def Py.setShared (s : Py) : Which → Nat → Shared → Py
  | .grid, i, a => s.setGrid i a
  | .family, i, a => s.setFamily i a

/-- The arguments of `function_space`, and whether the conversions succeed. `python/bempp/function_space.py:131`. -/
structure CreateArgs where
  grid : Nat
  family : Nat
  gridOk : Bool
  familyOk : Bool

/-- `python/bempp/function_space.py:133-140`. -/
def CreateArgs.which (a : CreateArgs) : Which → Nat
  | .grid => a.grid
  | .family => a.family

/-- `python/bempp/function_space.py:134,138`. -/
def CreateArgs.ok (a : CreateArgs) : Which → Bool
  | .grid => a.gridOk
  | .family => a.familyOk

/-- The object that a space refers to. `python/bempp/function_space.py:49-50`. -/
def PySpace.which (x : PySpace) : Which → Nat
  | .grid => x.grid
  | .family => x.family

/-- Where a call is, with its local values. The first ten are in `function_space`, `python/bempp/function_space.py:133-144`, the others in
`__del__`, 55-66. -/
inductive PyPc where
  | has (w : Which) (a : CreateArgs)
  | make (w : Which) (a : CreateArgs)
  | keep (w : Which) (p : Nat) (a : CreateArgs)
  | zero (w : Which) (a : CreateArgs)
  | load (w : Which) (a : CreateArgs)
  | plus (w : Which) (c : Int) (a : CreateArgs)
  | argGrid (a : CreateArgs)
  | argFamily (p : Nat) (a : CreateArgs)
  | new (p q : Nat) (a : CreateArgs)
  | wrap (r : Nat) (a : CreateArgs)
  | drop (x : PySpace)
  | loadDown (w : Which) (x : PySpace)
  | minus (w : Which) (c : Int) (x : PySpace)
  | test (w : Which) (x : PySpace)
  | argFree (w : Which) (x : PySpace)
  | free (w : Which) (p : Nat) (x : PySpace)
  | delRs (w : Which) (x : PySpace)
  | delCount (x : PySpace)
  | use (x : PySpace)
  | over (raised : Bool)

/-- What comes after the lines about a grid or family in `function_space`. `python/bempp/function_space.py:136-144`. -/
def CreateArgs.after (a : CreateArgs) : Which → PyPc
  | .grid => .has .family a
  | .family => .argGrid a

/-- What comes after the lines about a family or grid in `__del__`. `python/bempp/function_space.py:57-66`. -/
def PySpace.after (x : PySpace) : Which → PyPc
  | .family => .loadDown .grid x
  | .grid => .over false

/-- One step (`none`: undefined behaviour). `python/bempp/function_space.py:55-66,72-128,133-144`. -/
def PyPc.step (s : Py) : PyPc → Option (Py × PyPc)
  | .has w a => some (s, if (s.shared w (a.which w)).rs.isSome then .load w a else .make w a)
  | .make w a =>
    if a.ok w then
      let (h, p) := s.heap.alloc w.kind
      some ({ s with heap := h }, .keep w p a)
    else some (s, .over true)
  | .keep w p a => some (s.setShared w (a.which w) { s.shared w (a.which w) with rs := some p }, .zero w a)
  | .zero w a => some (s.setShared w (a.which w) { s.shared w (a.which w) with refcount := some 0 }, .load w a)
  | .load w a =>
    match (s.shared w (a.which w)).refcount with
    | none => some (s, .over true)
    | some c => some (s, .plus w c a)
  | .plus w c a => some (s.setShared w (a.which w) { s.shared w (a.which w) with refcount := some (c + 1) }, a.after w)
  | .argGrid a =>
    match (s.grids a.grid).rs with
    | none => some (s, .over true)
    | some p => some (s, .argFamily p a)
  | .argFamily p a =>
    match (s.families a.family).rs with
    | none => some (s, .over true)
    | some q => some (s, .new p q a)
  | .new p q a =>
    match s.heap.live p, s.heap.live q with
    | some .grid, some .family =>
      let (h, r) := s.heap.alloc (.space p q)
      some ({ s with heap := h }, .wrap r a)
    | _, _ => none
  | .wrap r a =>
    some ({ s with spaces := (s.nextSpace, ⟨r, a.grid, a.family⟩) :: s.spaces, nextSpace := s.nextSpace + 1 }, .over false)
  | .drop x =>
    match s.heap.free x.rsSpace with
    | none => none
    | some h => some ({ s with heap := h }, .loadDown .family x)
  | .loadDown w x =>
    match (s.shared w (x.which w)).refcount with
    | none => some (s, .over true)
    | some c => some (s, .minus w c x)
  | .minus w c x => some (s.setShared w (x.which w) { s.shared w (x.which w) with refcount := some (c - 1) }, .test w x)
  | .test w x =>
    match (s.shared w (x.which w)).refcount with
    | none => some (s, .over true)
    | some c => some (s, if c = 0 then .argFree w x else x.after w)
  | .argFree w x =>
    match (s.shared w (x.which w)).rs with
    | none => some (s, .over true)
    | some p => some (s, .free w p x)
  | .free w p x =>
    match s.heap.free p with
    | none => none
    | some h => some ({ s with heap := h }, .delRs w x)
  | .delRs w x =>
    match (s.shared w (x.which w)).rs with
    | none => some (s, .over true)
    | some _ => some (s.setShared w (x.which w) { s.shared w (x.which w) with rs := none },
        match w with
        | .family => .delCount x
        | .grid => x.after .grid)
  | .delCount x =>
    match (s.families x.family).refcount with
    | none => some (s, .over true)
    | some _ => some (s.setFamily x.family { s.families x.family with refcount := none }, x.after .family)
  | .use x =>
    match s.heap.live x.rsSpace with
    | some (.space p q) =>
      match s.heap.live p, s.heap.live q with
      | some .grid, some .family => some (s, .over false)
      | _, _ => none
    | _ => none
  | .over b => some (s, .over b)

/-- A call begins. A space that is deleted is not reachable any more. `python/bempp/function_space.py:52,72-128,131`. -/
def PyCall.begin (s : Py) : PyCall → Py × PyPc
  | .create g f gridOk familyOk => (s, .has .grid ⟨g, f, gridOk, familyOk⟩)
  | .delete k =>
    match s.spaces.get? k with
    | none => (s, .over false)
    | some x => ({ s with spaces := s.spaces.filter fun e => e.1 ≠ k }, .drop x)
  | .use k =>
    match s.spaces.get? k with
    | none => (s, .over false)
    | some x => (s, .use x)

/-- Several calls that go on at the same time: threads, or `__del__` in the middle of another call. `python/bempp/function_space.py:52-66,131-144`. -/
structure PyProcess where
  py : Py
  calls : List PyPc

/-- What can happen: a call begins, or one of the calls makes a step. `python/bempp/function_space.py:52-66,131-144`. -/
inductive PyProcess.Step : PyProcess → PyProcess → Prop
  | begin (s : PyProcess) (c : PyCall) : Step s ⟨(c.begin s.py).1, s.calls ++ [(c.begin s.py).2]⟩
  | step (s : PyProcess) {i : Nat} {pc pc' : PyPc} {py : Py} (h : s.calls[i]? = some pc) (hs : pc.step s.py = some (py, pc')) :
      Step s ⟨py, s.calls.set i pc'⟩

/-- A call has undefined behaviour in its next step. `python/bempp/function_space.py:52-66,131-144`. -/
def PyProcess.Undefined (s : PyProcess) : Prop := ∃ pc ∈ s.calls, pc.step s.py = none

end Bempp
