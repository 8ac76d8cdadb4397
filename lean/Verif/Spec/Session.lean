import Verif.Spec.Ledger
import Verif.Props.Options
import Verif.Model.PythonSession
/-
What a user of the Python interface may think a session is: everything is a value. An assembler is a pair of a scalar type and
an operator that contains its own copy of the options it was created with. There are no Rust objects, no pointers and no
reference counts, and nothing can be used after it was freed.
-/
namespace Bempp

/-- The spaces (`Spec/Ledger`), the values of the options objects and whether they can still be changed, and the live
assemblers. -/
structure Values (R T : Type) where
  ledger : Ledger
  options : Nat → Option (Options × Bool)
  nextOptions : Nat
  assemblers : Nat → Option (PyAssembler R T)
  nextAssembler : Nat

variable {R T : Type}

/-- There is one options object, which is used where none is given. -/
def Values.start : Values R T :=
  { ledger := Ledger.start
    options := fun i => if i = 0 then some (Options.default, true) else none
    nextOptions := 1
    assemblers := fun _ => none
    nextAssembler := 0 }

/-- A setter changes the value, unless the object cannot be changed or the key is not supported. -/
def Values.setOption (v : Values R T) (i : Nat) (supported : Bool) (set : Options → Options) :
    Values R T × Ffi (PyValue T) :=
  match v.options i with
  | some (o, true) =>
    if supported then ({ v with options := fun j => if j = i then some (set o, true) else v.options j }, .ok .nothing)
    else (v, .raised)
  | _ => (v, .raised)

/-- A getter returns the value, or raises if there is none. -/
def Values.getOption (v : Values R T) (i : Nat) (get : Options → Option Nat) : Ffi (PyValue T) :=
  match v.options i with
  | none => .raised
  | some (o, _) =>
    match get o with
    | none => .raised
    | some n => .ok (.nat n)

/-- The value of the space with number `k`. -/
def Values.space (content : Nat → Nat → PyFs R T) (v : Values R T) (k : Nat) : Option (PyFs R T) :=
  (v.ledger.spaces.lookup k).map fun e => content e.1 e.2

/-- One call. -/
def SessionCall.Means [Zero T] [Add T] [Mul T] [Sub T] [Div T] [Neg T] [Zero R] [Mul R]
    (content : Nat → Nat → PyFs R T) (kernel : DType → Kernel R T) (env : DType → Env R T)
    (v : Values R T) (c : SessionCall) (v' : Values R T) (r : Ffi (PyValue T)) : Prop :=
  match c with
  | .space c => v' = { v with ledger := (v.ledger.call c).1 } ∧
      r = if (v.ledger.call c).2 then .raised else .ok .nothing
  | .newOptions =>
    v' = { v with
      options := fun i => if i = v.nextOptions then some (Options.default, true) else v.options i
      nextOptions := v.nextOptions + 1 } ∧ r = .ok .nothing
  | .setRegular i t n => (v', r) = v.setOption i (decide t.Supported) (·.setRegularQuadratureDegree t n)
  | .setSingular i t0 t1 n =>
    (v', r) = v.setOption i (decide (t0.Supported ∧ t1.Supported)) (·.setSingularQuadratureDegree (t0, t1) n)
  | .setBatch i n => (v', r) = v.setOption i true (·.setBatchSize n)
  | .getRegular i t => v' = v ∧ r = v.getOption i (·.getRegularQuadratureDegree t)
  | .getSingular i t0 t1 => v' = v ∧ r = v.getOption i (·.getSingularQuadratureDegree (t0, t1))
  | .getBatch i => v' = v ∧ r = v.getOption i (fun o => some o.getBatchSize)
  | .createLaplace op i d =>
    match v.options i, d with
    | some (o, _), some d =>
      match createLaplaceAssembler (kernel d) op o d with
      | .ok a =>
        v' = { v with
          options := fun j => if j = i then some (o, false) else v.options j
          assemblers := fun k => if k = v.nextAssembler then some a else v.assemblers k
          nextAssembler := v.nextAssembler + 1 } ∧ r = .ok .nothing
      | _ => v' = v ∧ r = .panic
    | _, _ => v' = v ∧ r = .raised
  | .deleteAssembler k =>
    v' = { v with assemblers := fun j => if j = k then none else v.assemblers j } ∧
      r = if (v.assemblers k).isSome then .ok .nothing else .raised
  | .dtype k =>
    v' = v ∧ r = match v.assemblers k with
      | none => .raised
      | some a => .ok (.dtype a.dtype)
  | .assemble k trial test =>
    v' = v ∧ match v.assemblers k, v.space content trial, v.space content test with
      | some a, some x, some y => ∃ out, PyAssemble (env a.dtype) a x y out ∧ r = (do return .array (← out))
      | _, _, _ => r = .raised
  | .assembleSingular k trial test =>
    v' = v ∧ match v.assemblers k, v.space content trial, v.space content test with
      | some a, some x, some y => ∃ out, PyAssembleSingular (env a.dtype) a x y out ∧ r = (do return .csr (← out).1)
      | _, _, _ => r = .raised
  | .assembleSingularCorrection _ _ _ => v' = v ∧ r = .raised

/-- A session: the calls one after the other until one ends the process. -/
inductive SessionMeans [Zero T] [Add T] [Mul T] [Sub T] [Div T] [Neg T] [Zero R] [Mul R]
    (content : Nat → Nat → PyFs R T) (kernel : DType → Kernel R T) (env : DType → Env R T) :
    Values R T → List SessionCall → Values R T → List (Ffi (PyValue T)) → Prop
  | nil (v : Values R T) : SessionMeans content kernel env v [] v []
  | returned {v v' v'' : Values R T} {c : SessionCall} {cs : List SessionCall} {r : Ffi (PyValue T)}
      {rs : List (Ffi (PyValue T))} (h : c.Means content kernel env v v' r) (hr : r ≠ .panic ∧ r ≠ .undefined)
      (t : SessionMeans content kernel env v' cs v'' rs) : SessionMeans content kernel env v (c :: cs) v'' (r :: rs)
  | ended {v v' : Values R T} {c : SessionCall} {cs : List SessionCall} {r : Ffi (PyValue T)}
      (h : c.Means content kernel env v v' r) (hr : ¬ (r ≠ .panic ∧ r ≠ .undefined)) :
      SessionMeans content kernel env v (c :: cs) v' [r]

end Bempp
