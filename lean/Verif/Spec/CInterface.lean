import Verif.Model.CInterface
/-
What a C program may think the objects behind its pointers are, if it is disciplined: values. A space contains what the grid and the
family contained, an assembler contains a copy of its options, and nothing can be used after it was freed. Nothing here mentions
Rust types, their lists or references between objects.

A program is disciplined if it passes each pointer only to functions for this kind of object and only before it has freed it, frees
an object only after everything it was used to make, changes options only while there is no assembler with them, passes the
wavenumber in the precision it asks for, passes buffers that are large enough, and reads through a pointer to the numbers of a matrix
only those numbers and only before it frees the matrix.
-/
namespace Bempp

/-- What a pointer stands for. A `view` is the result of `space_local_space`. -/
inductive CValue (Γ Φ R T : Type) where
  | options (o : Options)
  | grid (borrowed : Bool) (r : RealType) (v : Γ)
  | family (d : DType) (v : Φ)
  | space (d : DType) (borrowed : Bool) (s : Space R T)
  | view
  | assembler (e : Equation) (op : PyOperator) (d : DType) (o : Options)
  | csr (d : DType) (m : Csr T)
  | dense (d : DType) (shape : Nat × Nat) (data : List T)

variable {Γ Φ R T : Type}

/-- The kind of object. -/
def CValue.kind : CValue Γ Φ R T → CKind
  | .options _ => .options
  | .grid .. => .grid
  | .family .. => .family
  | .space .. => .space
  | .view => .space
  | .assembler .. => .assembler
  | .csr .. => .matrix
  | .dense .. => .matrix

/-- The values of the pointers that were not freed, and the pointers from which the objects were made. -/
structure CValues (Γ Φ R T : Type) where
  next : Nat
  value : Nat → Option (CValue Γ Φ R T)
  madeFrom : Nat → List Nat

namespace CValues

/-- No pointers. -/
def start : CValues Γ Φ R T := ⟨0, fun _ => none, fun _ => []⟩

/-- `p` is a pointer to an object of kind `k` that was not freed. -/
def Has (v : CValues Γ Φ R T) (k : CKind) (p : Nat) : Prop := ∃ x, v.value p = some x ∧ x.kind = k

/-- Something that was made from `p` was not freed yet. -/
def Used (v : CValues Γ Φ R T) (p : Nat) : Prop := ∃ q, v.value q ≠ none ∧ p ∈ v.madeFrom q

/-- A new pointer for the value `x`. -/
def add (v : CValues Γ Φ R T) (x : CValue Γ Φ R T) (from' : List Nat) : CValues Γ Φ R T :=
  { next := v.next + 1
    value := fun p => if p = v.next then some x else v.value p
    madeFrom := fun p => if p = v.next then from' else v.madeFrom p }

/-- The value of `p` is now `x`. -/
def put (v : CValues Γ Φ R T) (p : Nat) (x : Option (CValue Γ Φ R T)) : CValues Γ Φ R T :=
  { v with value := fun q => if q = p then x else v.value q }

/-- A call that makes an object, or panics. -/
def made (v : CValues Γ Φ R T) (x : Option (CValue Γ Φ R T)) (from' : List Nat) : CValues Γ Φ R T × Ffi (CResult T) :=
  match x with
  | some x => (v.add x from', .ok (.handle v.next))
  | none => (v, .panic)

end CValues

/-- The scalar type is a real one. -/
def DType.IsReal (d : DType) : Prop := d = .f32 ∨ d = .f64

/-- One of the four operators of the library. -/
def PyOperator.IsLayer (op : PyOperator) : Prop :=
  op = .singleLayer ∨ op = .doubleLayer ∨ op = .adjointDoubleLayer ∨ op = .hypersingular

/-- `src` fits into the buffer of the caller. -/
def Fits {α β : Type} (src : Option (List α)) (buf : NpBuffer β) : Prop := ∀ l, src = some l → l.length ≤ buf.length

/-- The buffer after `src` was copied to its start. -/
def filled {α : Type} (src : List α) (buf : NpBuffer α) : NpBuffer α := src.map some ++ buf.drop src.length

/-- The buffer in a question about a space is large enough. -/
def SpaceQuery.Fits (s : Space R T) : SpaceQuery → Prop
  | .dofNumbers d e buf => Bempp.Fits (s.fs.getLocalDofNumbers d e) buf
  | .cellDofs c buf => Bempp.Fits (s.fs.cellDofs c) buf
  | _ => True

/-- The answer to a question about a space; `none` is a panic. -/
def SpaceQuery.means (d : DType) (s : Space R T) : SpaceQuery → Option (CResult T)
  | .isSerial => some (.bool s.fs.isSerial)
  | .dofNumbersSize dim e => (s.fs.getLocalDofNumbers dim e).map fun l => .nat l.length
  | .dofNumbers dim e buf => (s.fs.getLocalDofNumbers dim e).map fun l => .nats (filled l buf)
  | .localSize => some (.nat s.fs.localSize)
  | .globalSize => some (.nat s.fs.globalSize)
  | .hasCellDofs c => some (.bool (s.fs.cellDofs c).isSome)
  | .cellDofsSize c => (s.fs.cellDofs c).map fun l => .nat l.length
  | .cellDofs c buf => (s.fs.cellDofs c).map fun l => .nats (filled l buf)
  | .globalDofIndex i => (s.fs.globalDofIndex i).map .nat
  | .isOwned i => (s.fs.ownership i).map fun o => .bool (o = .owned)
  | .dtype => some (.dtype d)

/-- The buffer in a question about a matrix is large enough. -/
def MatrixQuery.Fits : MatrixQuery T → CValue Γ Φ R T → Prop
  | .denseCopy buf, .dense _ _ x => x.length ≤ buf.length
  | .csrDataCopy buf, .csr _ m => m.data.length ≤ buf.length
  | .csrIndicesCopy buf, .csr _ m => m.indices.length ≤ buf.length
  | .csrIndptrCopy buf, .csr _ m => m.indptr.length ≤ buf.length
  | _, _ => True

/-- The answer to a question about a matrix; `none` is a panic. -/
def MatrixQuery.means : MatrixQuery T → CValue Γ Φ R T → Option (CResult T)
  | .shape, .csr _ m => some (.shape m.shape)
  | .shape, .dense _ s _ => some (.shape s)
  | .denseCopy buf, .dense _ _ x => some (.values (filled x buf))
  | .csrDataSize, .csr _ m => some (.nat m.data.length)
  | .csrDataCopy buf, .csr _ m => some (.values (filled m.data buf))
  | .csrIndicesSize, .csr _ m => some (.nat m.indices.length)
  | .csrIndicesCopy buf, .csr _ m => some (.nats (filled m.indices buf))
  | .csrIndptrSize, .csr _ m => some (.nat m.indptr.length)
  | .csrIndptrCopy buf, .csr _ m => some (.nats (filled m.indptr buf))
  | _, _ => none

/-- The numbers in an array of a matrix, if there is one. -/
def MatrixPart.content : MatrixPart → CValue Γ Φ R T → Option (List (CResult T))
  | .dense, .dense _ _ x => some (x.map .value)
  | .csrData, .csr _ m => some (m.data.map .value)
  | .csrIndices, .csr _ m => some (m.indices.map .nat)
  | .csrIndptr, .csr _ m => some (m.indptr.map .nat)
  | _, _ => none

/-- The answer to a question about options; `none` is a panic. -/
def OptionQuery.means (o : Options) : OptionQuery → Option (CResult T)
  | .regular t => (o.getRegularQuadratureDegree t).map .nat
  | .hasRegular t => some (.bool (o.getRegularQuadratureDegree t).isSome)
  | .singular t0 t1 => (o.getSingularQuadratureDegree (t0, t1)).map .nat
  | .hasSingular t0 t1 => some (.bool (o.getSingularQuadratureDegree (t0, t1)).isSome)
  | .batch => some (.nat o.getBatchSize)

/-- The options after a change. -/
def OptionChange.means (o : Options) : OptionChange → Options
  | .regular t n => o.setRegularQuadratureDegree t n
  | .singular t0 t1 n => o.setSingularQuadratureDegree (t0, t1) n
  | .batch n => o.setBatchSize n

/-- What a disciplined program may call next. -/
def CCall.Allowed (v : CValues Γ Φ R T) : CCall Γ Φ R T → Prop
  | .createGrid .. => True
  | .createFamily .. => True
  | .free _ none => True
  | .free k (some p) => v.Has k p ∧ ¬ v.Used p
  | .functionSpace g f => v.Has .grid g ∧ v.Has .family f
  | .localSpace s => v.Has .space s
  | .space s q => v.Has .space s ∧ ∀ d b x, v.value s = some (.space d b x) → q.Fits x
  | .newOptions => True
  | .setOptions p _ => v.Has .options p ∧ ¬ v.Used p
  | .getOptions p _ => v.Has .options p
  | .laplaceNew p _ _ => v.Has .options p
  | .helmholtzNew k p _ d => v.Has .options p ∧ (¬ d.IsReal → k.1 = d.real)
  | .assemblerDtype a => v.Has .assembler a
  | .assemble a trial test => v.Has .assembler a ∧ v.Has .space trial ∧ v.Has .space test
  | .assembleSingular a trial test => v.Has .assembler a ∧ v.Has .space trial ∧ v.Has .space test
  | .assembleIntoMemory a trial test data => v.Has .assembler a ∧ v.Has .space trial ∧ v.Has .space test ∧
      ∀ d b x d' b' y, v.value trial = some (.space d b x) → v.value test = some (.space d' b' y) →
        y.fs.globalSize * x.fs.globalSize ≤ data.length
  | .matrix m q => v.Has .matrix m ∧ ∀ x, v.value m = some x → q.Fits x
  | .matrixPointer m _ => v.Has .matrix m
  | .load m part i => v.Has .matrix m ∧ ∃ x l, v.value m = some x ∧ part.content x = some l ∧ i < l.length

/-- `none` is a panic. -/
def orPanic (x : Option (CResult T)) : Ffi (CResult T) :=
  match x with
  | some x => .ok x
  | none => .panic

/-- The assembler of an operator of the Laplace equation. -/
def laplaceOperator [Add T] [Sub T] [Mul T] [Div T] [Neg T] (kernel : Kernel R T) (o : Options) : PyOperator → Option (Assembler R T)
  | .singleLayer => some (Laplace.singleLayer kernel o)
  | .doubleLayer => some (Laplace.doubleLayer kernel o)
  | .adjointDoubleLayer => some (Laplace.adjointDoubleLayer kernel o)
  | .hypersingular => some (Laplace.hypersingular kernel o)
  | _ => none

/-- Assembly can start: a Laplace operator and two spaces of its scalar type on grids of the same kind. -/
def CanAssemble [Add T] [Sub T] [Mul T] [Div T] [Neg T] (kernel : DType → Kernel R T) (v : CValues Γ Φ R T) (a trial test : Nat)
    (d : DType) (asm : Assembler R T) (x y : Space R T) : Prop :=
  ∃ op o b, v.value a = some (.assembler .laplace op d o) ∧ laplaceOperator (kernel d) o op = some asm ∧
    v.value trial = some (.space d b x) ∧ v.value test = some (.space d b y)

/-- The calls of a disciplined program that do not assemble: what is there after the call, and how it ends. -/
inductive CCall.Simple (newSpace : Γ → Φ → Option (Space R T)) (v : CValues Γ Φ R T) :
    CCall Γ Φ R T → CValues Γ Φ R T × Ffi (CResult T) → Prop
  | createGrid b r x : Simple newSpace v (.createGrid b r x) (v.made (some (.grid b r x)) [])
  | createFamily k d x : Simple newSpace v (.createFamily k d x) (v.made (some (.family d x)) [])
  | freeNull k : Simple newSpace v (.free k none) (v, .ok .nothing)
  | free k p : Simple newSpace v (.free k (some p)) (v.put p none, .ok .nothing)
  | functionSpace {g f b r x d y} (hg : v.value g = some (.grid b r x)) (hf : v.value f = some (.family d y)) (h : d.real = r) :
      Simple newSpace v (.functionSpace g f) (v.made ((newSpace x y).map (.space d b)) [g, f])
  | functionSpaceOther {g f b r x d y} (hg : v.value g = some (.grid b r x)) (hf : v.value f = some (.family d y)) (h : d.real ≠ r) :
      Simple newSpace v (.functionSpace g f) (v, .panic)
  | localSpace {s d b x} (hs : v.value s = some (.space d b x)) : Simple newSpace v (.localSpace s) (v.made (some .view) [s])
  | localSpaceView {s} (hs : v.value s = some .view) : Simple newSpace v (.localSpace s) (v, .panic)
  | space {s d b x} q (hs : v.value s = some (.space d b x)) : Simple newSpace v (.space s q) (v, orPanic (q.means d x))
  | spaceView {s} q (hs : v.value s = some .view) : Simple newSpace v (.space s q) (v, .panic)
  | newOptions : Simple newSpace v .newOptions (v.made (some (.options Options.default)) [])
  | setOptions {p o} c (hp : v.value p = some (.options o)) :
      Simple newSpace v (.setOptions p c) (v.put p (some (.options (c.means o))), .ok .nothing)
  | getOptions {p o} q (hp : v.value p = some (.options o)) : Simple newSpace v (.getOptions p q) (v, orPanic (q.means o))
  | laplaceNew {p o op d} (hp : v.value p = some (.options o)) (hop : op.IsLayer) (hd : d.IsReal) :
      Simple newSpace v (.laplaceNew p op d) (v.made (some (.assembler .laplace op d o)) [p])
  | laplaceOther {p op d} (h : ¬ (op.IsLayer ∧ d.IsReal)) : Simple newSpace v (.laplaceNew p op d) (v, .panic)
  | helmholtzNew {k p o op d} (hp : v.value p = some (.options o)) (hop : op.IsLayer) (hd : ¬ d.IsReal) :
      Simple newSpace v (.helmholtzNew k p op d) (v.made (some (.assembler .helmholtz op d o)) [p])
  | helmholtzOther {k p op d} (h : ¬ (op.IsLayer ∧ ¬ d.IsReal)) : Simple newSpace v (.helmholtzNew k p op d) (v, .panic)
  | assemblerDtype {a e op d o} (ha : v.value a = some (.assembler e op d o)) :
      Simple newSpace v (.assemblerDtype a) (v, .ok (.dtype d))
  | matrix {m x} q (hm : v.value m = some x) : Simple newSpace v (.matrix m q) (v, orPanic (q.means x))
  | matrixPointer {m x part} (hm : v.value m = some x) (hc : part.content x ≠ none) :
      Simple newSpace v (.matrixPointer m part) (v, .ok (.pointer m part))
  | matrixPointerOther {m x part} (hm : v.value m = some x) (hc : part.content x = none) :
      Simple newSpace v (.matrixPointer m part) (v, .panic)
  | load {m x part i l y} (hm : v.value m = some x) (hc : part.content x = some l) (hi : l[i]? = some y) :
      Simple newSpace v (.load m part i) (v, .ok y)

section
variable [Zero T] [Add T] [Sub T] [Mul T] [Div T] [Neg T] [Zero R] [Mul R]

/-- The calls of a disciplined program. -/
inductive CCall.Means (newSpace : Γ → Φ → Option (Space R T)) (kernel : DType → Kernel R T) (env : DType → Env R T)
    (v : CValues Γ Φ R T) : CCall Γ Φ R T → CValues Γ Φ R T × Ffi (CResult T) → Prop
  | simple {c e} (h : c.Simple newSpace v e) : Means newSpace kernel env v c e
  | assemble {a trial test d asm x y out} (h : CanAssemble kernel v a trial test d asm x y) (ho : Assemble (env d) asm x y out) :
      Means newSpace kernel env v (.assemble a trial test)
        (v.made (out.map (.dense d (y.fs.globalSize, x.fs.globalSize))) [])
  | assembleSingular {a trial test d asm x y out} (h : CanAssemble kernel v a trial test d asm x y)
      (ho : AssembleSingular (env d) asm x y out) :
      Means newSpace kernel env v (.assembleSingular a trial test) (v.made (out.map (.csr d)) [])
  | assembleIntoMemory {a trial test data d asm x y mem} (h : CanAssemble kernel v a trial test d asm x y)
      (ho : AssembleIntoMemory (env d) asm x y (data.take (y.fs.globalSize * x.fs.globalSize)) (.ok mem)) :
      Means newSpace kernel env v (.assembleIntoMemory a trial test data)
        (v, .ok (.memory (mem ++ data.drop (y.fs.globalSize * x.fs.globalSize))))
  | assembleIntoMemoryPanic {a trial test data d asm x y mem} (h : CanAssemble kernel v a trial test d asm x y)
      (ho : AssembleIntoMemory (env d) asm x y (data.take (y.fs.globalSize * x.fs.globalSize)) (.panicked mem)) :
      Means newSpace kernel env v (.assembleIntoMemory a trial test data) (v, .panic)
  | assembleOther {a trial test} (h : ∀ d asm x y, ¬ CanAssemble kernel v a trial test d asm x y) :
      Means newSpace kernel env v (.assemble a trial test) (v, .panic)
  | assembleSingularOther {a trial test} (h : ∀ d asm x y, ¬ CanAssemble kernel v a trial test d asm x y) :
      Means newSpace kernel env v (.assembleSingular a trial test) (v, .panic)
  | assembleIntoMemoryOther {a trial test data} (h : ∀ d asm x y, ¬ CanAssemble kernel v a trial test d asm x y) :
      Means newSpace kernel env v (.assembleIntoMemory a trial test data) (v, .panic)

/-- A program: the calls one after the other until one ends the process. -/
inductive CMeans (newSpace : Γ → Φ → Option (Space R T)) (kernel : DType → Kernel R T) (env : DType → Env R T) :
    CValues Γ Φ R T → List (CCall Γ Φ R T) → CValues Γ Φ R T → List (Ffi (CResult T)) → Prop
  | nil (v : CValues Γ Φ R T) : CMeans newSpace kernel env v [] v []
  | returned {v v' v'' : CValues Γ Φ R T} {c : CCall Γ Φ R T} {cs : List (CCall Γ Φ R T)} {x : CResult T}
      {rs : List (Ffi (CResult T))} (s : c.Means newSpace kernel env v (v', .ok x)) (t : CMeans newSpace kernel env v' cs v'' rs) :
      CMeans newSpace kernel env v (c :: cs) v'' (.ok x :: rs)
  | ended {v v' : CValues Γ Φ R T} {c : CCall Γ Φ R T} {cs : List (CCall Γ Φ R T)} {r : Ffi (CResult T)}
      (s : c.Means newSpace kernel env v (v', r)) (hr : ∀ x, r ≠ .ok x) : CMeans newSpace kernel env v (c :: cs) v' [r]

/-- Every call of the program is one that a disciplined program may make at this point. -/
def Disciplined (newSpace : Γ → Φ → Option (Space R T)) (kernel : DType → Kernel R T) (env : DType → Env R T) :
    CValues Γ Φ R T → List (CCall Γ Φ R T) → Prop
  | _, [] => True
  | v, c :: cs => c.Allowed v ∧ ∀ v' x, c.Means newSpace kernel env v (v', .ok x) → Disciplined newSpace kernel env v' cs

end
end Bempp
