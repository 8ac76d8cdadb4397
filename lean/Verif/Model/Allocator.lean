import Verif.Model.CInterface
/-
The C interface on a heap whose allocator may give out the address of an object that was freed. `Box::into_raw(Box::new(..))`
(for example `src/bindings/space.rs:38-40`, `src/bindings/boundary_assemblers.rs:36-39`) returns any address that is not in use, and
the functions that free (`cfuncs` with `free`, `src/bindings/space.rs:17`, `src/bindings/boundary_assemblers.rs:26`, and
`src/bindings/boundary_assemblers.rs:43-50`) make an address free again.

A C program keeps the pointers that it got in variables. The calls of a program are given with the numbers of the variables in place
of addresses: the variable `k` holds the pointer to the object that was made as number `k`, freed or not.
-/
namespace Bempp

variable {Γ Φ R T : Type}

/-- The call with other pointers. The functions of `src/bindings/space.rs:20-198`, `src/bindings/matrices.rs:6-138`,
`src/bindings/boundary_assemblers.rs:34-348`. -/
def CCall.rename (f : Nat → Nat) : CCall Γ Φ R T → CCall Γ Φ R T
  | .createGrid b r v => .createGrid b r v
  | .createFamily k d v => .createFamily k d v
  | .free k p => .free k (p.map f)
  | .functionSpace g e => .functionSpace (f g) (f e)
  | .localSpace s => .localSpace (f s)
  | .space s q => .space (f s) q
  | .newOptions => .newOptions
  | .setOptions p c => .setOptions (f p) c
  | .getOptions p q => .getOptions (f p) q
  | .laplaceNew p op d => .laplaceNew (f p) op d
  | .helmholtzNew k p op d => .helmholtzNew k (f p) op d
  | .assemblerDtype a => .assemblerDtype (f a)
  | .assemble a x y => .assemble (f a) (f x) (f y)
  | .assembleSingular a x y => .assembleSingular (f a) (f x) (f y)
  | .assembleIntoMemory a x y data => .assembleIntoMemory (f a) (f x) (f y) data
  | .matrix m q => .matrix (f m) q
  | .matrixPointer m part => .matrixPointer (f m) part
  | .load m part i => .load (f m) part i

/-- The values of the variables: the addresses of the objects in the order in which they were made. -/
abbrev CVars := List Nat

/-- The address in a variable. -/
def CVars.address (vars : CVars) (k : Nat) : Nat := vars.getD k 0

/-- A pointer that a call returned is put in the next variable. For example `python/bempp/function_space.py` does so with `_rs_space`,
and every C program that calls `function_space` (`src/bindings/space.rs:30-41`). -/
def CVars.after (vars : CVars) : CResult T → CVars
  | .handle p => vars ++ [p]
  | _ => vars

/-- A program with variables, with an allocator that gives out an address `a` with `gives h vars a` when the heap is `h` and the
addresses that were given out earlier are `vars`. The calls are made one after the other until one ends the process.
`src/bindings.rs:1-14`. -/
inductive CAllocRuns [Zero T] [Add T] [Sub T] [Mul T] [Div T] [Neg T] [Zero R] [Mul R] (newSpace : Γ → Φ → Option (Space R T))
    (kernel : DType → Kernel R T) (env : DType → Env R T) (gives : CHeap Γ Φ T → CVars → Nat → Prop) :
    CHeap Γ Φ T → CVars → List (CCall Γ Φ R T) → CHeap Γ Φ T → CVars → List (Ffi (CResult T)) → Prop
  | nil (h : CHeap Γ Φ T) (vars : CVars) : CAllocRuns newSpace kernel env gives h vars [] h vars []
  | returned {h h' h'' : CHeap Γ Φ T} {vars vars' : CVars} {a : Nat} {c : CCall Γ Φ R T} {cs : List (CCall Γ Φ R T)} {x : CResult T}
      {rs : List (Ffi (CResult T))} (hg : gives h vars a)
      (s : (c.rename vars.address).Step newSpace kernel env { h with next := a } h' (.ok x))
      (t : CAllocRuns newSpace kernel env gives h' (vars.after x) cs h'' vars' rs) :
      CAllocRuns newSpace kernel env gives h vars (c :: cs) h'' vars' (.ok x :: rs)
  | ended {h h' : CHeap Γ Φ T} {vars : CVars} {a : Nat} {c : CCall Γ Φ R T} {cs : List (CCall Γ Φ R T)} {r : Ffi (CResult T)}
      (hg : gives h vars a) (s : (c.rename vars.address).Step newSpace kernel env { h with next := a } h' r)
      (hr : ∀ x, r ≠ .ok x) : CAllocRuns newSpace kernel env gives h vars (c :: cs) h' vars [r]

end Bempp
