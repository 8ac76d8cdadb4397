import Verif.Model.Concurrent
import Verif.Spec.Assembly
import Mathlib.Data.List.Forall2
/-
Parts of a memory.
-/
namespace Bempp

/-- The `n` entries from position `a`. -/
def partOf {T : Type} (mem : List T) (a n : Nat) : List T := (mem.drop a).take n

/-- Parts of a memory, given by their first positions and lengths, that do not overlap (what `split_at_mut` and
`chunks_mut` return). -/
structure SeparateParts (offsets sizes : List Nat) (total : Nat) : Prop where
  length : offsets.length = sizes.length
  inside : ∀ (i a n : Nat), offsets[i]? = some a → sizes[i]? = some n → a + n ≤ total
  apart : ∀ (i j a n b m : Nat), i ≠ j → offsets[i]? = some a → sizes[i]? = some n → offsets[j]? = some b → sizes[j]? = some m →
    a + n ≤ b ∨ b + m ≤ a

/-- All operations are inside a buffer of `n` entries. -/
def Phases.Inside {T : Type} (p : Phases T) (n : Nat) : Prop := ∀ s ∈ p, ∀ t ∈ s, ∀ o ∈ t, o.addr < n

/-- The arguments of a call of `assemble_into_memory`, other than the buffer. -/
structure DenseCall (R T : Type) where
  env : Env R T
  asm : Assembler R T
  trial : Space R T
  test : Space R T

/-- Entries of the buffer that the call is given. -/
def DenseCall.size {R T : Type} (c : DenseCall R T) : Nat := c.test.fs.globalSize * c.trial.fs.globalSize

/-- What the call can do when it runs alone on a buffer. -/
def DenseCall.Alone {R T : Type} [Zero R] [Mul R] [Zero T] [Add T] [Mul T] (c : DenseCall R T) (mem : List T)
    (o : Outcome (List T)) : Prop := AssembleIntoMemory c.env c.asm c.trial c.test mem o

/-- The spaces of the call were made by `FunctionSpace::new` on one process. -/
def DenseCall.Serial {R T : Type} (c : DenseCall R T) : Prop :=
  ∃ famT famR, SerialSpace c.test.fs famT ∧ SerialSpace c.trial.fs famR

/-- `plans` are operations that the calls can do. -/
def PlansOf {R T : Type} [Zero R] [Mul R] [Zero T] [Add T] [Mul T] (calls : List (DenseCall R T)) (plans : List (Phases T)) : Prop :=
  List.Forall₂ (fun c p => CallPlan c.env c.asm c.trial c.test p) calls plans

end Bempp
