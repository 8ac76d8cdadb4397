import Verif.Spec.Sparse
import Verif.Proofs.Galerkin
/-
Sums of triplets.
-/
set_option linter.unusedSectionVars false

namespace Bempp

variable {R T : Type}

/-- Sum of a list of triplets at `(i, j)`. -/
def tsum [Zero T] [Add T] (l : List ((Nat × Nat) × T)) (i j : Nat) : T :=
  (l.map fun x => if x.1 = (i, j) then x.2 else 0).sum

theorem tripletSum_ofTriplets [Zero T] [Add T] (shape : Nat × Nat) (l : List ((Nat × Nat) × T)) (i j : Nat) :
    tripletSum (Sparse.ofTriplets shape l).rows (Sparse.ofTriplets shape l).cols
      (Sparse.ofTriplets shape l).data i j = tsum l i j := by
  have := Sparse.triplets_ofTriplets shape l
  unfold Sparse.triplets at this
  unfold tripletSum tsum
  rw [this]

section
variable [AddCommMonoid T]

theorem tsum_perm {l l' : List ((Nat × Nat) × T)} (h : l.Perm l') (i j : Nat) : tsum l i j = tsum l' i j :=
  (h.map _).sum_eq

theorem tsum_append (l l' : List ((Nat × Nat) × T)) (i j : Nat) :
    tsum (l ++ l') i j = tsum l i j + tsum l' i j := by
  simp [tsum]

theorem tsum_flatMap {α : Type} (l : List α) (f : α → List ((Nat × Nat) × T)) (i j : Nat) :
    tsum (l.flatMap f) i j = (l.map fun x => tsum (f x) i j).sum := by
  induction l with
  | nil => simp [tsum]
  | cons x l ih => rw [List.flatMap_cons, tsum_append, ih]; simp

/-- On a column-major buffer the triplets add their sums. -/
theorem contrib_triplets {n m : Nat} {l : List ((Nat × Nat) × T)} (hl : ∀ x ∈ l, x.1.1 < n ∧ x.1.2 < m)
    {i : Nat} (hi : i < n) (j : Nat) : contrib (tripletOps n l) (i + n * j) = tsum l i j := by
  unfold contrib tripletOps tsum
  rw [List.map_map]
  congr 1
  apply List.map_congr_left
  intro x hx
  simp only [Function.comp]
  have hx := (hl x hx).1
  have : x.1.1 + n * x.1.2 = i + n * j ↔ x.1 = (i, j) := by
    rw [Prod.ext_iff]
    constructor
    · intro e
      have h1 : x.1.1 = i := by
        have := congrArg (· % n) e
        simpa [Nat.add_mul_mod_self_left, Nat.mod_eq_of_lt hx, Nat.mod_eq_of_lt hi] using this
      refine ⟨h1, ?_⟩
      rw [h1] at e
      exact Nat.eq_of_mul_eq_mul_left (by omega) (Nat.add_left_cancel e)
    · rintro ⟨e1, e2⟩; simp only [e1, e2]
  simp only [this]

theorem tsum_local (test trial : FunctionSpace) (td rd : List Nat) (v : Nat → Nat → T) (i j : Nat) :
    tsum (localTriplets test trial td rd ((List.range rd.length).map fun b => (List.range td.length).map
      fun a => v a b)) i j =
    ((td.map test.gdof).zipIdx.map fun (ia : Nat × Nat) => (((rd.map trial.gdof).zipIdx).map
      fun (jb : Nat × Nat) => if ia.1 = i ∧ jb.1 = j then v ia.2 jb.2 else 0).sum).sum := by
  unfold localTriplets
  rw [zip_range_map0, List.flatMap_map, tsum_flatMap, sum_swap, List.zipIdx_map (l := rd), List.map_map]
  congr 1
  apply List.map_congr_left
  intro jb _
  simp only [Function.comp]
  rw [zip_range_map0, List.map_map, List.zipIdx_map, List.map_map]
  unfold tsum
  rw [List.map_map]
  congr 1
  apply List.map_congr_left
  intro ia hia
  simp [Function.comp, Prod.ext_iff, Prod.map]

variable [Zero R] [Mul R] [Mul T]
  {env : Env R T} {asm : Assembler R T} {trial test : Space R T}
  {famT famR : CellType → ElementDofs} {F : MathIntegrand T} {K : MathKernel R T} {GT GR G : Geometry R}
  {BT BR : Basis R T} {Q : Quadrature R} {t : CellType}

theorem FunctionSpace.globalDofs_eq (sp : FunctionSpace) (c : Nat) :
    sp.globalDofs c = (sp.dofs c).map sp.gdof := by
  unfold FunctionSpace.globalDofs FunctionSpace.dofs FunctionSpace.gdof FunctionSpace.cellDofsUnchecked
  rw [cellDofs_eq]

theorem SingularSetting.tsum_eq (h : SingularSetting env asm trial test famT famR F K G BT BR Q) (i j : Nat) :
    tsum (singularTriplets env.cast F K G BT BR Q famT famR trial.fs test.fs) i j =
    touchingSum test.fs trial.fs (singularPairValue env.cast F K G BT BR Q) i j := by
  rw [tsum_perm h.triplets_perm, tsum_flatMap]
  unfold adjacentPairs touchingSum
  rw [List.map_flatMap]
  have hsum : ∀ (l : List Entity) (f : Entity → List T), (l.flatMap f).sum =
      (l.map fun c => (f c).sum).sum := by
    intro l f
    induction l with
    | nil => rfl
    | cons x l ih => simp [List.flatMap_cons, ih]
  rw [hsum]
  congr 1
  apply List.map_congr_left
  intro c hc
  have hc := (List.mem_filter.mp hc).1
  rw [List.map_map, h.sameGrid]
  have hf : ((test.fs.grid.entityIter 2).filter fun c' => (c.sub 0).any fun v => (c'.sub 0).contains v) =
      (test.fs.grid.entityIter 2).filter fun c' => decide (c.Touches c') := by
    apply List.filter_congr
    intro c' _
    rw [Bool.eq_iff_iff, decide_eq_true_eq]
    simp [Entity.Touches]
  rw [hf]
  congr 1
  apply List.map_congr_left
  intro c' hc'
  have hc' := (List.mem_filter.mp hc').1
  have hc'' : c' ∈ trial.fs.grid.entityIter 2 := by rw [h.sameGrid]; exact hc'
  obtain ⟨td, _, t2, t3, _, _⟩ := h.testSpace.cell hc
  obtain ⟨rd, _, r2, r3, _, _⟩ := h.trialSpace.cell hc''
  simp only [Function.comp]
  unfold cellTriplets
  simp only [FunctionSpace.globalDofs_eq, t2, r2, ← t3, ← r3]
  exact tsum_local _ _ td rd _ i j

end
end Bempp
