import Verif.Proofs.Singular
import Verif.Proofs.RegularPart
/-
Dense assembly as a whole.
-/
set_option linter.unusedSectionVars false

namespace Bempp

variable {R T : Type}

/-! ### Adding triplets -/

/-- Triplets as operations on a column-major buffer. -/
def tripletOps (n : Nat) (l : List ((Nat × Nat) × T)) : List (AddOp T) :=
  l.map fun x => ⟨x.1.1 + n * x.1.2, x.2⟩

theorem addr_lt {n m i j : Nat} (hi : i < n) (hj : j < m) : i + n * j < n * m := by
  calc i + n * j < n * (j + 1) := by rw [Nat.mul_add]; omega
    _ ≤ _ := Nat.mul_le_mul_left _ hj

theorem addTriplets_eq [Add T] {n m : Nat} (l : List ((Nat × Nat) × T))
    (hl : ∀ x ∈ l, x.1.1 < n ∧ x.1.2 < m) (mem : List T) (hm : mem.length = n * m) :
    addTriplets n l mem = .ok (applyOps (tripletOps n l) mem) := by
  induction l generalizing mem with
  | nil => rfl
  | cons x l ih =>
    obtain ⟨⟨i, j⟩, v⟩ := x
    obtain ⟨hi, hj⟩ := hl ((i, j), v) (by simp)
    simp only at hi hj
    have hlt : i + n * j < mem.length := by rw [hm]; exact addr_lt hi hj
    unfold addTriplets
    rw [List.getElem?_eq_getElem hlt]
    simp only
    rw [ih (fun x hx => hl x (by simp [hx])) _ (by rw [List.length_set, hm])]
    unfold tripletOps applyOps
    rw [List.map_cons, List.foldl_cons]
    congr 2
    unfold AddOp.apply
    simp only [List.getElem?_eq_getElem hlt]

/-! ### The whole assembly -/

section
variable [Zero R] [Mul R] [Zero T] [Add T] [Mul T]
  {env : Env R T} {asm : Assembler R T} {trial test : Space R T}
  {famT famR : CellType → ElementDofs} {F : MathIntegrand T} {K : MathKernel R T} {GT GR G : Geometry R}
  {BT BR : Basis R T} {Q : Quadrature R} {t : CellType}

theorem mem_localTriplets {test trial : FunctionSpace} {td rd : List Nat} {m : List (List T)}
    {x : (Nat × Nat) × T} (h : x ∈ localTriplets test trial td rd m) :
    (∃ i ∈ td, x.1.1 = test.gdof i) ∧ ∃ j ∈ rd, x.1.2 = trial.gdof j := by
  unfold localTriplets at h
  simp only [List.mem_flatMap, List.mem_map] at h
  obtain ⟨c, hc, e, he, rfl⟩ := h
  exact ⟨⟨e.1, (List.of_mem_zip he).1, rfl⟩, c.1, (List.of_mem_zip hc).1, rfl⟩

theorem SerialSpace.gdof {sp : FunctionSpace} {fam : CellType → ElementDofs} (h : SerialSpace sp fam)
    {c : Entity} (hc : c ∈ sp.grid.entityIter 2) :
    ∀ n ∈ sp.dofs c.localIndex, sp.gdof n = n ∧ n < sp.globalSize := by
  obtain ⟨cd, _, h2, _, _, h3⟩ := h.cell hc
  rw [h2]
  intro n hn
  have := h3 n hn
  refine ⟨?_, this⟩
  rw [h.serial.2.1] at this
  simp [FunctionSpace.gdof, h.serial.2.2 n this]

theorem localTriplets_ops {test trial : FunctionSpace} {td rd : List Nat} (m : List (List T))
    (ht : ∀ i ∈ td, test.gdof i = i) (hr : ∀ j ∈ rd, trial.gdof j = j) (shape : Nat × Nat) :
    tripletOps shape.1 (localTriplets test trial td rd m) = localOps shape td rd m := by
  unfold tripletOps localTriplets localOps
  rw [List.map_flatMap]
  apply flatMap_congr_mem
  intro c hc
  rw [List.map_map]
  apply List.map_congr_left
  intro e he
  simp only [Function.comp]
  rw [ht e.1 (List.of_mem_zip he).1, hr c.1 (List.of_mem_zip hc).1]

/-- The operations of the singular part. -/
def singularOps (cast : R → T) (F : MathIntegrand T) (K : MathKernel R T) (G : Geometry R)
    (BT BR : Basis R T) (Q : Quadrature R) (famT famR : CellType → ElementDofs)
    (trial test : FunctionSpace) : List (AddOp T) :=
  if test.grid.addr = trial.grid.addr then
    tripletOps test.globalSize (singularTriplets cast F K G BT BR Q famT famR trial test)
  else []

theorem DenseSetting.singular_bounds (h : DenseSetting env asm trial test famT famR F K GT GR BT BR Q t)
    (hg : test.fs.grid.addr = trial.fs.grid.addr) :
    ∀ x ∈ singularTriplets env.cast F K GT BT BR Q famT famR trial.fs test.fs,
      x.1.1 < test.fs.globalSize ∧ x.1.2 < trial.fs.globalSize := by
  obtain ⟨hs, _⟩ := h.same hg
  intro x hx
  unfold singularTriplets at hx
  simp only [List.mem_flatMap, List.mem_map, List.mem_filter, decide_eq_true_eq] at hx
  obtain ⟨k, hk, p, ⟨e, ⟨he, rfl⟩, rfl⟩, hx⟩ := hx
  rw [(foundPairs_perm h.testSpace.wf hs.vertices).mem_iff] at he
  obtain ⟨⟨c, c'⟩, hp, rfl⟩ := List.mem_map.mp he
  obtain ⟨h1, h2, _⟩ := mem_adjacentPairs.mp hp
  obtain ⟨⟨i, hi, e1⟩, j, hj, e2⟩ := mem_localTriplets hx
  obtain ⟨a1, a2⟩ := h.testSpace.gdof h1 i hi
  obtain ⟨b1, b2⟩ := h.trialSpace.gdof (c := c') (by rw [hs.sameGrid]; exact h2) j hj
  rw [e1, e2, a1, b1]
  exact ⟨a2, b2⟩

/-- What dense assembly does, for every schedule: it performs a list of additions that does not depend on
the batch size. -/
theorem DenseSetting.assemble (h : DenseSetting env asm trial test famT famR F K GT GR BT BR Q t)
    (hb : 0 < asm.options.batchSize) : ∃ tcs rcs : List (List Nat),
    tcs.flatten.Perm ((test.fs.grid.entityIter 2).map Entity.localIndex) ∧
    rcs.flatten.Perm ((trial.fs.grid.entityIter 2).map Entity.localIndex) ∧
    (∃ col, test.fs.cellColouring = some col ∧ col t = some tcs) ∧
    (∃ col, trial.fs.cellColouring = some col ∧ col t = some rcs) ∧
    ∀ mem : List T, mem.length = test.fs.globalSize * trial.fs.globalSize → ∀ o : Outcome (List T),
      AssembleIntoMemory env asm trial test mem o ↔
      o = .ok (applyOps (regularOps env.cast F K GT GR BT BR Q t (famT t).dim (famR t).dim trial.fs test.fs
        tcs rcs ++ singularOps env.cast F K GT BT BR Q famT famR trial.fs test.fs) mem) := by
  obtain ⟨tcol, ht1, ht2, ht3⟩ := h.testSpace.colouring
  obtain ⟨rcol, hr1, hr2, hr3⟩ := h.trialSpace.colouring
  obtain ⟨tcs, htcs⟩ := Option.isSome_iff_exists.mp ((ht2 t).mpr (by rw [h.testType]; simp))
  obtain ⟨rcs, hrcs⟩ := Option.isSome_iff_exists.mp ((hr2 t).mpr (by rw [h.trialType]; simp))
  refine ⟨tcs, rcs, ?_, ?_, ⟨tcol, ht1, htcs⟩, ⟨rcol, hr1, hrcs⟩, ?_⟩
  · have := ht3 t tcs htcs
    rwa [List.filter_eq_self.mpr] at this
    intro c hc
    have := h.testSpace.wf.types c hc
    rw [h.testType] at this
    simpa using this
  · have := hr3 t rcs hrcs
    rwa [List.filter_eq_self.mpr] at this
    intro c hc
    have := h.trialSpace.wf.types c hc
    rw [h.trialType] at this
    simpa using this
  · intro mem hm o
    unfold AssembleIntoMemory
    rw [if_neg (by simp [hm]), if_neg (by simp [h.testSpace.serial.1, h.trialSpace.serial.1]), ht1, hr1]
    simp only [h.nonsingular hb ht1 hr1 htcs hrcs hm]
    rw [applyOps_append]
    generalize hM : applyOps (regularOps env.cast F K GT GR BT BR Q t (famT t).dim (famR t).dim trial.fs
      test.fs tcs rcs) mem = M
    have hMl : M.length = test.fs.globalSize * trial.fs.globalSize := by
      rw [← hM, applyOps_length, hm]
    rw [exists_eq_left]
    simp only
    unfold singularOps
    by_cases hg : test.fs.grid.addr = trial.fs.grid.addr
    · rw [if_pos hg]
      have hp := (h.same hg).1.part hb
      simp only [hp]
      rw [exists_eq_left]
      simp only
      rw [show (((Sparse.ofTriplets (test.fs.globalSize, trial.fs.globalSize)
          (singularTriplets env.cast F K GT BT BR Q famT famR trial.fs test.fs)).rows.zip
          (Sparse.ofTriplets (test.fs.globalSize, trial.fs.globalSize)
          (singularTriplets env.cast F K GT BT BR Q famT famR trial.fs test.fs)).cols).zip
          (Sparse.ofTriplets (test.fs.globalSize, trial.fs.globalSize)
          (singularTriplets env.cast F K GT BT BR Q famT famR trial.fs test.fs)).data) =
          singularTriplets env.cast F K GT BT BR Q famT famR trial.fs test.fs from
          Sparse.triplets_ofTriplets _ _, addTriplets_eq _ (h.singular_bounds hg) _ hMl]
    · rw [if_neg hg]
      have hp : ∀ sp, AssembleSingularPart env asm (test.fs.globalSize, trial.fs.globalSize) trial test sp ↔
          sp = some (Sparse.new (test.fs.globalSize, trial.fs.globalSize)) := by
        intro sp
        unfold AssembleSingularPart
        rw [if_pos (by simp [equalGrids, hg])]
      simp only [hp]
      rw [exists_eq_left]
      simp only [Sparse.new, List.zip_nil_left, addTriplets]
      rfl

end
end Bempp
