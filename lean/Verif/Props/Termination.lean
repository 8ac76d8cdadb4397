import Verif.Props.Schedule
import Verif.Props.Sparse
/-
C11, exactly: for which batch sizes assembly terminates. C16, exactly: when the sparse and the dense matrix agree.
-/
set_option linter.unusedSectionVars false

namespace Bempp
open Examples

section
variable {R T : Type} [Zero R] [Mul R] [Zero T] [Add T] [Mul T]
  {env : Env R T} {asm : Assembler R T} {trial test : Space R T} {famT famR : CellType → ElementDofs}
  {F : MathIntegrand T} {K : MathKernel R T} {GT GR G : Geometry R} {BT BR : Basis R T} {Q : Quadrature R}
  {t : CellType}

/-- The singular part ends if the loop over the pairs ends. -/
theorem singularPart_ends (shape : Nat × Nat)
    (h : ∀ tb cp, singTables env asm trial test = some tb → cellPairs (fun tt rt pairs => tb.pairIndices.get? (tt, rt, pairs))
      tb.pairIndices.length test.fs.grid = some cp → ∃ bl, SplitAll asm.options.batchSize cp.zipIdx bl) :
    ∃ sp, AssembleSingularPart env asm shape trial test sp := by
  unfold AssembleSingularPart
  split
  · exact ⟨_, rfl⟩
  · split
    · exact ⟨_, rfl⟩
    · cases ht : singTables env asm trial test with
      | none => exact ⟨_, rfl⟩
      | some tb =>
        simp only
        cases hc : cellPairs (fun tt rt pairs => tb.pairIndices.get? (tt, rt, pairs))
            tb.pairIndices.length test.fs.grid with
        | none => exact ⟨none, none, by unfold MakeCellBlocks; rw [hc], rfl⟩
        | some cp =>
          obtain ⟨bl, hbl⟩ := h tb cp ht hc
          refine ⟨_, some bl, by unfold MakeCellBlocks; rw [hc]; exact ⟨bl, hbl, rfl⟩,
            (reduces_sparse ?_ _).mpr rfl⟩
          intro x hx a ha
          obtain ⟨b, _, rfl⟩ := List.mem_map.mp hx
          simp only [Option.bind_eq_bind, Option.bind_eq_some_iff] at ha
          obtain ⟨rule, _, ha⟩ := ha
          exact batchSingular_shape ha

theorem SplitAll.empty {α : Type} (b : Nat) : ∀ l : List (List α × Nat), (∀ x ∈ l, x.1 = []) → SplitAll b l []
  | [], _ => .nil
  | (c, i) :: l, h => by
    have h1 : c = [] := h _ List.mem_cons_self
    subst h1
    exact .cons (bs := []) (.stop (by simp)) (SplitAll.empty b l fun x hx => h x (List.mem_cons_of_mem _ hx))

/-- C11: for every batch size of at least one, `assemble_singular` terminates (it returns or panics), on any grids,
distributed ones included, and for any external functions. Missing: batch size 0, see `C11_singular_iff`. -/
theorem C11_singular_terminates_partial (env : Env R T) (asm : Assembler R T) (trial test : Space R T)
    (hb : 0 < asm.options.batchSize) : ∃ out, AssembleSingular env asm trial test out := by
  obtain ⟨sp, h⟩ := singularPart_ends (env := env) (asm := asm) (trial := trial) (test := test)
    (test.fs.globalSize, trial.fs.globalSize) fun tb cp _ _ => SplitAll.exists hb cp.zipIdx
  exact ⟨_, sp, h, rfl⟩

/-- C11, exactly, for `assemble_singular` on one grid that may be distributed: it terminates if and only if the batch
size is not 0 or the process owns no cell. -/
theorem C11_singular_iff (h : SingularSetting env asm trial test famT famR F K G BT BR Q) :
    (∃ out, AssembleSingular env asm trial test out) ↔
      0 < asm.options.batchSize ∨ ∀ c ∈ test.fs.grid.entityIter 2, c.ownership ≠ .owned := by
  have wf := h.testSpace.wf
  obtain ⟨ev, ed, co⟩ := h.conforming
  have hn := h.keys_nodup
  have hcp := cellPairs_eq wf h.vertices ed co hn
    (f := fun k => Map.get? (allKeys test.fs.grid).zipIdx.reverse k) (lookup_keys hn)
    (fun k h1 h2 h3 => mem_allKeys.mpr ⟨h1, h2, h3⟩)
  constructor
  · rintro ⟨out, sp, hsp, -⟩
    by_contra hcon
    push Not at hcon
    obtain ⟨hb, c, hc, how⟩ := hcon
    unfold AssembleSingularPart at hsp
    rw [if_neg (by simp [equalGrids, h.sameGrid]), if_neg (by simp), h.tables] at hsp
    obtain ⟨bl, hm, -⟩ := hsp
    unfold MakeCellBlocks at hm
    rw [List.length_reverse, List.length_zipIdx, hcp] at hm
    obtain ⟨bl', hs, -⟩ := hm
    rw [Nat.le_zero.mp hb] at hs
    obtain ⟨v, hv⟩ : ∃ v, v ∈ c.sub 0 := by
      apply List.exists_mem_of_length_pos
      rw [wf.sub_length c hc 0 (by omega)]
      rcases wf.cell_types _ (wf.types c hc) with e | e <;> rw [e] <;> decide
    have hp : (c, c) ∈ adjacentPairs test.fs.grid := mem_adjacentPairs.mpr ⟨hc, hc, how, v, hv, hv⟩
    have hf : keyOf (c, c) ∈ foundPairs test.fs.grid :=
      (foundPairs_perm wf h.vertices).mem_iff.mpr (List.mem_map_of_mem hp)
    have hk := found_key wf h.vertices ed co _ hf
    obtain ⟨i, hi⟩ := List.getElem?_of_mem hk
    have hx := hs.zero (((foundPairs test.fs.grid).filter fun e => e.1 = (keyOf (c, c)).1).map fun e => e.2, i) (by
      rw [List.mk_mem_zipIdx_iff_getElem?]
      unfold buckets
      rw [List.getElem?_map, hi]
      rfl)
    rw [List.map_eq_nil_iff, List.filter_eq_nil_iff] at hx
    exact hx _ hf (by simp)
  · rintro (hb | ho)
    · exact C11_singular_terminates_partial env asm trial test hb
    · obtain ⟨sp, hsp⟩ := singularPart_ends (env := env) (asm := asm) (trial := trial) (test := test)
        (test.fs.globalSize, trial.fs.globalSize) (fun tb cp h1 h2 => by
          rw [h.tables] at h1
          cases h1
          rw [List.length_reverse, List.length_zipIdx, hcp] at h2
          cases h2
          refine ⟨[], SplitAll.empty _ _ ?_⟩
          have hf : foundPairs test.fs.grid = [] := by
            rw [← List.length_eq_zero_iff, (foundPairs_perm wf h.vertices).length_eq, List.length_map,
              List.length_eq_zero_iff, List.eq_nil_iff_forall_not_mem]
            intro p hp
            obtain ⟨h1, -, h3, -⟩ := mem_adjacentPairs.mp hp
            exact ho _ h1 h3
          rintro ⟨y, i⟩ hy
          have := List.mk_mem_zipIdx_iff_getElem?.mp hy
          unfold buckets at this
          rw [hf, List.getElem?_map] at this
          cases hk : (allKeys test.fs.grid)[i]? with
          | none => rw [hk] at this; cases this
          | some k =>
            rw [hk] at this
            simpa using this.symm)
      exact ⟨_, sp, hsp, rfl⟩

/-- C11, exactly, for dense assembly on grids with cells: `assemble_into_memory` terminates if and only if the batch
size is not 0. -/
theorem C11_assemble_iff (h : DenseSetting env asm trial test famT famR F K GT GR BT BR Q t)
    (ht : test.fs.grid.entityIter 2 ≠ []) (hr : trial.fs.grid.entityIter 2 ≠ []) {mem : List T}
    (hm : mem.length = test.fs.globalSize * trial.fs.globalSize) :
    (∃ o, AssembleIntoMemory env asm trial test mem o) ↔ 0 < asm.options.batchSize := by
  constructor
  · intro ho
    by_contra hb
    exact C11_batch_zero_diverges h (Nat.eq_zero_of_not_pos hb) ht hr hm ho
  · intro hb
    exact C11_terminates_partial h.testSpace h.trialSpace hb mem

end

section
variable {R T : Type} [Zero R] [Mul R] [AddCommGroup T] [Mul T]
  {env : Env R T} {asm : Assembler R T} {trial test : Space R T}
  {famT famR : CellType → ElementDofs} {F : MathIntegrand T} {K : MathKernel R T} {GT GR : Geometry R}
  {BT BR : Basis R T} {Q : Quadrature R} {t : CellType}

/-- C16, exactly. Let `S i j` be the sum of the singular quadrature values over touching cells. `assemble_singular`
returns `S` if some value that was computed for the singular part is above the cut-off, and else the zero matrix. The
dense matrix is always the regular part plus `S`. So the dense matrix agrees in the entry `(i, j)` with the regular part
plus the sparse matrix if and only if some value is above the cut-off or `S i j = 0`. -/
theorem C16_exact (h : DenseSetting env asm trial test famT famR F K GT GR BT BR Q t)
    (hb : 0 < asm.options.batchSize) (hf : FromAijOk env) {sp : Sparse T}
    (hsp : AssembleSingularPart env asm (test.fs.globalSize, trial.fs.globalSize) trial test (some sp))
    {S : Nat → Nat → T} (hS : ∀ i j, S i j = if test.fs.grid.addr = trial.fs.grid.addr then
      touchingSum test.fs trial.fs (singularPairValue env.cast F K GT BT BR Q) i j else 0) :
    ∃ A : Csr T, (∀ out, AssembleSingular env asm trial test out ↔ out = some A) ∧
      A.shape = (test.fs.globalSize, trial.fs.globalSize) ∧
      (∀ i j, i < test.fs.globalSize → A.entry i j = if ∃ x ∈ sp.data, env.isBig x = true then S i j else 0) ∧
      ∀ testCol trialCol M reg, test.fs.cellColouring = some testCol →
        trial.fs.cellColouring = some trialCol → Assemble env asm trial test (some M) →
        AssembleNonsingularPart env asm (test.fs.globalSize, trial.fs.globalSize) trial test trialCol
          testCol (List.replicate (test.fs.globalSize * trial.fs.globalSize) 0) (.ok reg) →
        ∀ i j, i < test.fs.globalSize → j < trial.fs.globalSize → ∃ x y,
          reg[i + test.fs.globalSize * j]? = some x ∧ M[i + test.fs.globalSize * j]? = some y ∧ y = x + S i j ∧
          (y = x + A.entry i j ↔ (∃ x ∈ sp.data, env.isBig x = true) ∨ S i j = 0) := by
  obtain ⟨l, A, hpart, hsum, h1, h2, h3, h4, h5, h6, h7⟩ := h.sparse hb hf
  have hsp' := Option.some_inj.mp ((hpart _).mp hsp)
  subst hsp'
  have hbig : (∃ x ∈ (Sparse.ofTriplets (test.fs.globalSize, trial.fs.globalSize) l).data, env.isBig x = true) ↔
      ∃ x ∈ l, env.isBig x.2 = true := by
    constructor
    · rintro ⟨x, hx, hb⟩
      obtain ⟨y, hy, rfl⟩ := List.mem_map.mp hx
      exact ⟨y, hy, hb⟩
    · rintro ⟨y, hy, hb⟩
      exact ⟨y.2, List.mem_map.mpr ⟨y, hy, rfl⟩, hb⟩
  have entry : ∀ i j, i < test.fs.globalSize → A.entry i j = if ∃ x ∈ (Sparse.ofTriplets (test.fs.globalSize,
      trial.fs.globalSize) l).data, env.isBig x = true then S i j else 0 := by
    intro i j hi
    split
    · rename_i hh
      rw [h5 (hbig.mp hh) i j hi, hsum, hS]
    · rename_i hh
      exact h6 (fun k => hh (hbig.mpr k)) i j
  refine ⟨A, h1, h2, entry, ?_⟩
  intro testCol trialCol M reg htc hrc hM hreg i j hi hj
  obtain ⟨x, hx, hy⟩ := h7 testCol trialCol M reg htc hrc hM hreg i j hi hj
  rw [hsum, ← hS] at hy
  refine ⟨x, _, hx, hy, rfl, ?_⟩
  rw [entry i j hi]
  split
  · rename_i hh
    simp [hh]
  · rename_i hh
    simp [hh]

end

/-! ### The hypotheses can be met -/

/-- `assemble_singular` on the octahedron: it ends with batch size 3 but not with 0. -/
example : let asm := fun b => Laplace.singleLayer (kernelOf squareKernel) (smallOptions.setBatchSize b)
    let sp := spaceOf octFs p1 octGeometry p1Basis
    (∃ out, AssembleSingular exEnv (asm 3) sp sp out) ∧ ¬ ∃ out, AssembleSingular exEnv (asm 0) sp sp out := by
  intro asm sp
  have hset : ∀ b, SingularSetting exEnv (asm b) sp sp p1 p1 slF squareKernel octGeometry p1Basis p1Basis smallRules :=
    fun b => octSingularSetting octFs_space.1 octFs_space.2 (exSingle_computes _) (by rfl)
  refine ⟨(C11_singular_iff (hset 3)).mpr (Or.inl (by decide)), fun hx => ?_⟩
  rcases (C11_singular_iff (hset 0)).mp hx with hb | ho
  · exact absurd hb (by decide)
  · have e : sp.fs.grid = octahedron := octFs_space.2
    rw [e] at ho
    exact absurd ho (by decide)

end Bempp
