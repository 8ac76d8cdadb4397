import Mathlib.Analysis.Normed.Group.Rat
import Verif.Props.Dense
import Verif.Proofs.Triplets
/-
C16: the sparse singular part.
-/
set_option linter.unusedSectionVars false

namespace Bempp
open Examples

variable {R T : Type}

theorem Csr.entry_empty [AddCommMonoid T] (shape : Nat × Nat) (p : List Nat) (i j : Nat) :
    (⟨shape, [], p, []⟩ : Csr T).entry i j = 0 := by simp [Csr.entry]

section
variable [Zero R] [Mul R] [AddCommMonoid T] [Mul T]
  {env : Env R T} {asm : Assembler R T} {trial test : Space R T}
  {famT famR : CellType → ElementDofs} {F : MathIntegrand T} {K : MathKernel R T} {GT GR : Geometry R}
  {BT BR : Basis R T} {Q : Quadrature R} {t : CellType}

theorem DenseSetting.assemble_some (h : DenseSetting env asm trial test famT famR F K GT GR BT BR Q t)
    {M : List T} (hM : AssembleIntoMemory env asm trial test
      (List.replicate (test.fs.globalSize * trial.fs.globalSize) 0) (.ok M)) :
    Assemble env asm trial test (some M) := by
  unfold Assemble
  rw [if_neg (by simp [h.testSpace.serial.1, h.trialSpace.serial.1])]
  exact ⟨_, hM, rfl⟩

/-- The singular part as triplets, the matrix that is made from them, and the dense matrix. -/
theorem DenseSetting.sparse (h : DenseSetting env asm trial test famT famR F K GT GR BT BR Q t)
    (hb : 0 < asm.options.batchSize) (hf : FromAijOk env) : ∃ (l : List ((Nat × Nat) × T)) (A : Csr T),
    (∀ out, AssembleSingularPart env asm (test.fs.globalSize, trial.fs.globalSize) trial test out ↔
      out = some (Sparse.ofTriplets (test.fs.globalSize, trial.fs.globalSize) l)) ∧
    (∀ i j, tsum l i j = if test.fs.grid.addr = trial.fs.grid.addr then
      touchingSum test.fs trial.fs (singularPairValue env.cast F K GT BT BR Q) i j else 0) ∧
    (∀ out, AssembleSingular env asm trial test out ↔ out = some A) ∧
    A.shape = (test.fs.globalSize, trial.fs.globalSize) ∧
    A.indptr.length = test.fs.globalSize + 1 ∧ (∀ c ∈ A.indices, c < trial.fs.globalSize) ∧
    ((∃ x ∈ l, env.isBig x.2 = true) → ∀ i j, i < test.fs.globalSize → A.entry i j = tsum l i j) ∧
    ((¬ ∃ x ∈ l, env.isBig x.2 = true) → ∀ i j, A.entry i j = 0) ∧
    ∀ testCol trialCol M reg, test.fs.cellColouring = some testCol →
      trial.fs.cellColouring = some trialCol → Assemble env asm trial test (some M) →
      AssembleNonsingularPart env asm (test.fs.globalSize, trial.fs.globalSize) trial test trialCol
        testCol (List.replicate (test.fs.globalSize * trial.fs.globalSize) 0) (.ok reg) →
      ∀ i j, i < test.fs.globalSize → j < trial.fs.globalSize → ∃ x,
        reg[i + test.fs.globalSize * j]? = some x ∧
        M[i + test.fs.globalSize * j]? = some (x + tsum l i j) := by
  obtain ⟨ops, hpart, hsum, hbd, hops⟩ : ∃ l : List ((Nat × Nat) × T),
      (∀ out, AssembleSingularPart env asm (test.fs.globalSize, trial.fs.globalSize) trial test out ↔
        out = some (Sparse.ofTriplets (test.fs.globalSize, trial.fs.globalSize) l)) ∧
      (∀ i j, tsum l i j = if test.fs.grid.addr = trial.fs.grid.addr then
          touchingSum test.fs trial.fs (singularPairValue env.cast F K GT BT BR Q) i j else 0) ∧
      (∀ x ∈ l, x.1.1 < test.fs.globalSize ∧ x.1.2 < trial.fs.globalSize) ∧
      singularOps env.cast F K GT BT BR Q famT famR trial.fs test.fs = tripletOps test.fs.globalSize l := by
    by_cases ha : test.fs.grid.addr = trial.fs.grid.addr
    · refine ⟨_, (h.same ha).1.part hb, ?_, h.singular_bounds ha, ?_⟩
      · intro i j
        rw [(h.same ha).1.tsum_eq, if_pos ha]
      · unfold singularOps
        rw [if_pos ha]
    · refine ⟨[], (C17_no_singular_part ha).1, ?_, by simp, ?_⟩
      · intro i j
        rw [if_neg ha]
        simp [tsum]
      · unfold singularOps
        rw [if_neg ha]
        rfl
  refine ⟨ops, ?_⟩
  obtain ⟨A, h1, h2, h3, h4, h5, h6⟩ : ∃ A : Csr T, (∀ out, AssembleSingular env asm trial test out ↔ out = some A) ∧
      A.shape = (test.fs.globalSize, trial.fs.globalSize) ∧
      A.indptr.length = test.fs.globalSize + 1 ∧ (∀ c ∈ A.indices, c < trial.fs.globalSize) ∧
      ((∃ x ∈ ops, env.isBig x.2 = true) → ∀ i j, i < test.fs.globalSize → A.entry i j = tsum ops i j) ∧
      ((¬ ∃ x ∈ ops, env.isBig x.2 = true) → ∀ i j, A.entry i j = 0) := by
    by_cases hbig : ∃ x ∈ ops, env.isBig x.2 = true
    · obtain ⟨m, m1, m2, m3, m4, m5⟩ := hf (test.fs.globalSize, trial.fs.globalSize)
        (ops.map fun x => x.1.1) (ops.map fun x => x.1.2) (ops.map fun x => x.2) (by simp) (by simp)
        (by
          intro r hr
          obtain ⟨x, hx, rfl⟩ := List.mem_map.mp hr
          exact (hbd x hx).1)
        (by
          intro r hr
          obtain ⟨x, hx, rfl⟩ := List.mem_map.mp hr
          exact (hbd x hx).2)
      refine ⟨m, ?_, m2, m3, m4, fun _ => ?_, fun hn => absurd hbig hn⟩
      · intro out
        unfold AssembleSingular
        simp only [hpart, exists_eq_left]
        rw [if_neg]
        · show out = env.fromAij (test.fs.globalSize, trial.fs.globalSize)
            (ops.map fun x => x.1.1) (ops.map fun x => x.1.2) (ops.map fun x => x.2) ↔ _
          rw [m1]
        · obtain ⟨y, hy, hxb⟩ := hbig
          have hx : y.2 ∈ (Sparse.ofTriplets (test.fs.globalSize, trial.fs.globalSize) ops).data :=
            List.mem_map.mpr ⟨y, hy, rfl⟩
          rintro (he | he)
          · rw [List.isEmpty_iff] at he
            rw [he] at hx
            simp at hx
          · have := List.mem_filter.mpr ⟨hx, hxb⟩
            rw [List.eq_nil_of_length_eq_zero he] at this
            simp at this
      · intro i j hi
        rw [m5 i j hi]
        exact tripletSum_ofTriplets (test.fs.globalSize, trial.fs.globalSize) ops i j
    · refine ⟨⟨(test.fs.globalSize, trial.fs.globalSize), [],
        List.replicate (test.fs.globalSize + 1) 0, []⟩, ?_, rfl, by simp, by simp, fun hy => absurd hy hbig,
        fun _ i j => Csr.entry_empty _ _ i j⟩
      intro out
      unfold AssembleSingular
      simp only [hpart, exists_eq_left]
      rw [if_pos]
      · rfl
      · right
        rw [List.length_eq_zero_iff, List.filter_eq_nil_iff]
        intro x hx hxb
        obtain ⟨y, hy, rfl⟩ := List.mem_map.mp hx
        exact hbig ⟨y, hy, hxb⟩
  refine ⟨A, hpart, hsum, h1, h2, h3, h4, h5, h6, ?_⟩
  intro testCol trialCol M reg htc hrc hM hreg i j hi hj
  obtain ⟨tcs, rcs, p1, p2, ⟨c1, e1, f1⟩, ⟨d1, g1, i1⟩, hasm⟩ := h.assemble hb
  rw [htc, Option.some.injEq] at e1
  rw [hrc, Option.some.injEq] at g1
  subst e1 g1
  rw [h.nonsingular hb htc hrc f1 i1 (by simp), Outcome.ok.injEq] at hreg
  unfold Assemble at hM
  rw [if_neg (by simp [h.testSpace.serial.1, h.trialSpace.serial.1])] at hM
  simp only [hasm _ (List.length_replicate ..), exists_eq_left, Option.some.injEq] at hM
  refine ⟨contrib (regularOps env.cast F K GT GR BT BR Q t (famT t).dim (famR t).dim trial.fs test.fs tcs
      rcs) (i + test.fs.globalSize * j), ?_, ?_⟩
  · rw [hreg, applyOps_get, List.getElem?_replicate, if_pos (addr_lt hi hj)]
    simp
  · rw [hM, applyOps_get, List.getElem?_replicate, if_pos (addr_lt hi hj), contrib_append, hops,
      contrib_triplets hbd hi]
    simp

/-- C16, under the condition that some value of the singular part has absolute value above 1e-10 or
that all are zero. `assemble_singular` returns a matrix of shape (test size, trial size) with column
indices in range; its entries are the sums of the singular quadrature values over touching cells; and
for all `i`, `j` the dense matrix is the regular part plus this matrix.

Missing: the condition. Without it the property is false, see `C16_small_entries_lost`. -/
theorem C16_sparse_partial (h : DenseSetting env asm trial test famT famR F K GT GR BT BR Q t)
    (hb : 0 < asm.options.batchSize) (hf : FromAijOk env) {sp : Sparse T}
    (hsp : AssembleSingularPart env asm (test.fs.globalSize, trial.fs.globalSize) trial test (some sp))
    (hcut : (∃ x ∈ sp.data, env.isBig x = true) ∨ ∀ x ∈ sp.data, x = 0) :
    ∃ A : Csr T, (∀ out, AssembleSingular env asm trial test out ↔ out = some A) ∧
      A.shape = (test.fs.globalSize, trial.fs.globalSize) ∧
      A.indptr.length = test.fs.globalSize + 1 ∧ (∀ c ∈ A.indices, c < trial.fs.globalSize) ∧
      (∀ i j, i < test.fs.globalSize → j < trial.fs.globalSize → A.entry i j =
        if test.fs.grid.addr = trial.fs.grid.addr then
          touchingSum test.fs trial.fs (singularPairValue env.cast F K GT BT BR Q) i j else 0) ∧
      ∀ testCol trialCol M reg, test.fs.cellColouring = some testCol →
        trial.fs.cellColouring = some trialCol → Assemble env asm trial test (some M) →
        AssembleNonsingularPart env asm (test.fs.globalSize, trial.fs.globalSize) trial test trialCol
          testCol (List.replicate (test.fs.globalSize * trial.fs.globalSize) 0) (.ok reg) →
        ∀ i j, i < test.fs.globalSize → j < trial.fs.globalSize → ∃ x,
          reg[i + test.fs.globalSize * j]? = some x ∧
          M[i + test.fs.globalSize * j]? = some (x + A.entry i j) := by
  obtain ⟨l, A, hpart, hsum, h1, h2, h3, h4, h5, h6, h7⟩ := h.sparse hb hf
  have hsp' := Option.some_inj.mp ((hpart _).mp hsp)
  subst hsp'
  have entry : ∀ i j, i < test.fs.globalSize → A.entry i j = tsum l i j := by
    intro i j hi
    by_cases hbig : ∃ x ∈ l, env.isBig x.2 = true
    · exact h5 hbig i j hi
    · have hz := hcut.resolve_left (by
        rintro ⟨x, hx, hb⟩
        obtain ⟨y, hy, rfl⟩ := List.mem_map.mp hx
        exact hbig ⟨y, hy, hb⟩)
      rw [h6 hbig]
      unfold tsum
      symm
      apply List.sum_eq_zero
      intro y hy
      obtain ⟨x, hx, rfl⟩ := List.mem_map.mp hy
      have : x.2 = 0 := hz x.2 (List.mem_map.mpr ⟨x, hx, rfl⟩)
      rw [this]
      simp
  refine ⟨A, h1, h2, h3, h4, fun i j hi _ => by rw [entry i j hi, hsum], ?_⟩
  intro testCol trialCol M reg htc hrc hM hreg i j hi hj
  rw [entry i j hi]
  exact h7 testCol trialCol M reg htc hrc hM hreg i j hi hj

end

section
variable [Zero R] [Mul R] [NormedAddCommGroup T] [Mul T]
  {env : Env R T} {asm : Assembler R T} {trial test : Space R T}
  {famT famR : CellType → ElementDofs} {F : MathIntegrand T} {K : MathKernel R T} {GT GR : Geometry R}
  {BT BR : Basis R T} {Q : Quadrature R} {t : CellType}

theorem tsum_bound {δ : ℝ} (l : List ((Nat × Nat) × T)) (h : ∀ x ∈ l, ‖x.2‖ ≤ δ) (i j : Nat) :
    ‖tsum l i j‖ ≤ (l.filter fun x => x.1 = (i, j)).length * δ := by
  induction l with
  | nil => simp [tsum]
  | cons x l ih =>
    have ih := ih fun y hy => h y (List.mem_cons_of_mem _ hy)
    have hx := h x (List.mem_cons_self ..)
    have e : tsum (x :: l) i j = (if x.1 = (i, j) then x.2 else 0) + tsum l i j := by simp [tsum]
    rw [e]
    by_cases hc : x.1 = (i, j)
    · rw [if_pos hc, List.filter_cons_of_pos (by simpa using hc), List.length_cons]
      push_cast
      calc ‖x.2 + tsum l i j‖ ≤ ‖x.2‖ + ‖tsum l i j‖ := norm_add_le _ _
        _ ≤ _ := by linarith
    · rw [if_neg hc, List.filter_cons_of_neg (by simpa using hc), zero_add]
      exact ih

/-- C16 without the condition: if only values of absolute value at most `δ` count as small (the code has
`δ = 1e-10`), then each entry of the dense matrix differs from the sum of the regular part and the matrix that
`assemble_singular` returns by at most `δ` times the number of triplets that belong to this entry. -/
theorem C16_error_bound_partial (h : DenseSetting env asm trial test famT famR F K GT GR BT BR Q t)
    (hb : 0 < asm.options.batchSize) (hf : FromAijOk env) {δ : ℝ} (hδ : 0 ≤ δ)
    (hsmall : ∀ x, env.isBig x = false → ‖x‖ ≤ δ) {sp : Sparse T}
    (hsp : AssembleSingularPart env asm (test.fs.globalSize, trial.fs.globalSize) trial test (some sp)) :
    ∃ A : Csr T, (∀ out, AssembleSingular env asm trial test out ↔ out = some A) ∧
      A.shape = (test.fs.globalSize, trial.fs.globalSize) ∧
      ∀ testCol trialCol M reg, test.fs.cellColouring = some testCol →
        trial.fs.cellColouring = some trialCol → Assemble env asm trial test (some M) →
        AssembleNonsingularPart env asm (test.fs.globalSize, trial.fs.globalSize) trial test trialCol
          testCol (List.replicate (test.fs.globalSize * trial.fs.globalSize) 0) (.ok reg) →
        ∀ i j, i < test.fs.globalSize → j < trial.fs.globalSize → ∃ x y,
          reg[i + test.fs.globalSize * j]? = some x ∧ M[i + test.fs.globalSize * j]? = some y ∧
          ‖y - (x + A.entry i j)‖ ≤ ((sp.rows.zip sp.cols).count (i, j)) * δ := by
  obtain ⟨l, A, hpart, hsum, h1, h2, h3, h4, h5, h6, h7⟩ := h.sparse hb hf
  have hsp' := Option.some_inj.mp ((hpart _).mp hsp)
  subst hsp'
  refine ⟨A, h1, h2, ?_⟩
  intro testCol trialCol M reg htc hrc hM hreg i j hi hj
  obtain ⟨x, hx, hy⟩ := h7 testCol trialCol M reg htc hrc hM hreg i j hi hj
  refine ⟨x, _, hx, hy, ?_⟩
  rw [add_sub_add_left_eq_sub]
  by_cases hbig : ∃ x ∈ l, env.isBig x.2 = true
  · rw [h5 hbig i j hi, sub_self, norm_zero]
    positivity
  · rw [h6 hbig, sub_zero]
    have hc : (((Sparse.ofTriplets (test.fs.globalSize, trial.fs.globalSize) l).rows.zip
        (Sparse.ofTriplets (test.fs.globalSize, trial.fs.globalSize) l).cols).count (i, j)) =
        (l.filter fun x => x.1 = (i, j)).length := by
      show ((l.map fun x => x.1.1).zip (l.map fun x => x.1.2)).count (i, j) = _
      rw [List.zip_map', List.count_eq_countP, List.countP_map, ← List.countP_eq_length_filter]
      congr 1
      funext x
      simp [beq_eq_decide]
    rw [hc]
    refine tsum_bound l ?_ i j
    intro y hy
    apply hsmall
    by_contra hne
    exact hbig ⟨y, hy, by simpa using hne⟩

end

/-! ### The hypotheses can be met -/

theorem take_drop_flatMap {α : Type} (n : Nat) (f : Nat → List α) {i : Nat} (hi : i < n) :
    ((((List.range n).flatMap f).take (((List.range (i + 1)).map fun k => (f k).length).sum)).drop
      (((List.range i).map fun k => (f k).length).sum)) = f i := by
  obtain ⟨m, rfl⟩ : ∃ m, n = (i + 1) + m := ⟨n - (i + 1), by omega⟩
  have hlen : ∀ j, ((List.range j).flatMap f).length = ((List.range j).map fun k => (f k).length).sum := by
    intro j
    rw [List.length_flatMap]
  rw [← hlen, ← hlen, List.range_add (n := i + 1), List.flatMap_append, List.take_left' rfl,
    List.range_succ, List.flatMap_append, List.drop_left' rfl]
  simp

theorem csrOf_ok [AddCommMonoid T] (env : Env R T)
    (h : env.fromAij = fun s r c d => some (csrOf s r c d)) : FromAijOk env := by
  intro shape rows cols data hr hc hrl hcl
  refine ⟨csrOf shape rows cols data, by rw [h], rfl, by simp [csrOf], ?_, ?_⟩
  · intro c hc
    simp only [csrOf, List.mem_flatMap, List.mem_map, List.mem_filter] at hc
    obtain ⟨i, _, x, ⟨hx, _⟩, rfl⟩ := hc
    exact hcl _ (List.of_mem_zip (List.of_mem_zip hx).1).2
  · intro i j hi
    have hz : ∀ (l : List Nat) (f : Nat → List ((Nat × Nat) × T)),
        (l.flatMap fun i => (f i).map fun x => x.1.2).zip (l.flatMap fun i => (f i).map fun x => x.2) =
        l.flatMap fun i => (f i).map fun x => (x.1.2, x.2) := by
      intro l f
      induction l with
      | nil => rfl
      | cons a l ih =>
        rw [List.flatMap_cons, List.flatMap_cons, List.flatMap_cons, List.zip_append (by simp), ih]
        congr 1
        generalize f a = m
        induction m with
        | nil => rfl
        | cons x m ih => simp [ih]
    unfold Csr.entry
    have hp : ∀ k, k < shape.1 + 1 → (csrOf shape rows cols data).indptr.getD k 0 =
        ((List.range k).map fun k => ((((rows.zip cols).zip data).filter fun x => x.1.1 = k).map
          fun x => (x.1.2, x.2)).length).sum := by
      intro k hk
      simp [csrOf, List.getD, List.getElem?_range hk]
    rw [hp _ (by omega), hp _ (by omega)]
    simp only [csrOf]
    rw [hz, take_drop_flatMap _ _ hi, List.map_map]
    unfold tripletSum
    rw [sum_filter]
    congr 1
    apply List.map_congr_left
    intro x _
    simp only [Function.comp, Prod.ext_iff]
    by_cases h1 : x.1.1 = i <;> simp [h1]

theorem exEnv_fromAij : FromAijOk exEnv := csrOf_ok exEnv rfl

/-- The P1 space on the octahedron. -/
def octFs : FunctionSpace :=
  match FunctionSpace.new 0 1 octahedron p1 with
  | .done sp => sp
  | _ => ⟨octahedron, 0, [], [], [], 0, 0, [], []⟩

theorem octFs_space : SerialSpace octFs p1 ∧ octFs.grid = octahedron := by
  obtain ⟨fs, h, hg⟩ := octSpace
  have h' := h.made
  rw [hg] at h'
  have : octFs = fs := by unfold octFs; rw [h']
  rw [this]
  exact ⟨h, hg⟩


theorem exSpace_setting {K : MathKernel Rat Rat} :
    DenseSetting exEnv (Laplace.singleLayer (kernelOf K) smallOptions) (spaceOf octFs p1 octGeometry p1Basis)
      (spaceOf octFs p1 octGeometry p1Basis) p1 p1 slF K octGeometry octGeometry p1Basis p1Basis smallRules
      .triangle :=
  octDenseSetting octFs_space.1 octFs_space.2
    ⟨laplace_singleLayer_integrand _ _, kernelOf_computes _ _, rfl⟩ rfl rfl

/-- The single layer operator on the octahedron: the condition is met. -/
example : ∃ sp, AssembleSingularPart exEnv (Laplace.singleLayer (kernelOf squareKernel) smallOptions)
      (octFs.globalSize, octFs.globalSize) (spaceOf octFs p1 octGeometry p1Basis)
      (spaceOf octFs p1 octGeometry p1Basis) (some sp) ∧ ∃ x ∈ sp.data, exEnv.isBig x = true := by
  have hset := exSpace_setting (K := squareKernel)
  refine ⟨_, ((hset.same rfl).1.part (by decide) _).mpr rfl, ?_⟩
  have : (singularTriplets exEnv.cast slF squareKernel octGeometry p1Basis p1Basis smallRules p1 p1 octFs
      octFs).any (fun x => exEnv.isBig x.2) = true := by decide +kernel
  obtain ⟨x, hx, hb⟩ := List.any_eq_true.mp this
  exact ⟨x.2, List.mem_map.mpr ⟨x, hx, rfl⟩, hb⟩

/-- A constant, very small kernel. -/
def tinyKernel : MathKernel Rat Rat := fun _ _ _ => 1/1000000000000

/-- The hypotheses of the bound, with the code's `δ`, for a kernel whose values are all below the cut-off. -/
example : ∃ sp, AssembleSingularPart exEnv (Laplace.singleLayer (kernelOf tinyKernel) smallOptions)
      (octFs.globalSize, octFs.globalSize) (spaceOf octFs p1 octGeometry p1Basis)
      (spaceOf octFs p1 octGeometry p1Basis) (some sp) ∧ (∀ x ∈ sp.data, exEnv.isBig x = false) ∧
    (∀ x, exEnv.isBig x = false → ‖x‖ ≤ (1 / 10000000000 : ℝ)) := by
  have hset := exSpace_setting (K := tinyKernel)
  refine ⟨_, ((hset.same rfl).1.part (by decide) _).mpr rfl, ?_, ?_⟩
  · have : (singularTriplets exEnv.cast slF tinyKernel octGeometry p1Basis p1Basis smallRules p1 p1 octFs
        octFs).all (fun x => !exEnv.isBig x.2) = true := by decide +kernel
    intro x hx
    obtain ⟨y, hy, rfl⟩ := List.mem_map.mp hx
    simpa using List.all_eq_true.mp this y hy
  · intro x hx
    have h : |x| ≤ 1 / 10000000000 := by
      by_contra hn
      rw [not_le] at hn
      have : exEnv.isBig x = true := by simpa [exEnv, envOf] using hn
      rw [this] at hx
      cases hx
    rw [← Rat.norm_cast_real, Real.norm_eq_abs]
    have := (Rat.cast_le (K := ℝ)).mpr h
    push_cast at this
    exact this

/-- C16 is false in general: if all values of the singular part are at most 1e-10, they are lost. A
situation in which everything works as it should, cut-off included, but some entry of the dense matrix is
not the entry of the regular part plus that of the sparse matrix. -/
theorem C16_small_entries_lost : ∃ (env : Env Rat Rat) (asm : Assembler Rat Rat) (sp : Space Rat Rat)
    (F : MathIntegrand Rat) (K : MathKernel Rat Rat) (G : Geometry Rat) (B : Basis Rat Rat)
    (Q : Quadrature Rat) (col : Colouring) (M reg : List Rat) (A : Csr Rat),
    DenseSetting env asm sp sp p1 p1 F K G G B B Q .triangle ∧ 0 < asm.options.batchSize ∧
    FromAijOk env ∧ (∀ x, env.isBig x = true ↔ 1/10000000000 < |x|) ∧
    sp.fs.cellColouring = some col ∧ Assemble env asm sp sp (some M) ∧
    AssembleNonsingularPart env asm (sp.fs.globalSize, sp.fs.globalSize) sp sp col col
      (List.replicate (sp.fs.globalSize * sp.fs.globalSize) 0) (.ok reg) ∧
    AssembleSingular env asm sp sp (some A) ∧ 0 < sp.fs.globalSize ∧
    ∃ x y, reg[0]? = some x ∧ M[0]? = some y ∧ y ≠ x + A.entry 0 0 := by
  have hset := exSpace_setting (K := tinyKernel)
  obtain ⟨tcs, rcs, p1, p2, ⟨c1, e1, f1⟩, ⟨d1, g1, i1⟩, hasm⟩ := hset.assemble (by decide)
  obtain rfl : c1 = d1 := Option.some_inj.mp (e1.symm.trans g1)
  have hpart := (hset.same rfl).1.part (by decide)
  have hsize : octFs.globalSize = 6 := by decide +kernel
  have hsmall : (singularTriplets exEnv.cast slF tinyKernel octGeometry p1Basis p1Basis smallRules Examples.p1
      Examples.p1 octFs octFs).all (fun x => !exEnv.isBig x.2) = true := by decide +kernel
  have hsum : tsum (singularTriplets exEnv.cast slF tinyKernel octGeometry p1Basis p1Basis smallRules
      Examples.p1 Examples.p1 octFs octFs) 0 0 ≠ 0 := by decide +kernel
  obtain ⟨M, hM, hM'⟩ : ∃ M, Assemble exEnv (Laplace.singleLayer (kernelOf tinyKernel) smallOptions)
      (spaceOf octFs Examples.p1 octGeometry p1Basis) (spaceOf octFs Examples.p1 octGeometry p1Basis)
      (some M) ∧ M = _ := ⟨_, hset.assemble_some ((hasm _ (List.length_replicate ..) _).mpr rfl), rfl⟩
  obtain ⟨reg, hreg, hreg'⟩ : ∃ reg, AssembleNonsingularPart exEnv
      (Laplace.singleLayer (kernelOf tinyKernel) smallOptions) (octFs.globalSize, octFs.globalSize)
      (spaceOf octFs Examples.p1 octGeometry p1Basis) (spaceOf octFs Examples.p1 octGeometry p1Basis) c1 c1
      (List.replicate (octFs.globalSize * octFs.globalSize) 0) (.ok reg) ∧ reg = _ :=
    ⟨_, (hset.nonsingular (by decide) e1 e1 f1 i1 (List.length_replicate ..) _).mpr rfl, rfl⟩
  refine ⟨exEnv, Laplace.singleLayer (kernelOf tinyKernel) smallOptions, spaceOf octFs Examples.p1 octGeometry
    p1Basis, slF, tinyKernel, octGeometry, p1Basis, smallRules, c1, M, reg,
    ⟨(octFs.globalSize, octFs.globalSize), [], List.replicate (octFs.globalSize + 1) 0, []⟩,
    hset, by decide, exEnv_fromAij, ?_, e1, hM, hreg,
    ?_, ?_, ?_⟩
  · intro x
    simp [exEnv, envOf]
  · refine ⟨_, (hpart _).mpr rfl, ?_⟩
    simp only
    rw [if_pos]
    · rfl
    · right
      rw [List.length_eq_zero_iff, List.filter_eq_nil_iff]
      intro x hx hxb
      obtain ⟨y, hy, rfl⟩ := List.mem_map.mp hx
      have := List.all_eq_true.mp hsmall y hy
      simp only [Bool.not_eq_true'] at this
      rw [this] at hxb
      cases hxb
  · show 0 < octFs.globalSize
    omega
  · have hn : (0 : Nat) < octFs.globalSize := by omega
    have h0 : (List.replicate (octFs.globalSize * octFs.globalSize) (0 : Rat))[0]? = some 0 := by
      rw [List.getElem?_replicate, if_pos (Nat.mul_pos hn hn)]
    have e := contrib_triplets (n := octFs.globalSize) (m := octFs.globalSize) (hset.singular_bounds rfl) hn 0
    have hg : ∀ ops : List (AddOp Rat), (applyOps ops (List.replicate (octFs.globalSize * octFs.globalSize)
        (0 : Rat)))[0]? = some (0 + contrib ops 0) := by
      intro ops
      rw [applyOps_get, h0]
      rfl
    rw [hreg', hM']
    refine ⟨_, _, hg _, hg _, ?_⟩
    rw [Csr.entry_empty, contrib_append]
    unfold singularOps
    rw [if_pos rfl]
    intro h
    apply hsum
    refine e.symm.trans ?_
    simp at h
    rw [Nat.mul_zero]
    exact h

end Bempp
