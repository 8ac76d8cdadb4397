import Verif.Props.Nested
/-
C60: the matrix represents a bilinear form of functions.
-/
set_option linter.unusedSectionVars false

namespace Bempp
open Examples

variable {R T : Type}

section
variable [Field R] [Field T]
  {env : Env R T} {asm : Assembler R T} {trial test trial' test' : Space R T} {o : Options}
  {famT famR famT' famR' : CellType → ElementDofs} {F : MathIntegrand T} {K : MathKernel R T} {GT GR : Geometry R}
  {BT BR BT' BR' : Basis R T} {Q : Quadrature R} {t : CellType}

/-- `uᵀ M v` in terms of the functions with coefficients `u` and `v`. -/
theorem form_terms {M : List T} {L : Entity → Entity → List (T × (Nat × List R) × (Nat × List R))} {tf rf : FunctionSpace}
    (hM : ∀ i j, i < tf.globalSize → j < rf.globalSize → M[i + tf.globalSize * j]? =
      some ((tf.grid.entityIter 2).map fun c => ((rf.grid.entityIter 2).map fun c' => ((L c c').map fun τ =>
          τ.1 * tf.basisOn BT i c τ.2.1.1 τ.2.1.2 * rf.basisOn BR j c' τ.2.2.1 τ.2.2.2).sum).sum).sum) (u v : Nat → T) :
    formOf M tf.globalSize rf.globalSize u v =
      ((tf.grid.entityIter 2).map fun c => ((rf.grid.entityIter 2).map fun c' => ((L c c').map fun τ =>
          τ.1 * tf.functionOn BT u c τ.2.1.1 τ.2.1.2 * rf.functionOn BR v c' τ.2.2.1 τ.2.2.2).sum).sum).sum := by
  unfold formOf
  have e2 : ((List.range tf.globalSize).map fun k => ((List.range rf.globalSize).map fun l =>
      u k * v l * M.getD (k + tf.globalSize * l) 0).sum) =
      ((List.range tf.globalSize).map fun k => ((List.range rf.globalSize).map fun l =>
      u k * v l * ((tf.grid.entityIter 2).map fun c => ((rf.grid.entityIter 2).map
        fun c' => ((L c c').map fun τ => τ.1 * tf.basisOn BT k c τ.2.1.1 τ.2.1.2 *
          rf.basisOn BR l c' τ.2.2.1 τ.2.2.2).sum).sum).sum).sum) := by
    apply List.map_congr_left
    intro k hk
    congr 1
    apply List.map_congr_left
    intro l hl
    rw [List.getD_eq_getElem?_getD, hM k l (List.mem_range.mp hk) (List.mem_range.mp hl)]
    rfl
  rw [e2]
  simp only [← List.sum_map_mul_left]
  have sw : ∀ k, ((List.range rf.globalSize).map fun l => ((tf.grid.entityIter 2).map fun c =>
      ((rf.grid.entityIter 2).map fun c' => ((L c c').map fun τ => u k * v l *
        (τ.1 * tf.basisOn BT k c τ.2.1.1 τ.2.1.2 * rf.basisOn BR l c' τ.2.2.1 τ.2.2.2)).sum).sum).sum).sum =
      ((tf.grid.entityIter 2).map fun c => ((rf.grid.entityIter 2).map fun c' =>
        ((List.range rf.globalSize).map fun l => ((L c c').map fun τ => u k * v l *
        (τ.1 * tf.basisOn BT k c τ.2.1.1 τ.2.1.2 * rf.basisOn BR l c' τ.2.2.1 τ.2.2.2)).sum).sum).sum).sum := by
    intro k
    rw [sum_swap]
    congr 1
    apply List.map_congr_left
    intro c _
    rw [sum_swap]
  simp only [sw]
  rw [sum_swap]
  congr 1
  apply List.map_congr_left
  intro c hc
  rw [sum_swap]
  congr 1
  apply List.map_congr_left
  intro c' hc'
  simp only [List.sum_map_mul_left]
  rw [← combine_terms (L c c') (fun τ => τ.1) (fun k τ => tf.basisOn BT k c τ.2.1.1 τ.2.1.2)
    (fun l τ => rf.basisOn BR l c' τ.2.2.1 τ.2.2.2) u v]
  rfl

/-- **C60.** `uᵀ M v` depends only on the functions that `u` and `v` represent, not on the spaces: if coefficients `u`, `u'` of two
test spaces on a grid give the same function, and coefficients `v`, `v'` of two trial spaces do, then `uᵀ M v = u'ᵀ M' v'` for
the matrices of every operator. -/
theorem C60_form (h : SpacePair env o trial test famT famR GT GR BT BR Q t)
    (h' : SpacePair env o trial' test' famT' famR' GT GR BT' BR' Q t) (ho : OperatorWith env.cast o K asm F)
    (hb : 0 < o.batchSize) :
    ∃ M M' : List T, (∀ out, Assemble env asm trial test out ↔ out = some M) ∧
      (∀ out, Assemble env asm trial' test' out ↔ out = some M') ∧
      ∀ u u' v v', SameFunction test.fs test'.fs BT BT' u u' → SameFunction trial.fs trial'.fs BR BR' v v' →
        formOf M test.fs.globalSize trial.fs.globalSize u v =
        formOf M' test'.fs.globalSize trial'.fs.globalSize u' v' := by
  obtain ⟨M, m1, -, m3⟩ := C14_operators h ho hb
  obtain ⟨M', n1, -, n3⟩ := C14_operators h' ho hb
  refine ⟨M, M', m1, n1, fun u u' v v' su sv => ?_⟩
  obtain ⟨L, hL, hv⟩ := doubleSum_terms ho.bilinear env.cast K GT GR Q test.fs.grid trial.fs.grid
  rw [form_terms (L := L) (BT := BT) (BR := BR) (fun i j hi hj => by rw [m3 i j hi hj, hv test.fs trial.fs BT BR rfl rfl]),
    form_terms (L := L) (BT := BT') (BR := BR') (fun i j hi hj => by
      rw [n3 i j hi hj, hv test'.fs trial'.fs BT' BR' su.grid.symm sv.grid.symm, su.grid, sv.grid]), ← su.grid, ← sv.grid]
  congr 1
  apply List.map_congr_left
  intro c hc
  congr 1
  apply List.map_congr_left
  intro c' hc'
  congr 1
  apply List.map_congr_left
  intro τ hτ
  rw [su.values c hc _ (hL c c' τ hτ).1, sv.values c' hc' _ (hL c c' τ hτ).2]

end

section
variable [Field T]

theorem sum_indicator {n i : Nat} (hi : i < n) (y : T) :
    ((List.range n).map fun a => if i = a then y else 0).sum = y := by
  induction n with
  | zero => omega
  | succ n ih =>
    rw [List.range_succ, List.map_append, List.sum_append, List.map_singleton, List.sum_singleton]
    by_cases h : i = n
    · rw [if_pos h, List.sum_eq_zero, zero_add]
      simp only [List.mem_map, List.mem_range, forall_exists_index, and_imp, forall_apply_eq_imp_iff₂]
      intro a ha
      rw [if_neg (by omega)]
    · rw [if_neg h, ih (by omega), add_zero]

/-- The sum of all basis functions on a cell. -/
theorem SerialSpace.sum_basis {sp : FunctionSpace} {fam : CellType → ElementDofs} (h : SerialSpace sp fam) (B : Basis R T)
    {c : Entity} (hc : c ∈ sp.grid.entityIter 2) (d : Nat) (x : List R) :
    sp.functionOn B (fun _ => 1) c d x =
      ((List.range (fam c.entityType).dim).map fun b => B c.entityType b d x).sum := by
  obtain ⟨nd, -, fo, -⟩ := h.family
  obtain ⟨cd, h1, h2, -, -⟩ := (C03_cell_dofs h.wf fo h.yields).2 c hc
  unfold FunctionSpace.functionOn FunctionSpace.basisOn
  simp only [one_mul]
  rw [h1, Option.getD_some, sum_swap]
  have e : ∀ y ∈ cd.zipIdx, ((List.range sp.globalSize).map fun a => if y.1 = a then B c.entityType y.2 d x else 0).sum =
      B c.entityType y.2 d x := by
    intro y hy
    exact sum_indicator (h.dof_lt c hc cd h1 y.1 (List.fst_mem_of_mem_zipIdx hy)) _
  rw [List.map_congr_left e, ← h2, show (fun y : Nat × Nat => B c.entityType y.2 d x) =
    (fun b => B c.entityType b d x) ∘ Prod.snd from rfl, ← List.map_map, List.zipIdx_map_snd, List.range_eq_range']

/-- Row `i` of a matrix. -/
theorem formOf_row (M : List T) (n m : Nat) {i : Nat} (hi : i < n) (v : Nat → T) :
    formOf M n m (fun k => if k = i then 1 else 0) v = ((List.range m).map fun j => v j * M.getD (i + n * j) 0).sum := by
  unfold formOf
  rw [← sum_indicator hi (((List.range m).map fun j => v j * M.getD (i + n * j) 0).sum)]
  congr 1
  apply List.map_congr_left
  intro k _
  by_cases hk : i = k
  · subst hk
    simp
  · rw [if_neg hk]
    apply List.sum_eq_zero
    simp only [List.mem_map, forall_exists_index, and_imp, forall_apply_eq_imp_iff₂]
    intro j _
    rw [if_neg (fun e => hk e.symm), zero_mul, zero_mul]

end

section
variable [Field R] [Field T]
  {env : Env R T} {asm : Assembler R T} {trial test trial' : Space R T} {o : Options}
  {famT famR famR' : CellType → ElementDofs} {F : MathIntegrand T} {K : MathKernel R T} {GT GR : Geometry R}
  {BT BR BR' : Basis R T} {Q : Quadrature R} {t : CellType}

/-- **C60.** Applied to constants an operator gives the same vector for all trial elements whose basis functions add up to
one: the row sums of the matrices for two trial spaces on a grid agree. -/
theorem C60_constants (h : SpacePair env o trial test famT famR GT GR BT BR Q t)
    (h' : SpacePair env o trial' test famT famR' GT GR BT BR' Q t) (ho : OperatorWith env.cast o K asm F)
    (hb : 0 < o.batchSize) (hg : trial.fs.grid = trial'.fs.grid) (u : PartitionOfUnity BR t (famR t).dim)
    (u' : PartitionOfUnity BR' t (famR' t).dim) :
    ∃ M M' : List T, (∀ out, Assemble env asm trial test out ↔ out = some M) ∧
      (∀ out, Assemble env asm trial' test out ↔ out = some M') ∧
      ∀ i, i < test.fs.globalSize →
        ((List.range trial.fs.globalSize).map fun j => M.getD (i + test.fs.globalSize * j) 0).sum =
        ((List.range trial'.fs.globalSize).map fun j => M'.getD (i + test.fs.globalSize * j) 0).sum := by
  obtain ⟨M, M', m, m', e⟩ := C60_form h h' ho hb
  refine ⟨M, M', m, m', fun i hi => ?_⟩
  have one : ∀ {sp : Space R T} {fam : CellType → ElementDofs} {B : Basis R T}, SerialSpace sp.fs fam →
      sp.fs.grid.entityTypes 2 = [t] → PartitionOfUnity B t (fam t).dim → ∀ c ∈ sp.fs.grid.entityIter 2, ∀ d, d < 3 → ∀ x,
      sp.fs.functionOn B (fun _ => 1) c d x = if d = 0 then 1 else 0 := by
    intro sp fam B hs ht hu c hc d hd x
    have := hs.wf.types c hc
    rw [ht, List.mem_singleton] at this
    rw [hs.sum_basis B hc, this]
    rcases (by omega : d = 0 ∨ d = 1 ∨ d = 2) with rfl | rfl | rfl
    · exact (hu x).1
    · exact (hu x).2.1
    · exact (hu x).2.2
  have := e (fun k => if k = i then 1 else 0) (fun k => if k = i then 1 else 0) (fun _ => 1) (fun _ => 1)
    ⟨rfl, fun _ _ _ _ _ => rfl⟩ ⟨hg, fun c hc d hd x => by
      rw [one h.trialSpace h.trialType u c hc d hd x, one h'.trialSpace h'.trialType u' c (by rw [← hg]; exact hc) d hd x]⟩
  rw [formOf_row _ _ _ hi, formOf_row _ _ _ hi] at this
  simpa using this

end

/-! ### The hypotheses can be met -/

namespace Examples

/-- The basis function of the discontinuous element of degree 0. -/
def dp0Basis : Basis Rat Rat := fun _ _ i _ => if i = 0 then 1 else 0

theorem dp0_octahedron : FamilyOn octahedron dp0 (fun d _ => if d = 2 then 1 else 0) where
  elem := fun t ht => dp0_wf t (by revert ht; revert t; decide)
  count := by
    intro c _ d _ i e _ l hl
    simp only [dp0] at hl
    split at hl
    · cases hl; split <;> rfl
    · cases hl

theorem dp0_octahedron_colourable : Colourable octahedron dp0 (fun d _ => if d = 2 then 1 else 0) .triangle where
  first := by decide
  exists_dof := ⟨2, [0], by decide, rfl, by decide⟩
  lowest := by
    intro d hd h e
    rcases (by omega : d = 0 ∨ d = 1) with rfl | rfl <;> rfl

/-- DP0 space on the octahedron. -/
theorem octConstants : ∃ fs, SerialSpace fs dp0 ∧ fs.grid = octahedron := by
  obtain ⟨sp, h, _⟩ := C18_serial_space octahedron_wf dp0_octahedron octahedron_owned
  have hy : (FunctionSpace.new 0 1 octahedron dp0).Yields sp := by rw [h]; exact .done sp
  obtain ⟨dm, _, _, _, _, hg, _, hel⟩ := new_local hy
  refine ⟨sp, ⟨?_, ?_, ?_, ?_, ?_⟩, hg⟩
  all_goals rw [hg]
  · exact octahedron_wf
  · exact ⟨_, mkGrid_edges _ _ _ _ (by decide)⟩
  · exact ⟨_, _, dp0_octahedron, dp0_octahedron_colourable⟩
  · exact octahedron_owned
  · exact h

/-- Two spaces on the octahedron. -/
theorem octPairOf' {famT famR : CellType → ElementDofs} {fs fs' : FunctionSpace} (BT BR : Basis Rat Rat)
    (h : SerialSpace fs famT) (hg : fs.grid = octahedron) (h' : SerialSpace fs' famR) (hg' : fs'.grid = octahedron) :
    SpacePair exEnv smallOptions (Examples.spaceOf fs' famR octGeometry BR) (Examples.spaceOf fs famT octGeometry BT) famT famR
      octGeometry octGeometry BT BR smallRules .triangle where
  testSpace := h
  trialSpace := h'
  testType := by show fs.grid.entityTypes 2 = _; rw [hg]; decide
  trialType := by show fs'.grid.entityTypes 2 = _; rw [hg']; decide
  testSurface := by show Surface fs.grid; rw [hg]; exact ⟨rfl, rfl⟩
  trialSurface := by show Surface fs'.grid; rw [hg']; exact ⟨rfl, rfl⟩
  testGeometry := spaceOf_geometry fs famT octGeometry BT
  trialGeometry := spaceOf_geometry fs' famR octGeometry BR
  testBasis := spaceOf_tabulate fs famT octGeometry BT
  trialBasis := spaceOf_tabulate fs' famR octGeometry BR
  rule := exEnv_regular
  same := fun _ => ⟨hg'.trans hg.symm, rfl, by show fs.grid.Vertices; rw [hg]; exact octahedron_vertices,
    by
      show ∃ ev, fs.grid.Edges ev ∧ fs.grid.Conforming ev
      rw [hg]
      exact ⟨_, octahedron_edges, octahedron_conforming⟩, exEnv_singular⟩

theorem p1Basis_unity : PartitionOfUnity p1Basis .triangle (p1 .triangle).dim := by
  intro x
  refine ⟨?_, ?_, ?_⟩ <;>
    simp [p1, refCount, List.range_succ, p1Basis]

theorem dp0Basis_unity : PartitionOfUnity dp0Basis .triangle (dp0 .triangle).dim := by
  intro x
  simp [dp0, refCount, List.range_succ, dp0Basis]

/-- The row sums of the 6 by 6 matrix for P1 trial functions are those of the 6 by 8 matrix for DP0 trial functions. -/
example : ∃ (dfs : FunctionSpace) (M M' : List Rat), dfs.globalSize = 8 ∧
    (∀ out, Assemble exEnv (Laplace.doubleLayer (kernelOf squareKernel) smallOptions)
      (Examples.spaceOf octFs p1 octGeometry p1Basis) (Examples.spaceOf octFs p1 octGeometry p1Basis) out ↔ out = some M) ∧
    (∀ out, Assemble exEnv (Laplace.doubleLayer (kernelOf squareKernel) smallOptions)
      (Examples.spaceOf dfs dp0 octGeometry dp0Basis) (Examples.spaceOf octFs p1 octGeometry p1Basis) out ↔ out = some M') ∧
    ((List.range 6).map fun j => M.getD (2 + 6 * j) 0).sum = ((List.range 8).map fun j => M'.getD (2 + 6 * j) 0).sum := by
  obtain ⟨dfs, h, hg⟩ := octConstants
  have hs : octFs.globalSize = 6 := by decide +kernel
  have hd : dfs.globalSize = 8 := by
    have := h.made
    rw [hg] at this
    have e : (match FunctionSpace.new 0 1 octahedron dp0 with | .done sp => sp.globalSize | _ => 0) = 8 := by decide +kernel
    rw [this] at e
    exact e
  obtain ⟨M, M', h1, h2, h3⟩ := C60_constants (K := squareKernel)
    (octPairOf' p1Basis p1Basis octFs_space.1 octFs_space.2 octFs_space.1 octFs_space.2)
    (octPairOf' p1Basis dp0Basis octFs_space.1 octFs_space.2 h hg)
    (OperatorWith.laplaceDoubleLayer (cast := id) (kernelOf_computes squareKernel _)) (by decide)
    (octFs_space.2.trans hg.symm) p1Basis_unity dp0Basis_unity
  refine ⟨dfs, M, M', hd, h1, h2, ?_⟩
  have := h3 2 (by show 2 < octFs.globalSize; omega)
  change ((List.range octFs.globalSize).map fun j => M.getD (2 + octFs.globalSize * j) 0).sum =
    ((List.range dfs.globalSize).map fun j => M'.getD (2 + octFs.globalSize * j) 0).sum at this
  rw [hs, hd] at this
  exact this

end Examples

end Bempp
