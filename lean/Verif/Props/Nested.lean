import Verif.Proofs.Nested
import Verif.Proofs.Motion
import Verif.Props.Numbering
import Verif.Props.Sparse
/-
C58: matrices of spaces that contain each other.
-/
set_option linter.unusedSectionVars false

namespace Bempp
open Examples

variable {R T : Type}

section
variable [Field R] [Field T]
  {env : Env R T} {asm : Assembler R T} {trial test trial' test' : Space R T} {o : Options}
  {famT famR famT' famR' : CellType → ElementDofs} {F : MathIntegrand T} {K : MathKernel R T} {GT GR : Geometry R}
  {BT BR BT' BR' : Basis R T} {Q : Quadrature R} {t : CellType} {P S : Nat → Nat → T}

/-- **C58.** If the basis functions of the test and trial space are combinations of those of larger spaces on the same
grids, with coefficients `P` and `S`, then the matrix of every operator is `P M' Sᵀ`, where `M'` is its matrix for the larger spaces. -/
theorem C58_nested_spaces (h : SpacePair env o trial test famT famR GT GR BT BR Q t)
    (h' : SpacePair env o trial' test' famT' famR' GT GR BT' BR' Q t) (ho : OperatorWith env.cast o K asm F)
    (hb : 0 < o.batchSize) (nT : NestedSpaces test.fs test'.fs BT BT' P) (nR : NestedSpaces trial.fs trial'.fs BR BR' S) :
    ∃ M M' : List T, (∀ out, Assemble env asm trial test out ↔ out = some M) ∧
      (∀ out, Assemble env asm trial' test' out ↔ out = some M') ∧
      ∀ i j, i < test.fs.globalSize → j < trial.fs.globalSize → M[i + test.fs.globalSize * j]? =
        some ((List.range test'.fs.globalSize).map fun k => ((List.range trial'.fs.globalSize).map fun l =>
          P i k * S j l * M'.getD (k + test'.fs.globalSize * l) 0).sum).sum := by
  obtain ⟨M, m1, -, m3⟩ := C14_operators h ho hb
  obtain ⟨M', n1, -, n3⟩ := C14_operators h' ho hb
  refine ⟨M, M', m1, n1, fun i j hi hj => ?_⟩
  rw [m3 i j hi hj]
  congr 1
  obtain ⟨L, hL, hv⟩ := doubleSum_terms ho.bilinear env.cast K GT GR Q test.fs.grid trial.fs.grid
  rw [hv test.fs trial.fs BT BR rfl rfl]
  have e : ∀ k ∈ List.range test'.fs.globalSize, ∀ l ∈ List.range trial'.fs.globalSize,
      M'.getD (k + test'.fs.globalSize * l) 0 = ((test.fs.grid.entityIter 2).map fun c => ((trial.fs.grid.entityIter 2).map
        fun c' => ((L c c').map fun τ => τ.1 * test'.fs.basisOn BT' k c τ.2.1.1 τ.2.1.2 *
          trial'.fs.basisOn BR' l c' τ.2.2.1 τ.2.2.2).sum).sum).sum := by
    intro k hk l hl
    rw [← hv test'.fs trial'.fs BT' BR' nT.grid.symm nR.grid.symm, List.getD_eq_getElem?_getD,
      n3 k l (List.mem_range.mp hk) (List.mem_range.mp hl)]
    rfl
  have e2 : ((List.range test'.fs.globalSize).map fun k => ((List.range trial'.fs.globalSize).map fun l =>
      P i k * S j l * M'.getD (k + test'.fs.globalSize * l) 0).sum) =
      ((List.range test'.fs.globalSize).map fun k => ((List.range trial'.fs.globalSize).map fun l =>
      P i k * S j l * ((test.fs.grid.entityIter 2).map fun c => ((trial.fs.grid.entityIter 2).map
        fun c' => ((L c c').map fun τ => τ.1 * test'.fs.basisOn BT' k c τ.2.1.1 τ.2.1.2 *
          trial'.fs.basisOn BR' l c' τ.2.2.1 τ.2.2.2).sum).sum).sum).sum) := by
    apply List.map_congr_left
    intro k hk
    congr 1
    apply List.map_congr_left
    intro l hl
    rw [e k hk l hl]
  rw [e2]
  simp only [← List.sum_map_mul_left]
  have sw : ∀ k, ((List.range trial'.fs.globalSize).map fun l => ((test.fs.grid.entityIter 2).map fun c =>
      ((trial.fs.grid.entityIter 2).map fun c' => ((L c c').map fun τ => P i k * S j l *
        (τ.1 * test'.fs.basisOn BT' k c τ.2.1.1 τ.2.1.2 * trial'.fs.basisOn BR' l c' τ.2.2.1 τ.2.2.2)).sum).sum).sum).sum =
      ((test.fs.grid.entityIter 2).map fun c => ((trial.fs.grid.entityIter 2).map fun c' =>
        ((List.range trial'.fs.globalSize).map fun l => ((L c c').map fun τ => P i k * S j l *
        (τ.1 * test'.fs.basisOn BT' k c τ.2.1.1 τ.2.1.2 * trial'.fs.basisOn BR' l c' τ.2.2.1 τ.2.2.2)).sum).sum).sum).sum := by
    intro k
    rw [sum_swap]
    congr 1
    apply List.map_congr_left
    intro c _
    rw [sum_swap]
  simp only [sw]
  conv_rhs => rw [sum_swap]
  congr 1
  apply List.map_congr_left
  intro c hc
  conv_rhs => rw [sum_swap]
  congr 1
  apply List.map_congr_left
  intro c' hc'
  simp only [List.sum_map_mul_left]
  rw [← combine_terms (L c c') (fun τ => τ.1) (fun k τ => test'.fs.basisOn BT' k c τ.2.1.1 τ.2.1.2)
    (fun l τ => trial'.fs.basisOn BR' l c' τ.2.2.1 τ.2.2.2) (P i) (S j)]
  congr 1
  apply List.map_congr_left
  intro τ hτ
  rw [nT.combination i hi c hc _ (hL c c' τ hτ).1, nR.combination j hj c' hc' _ (hL c c' τ hτ).2]

end

/-! ### Broken spaces -/

section
variable [Semiring T]

/-- If the cells of two spaces have the same local basis functions and the DOFs of the one space are those of the other
one renamed by `τ`, the one space is contained in the other one. -/
theorem nested_of_renamed {sub sup : FunctionSpace} {fam' : CellType → ElementDofs} {B : Basis R T} {τ : Nat → Nat}
    (hs' : SerialSpace sup fam') (hg : sub.grid = sup.grid)
    (hτ : ∀ c ∈ sup.grid.entityIter 2, ∀ cd, sup.cellDofs c.localIndex = some cd →
      sub.cellDofs c.localIndex = some (cd.map τ)) :
    NestedSpaces sub sup B B fun i k => if τ k = i then 1 else 0 where
  grid := hg
  combination := by
    intro i _ c hc d _ x
    rw [hg] at hc
    obtain ⟨nd, -, fo, -⟩ := hs'.family
    have hy : (FunctionSpace.new 0 1 sup.grid fam').Yields sup := by rw [hs'.made]; exact .done sup
    obtain ⟨cd, hcd, -, -, -⟩ := (C03_cell_dofs hs'.wf fo hy).2 c hc
    have hlt := hs'.dof_lt c hc cd hcd
    unfold FunctionSpace.basisOn
    rw [hτ c hc cd hcd, hcd]
    simp only [Option.getD_some]
    simp only [← List.sum_map_mul_left]
    rw [sum_swap, List.zipIdx_map, List.map_map]
    congr 1
    apply List.map_congr_left
    intro ja hja
    have hj : ja.1 < sup.globalSize := hlt _ (by
      have := List.mem_zipIdx' hja
      rw [this.2]
      exact List.getElem_mem _)
    simp only [Function.comp, Prod.map]
    rw [← List.sum_toFinset _ List.nodup_range]
    rw [Finset.sum_eq_single ja.1]
    · simp
    · intro b _ hb
      rw [if_neg (Ne.symm hb), mul_zero]
    · intro hn
      simp [hj] at hn

end

/-- The DOFs of a space are those of its broken space, identified by a map. -/
theorem broken_dofs {sp sp' : FunctionSpace} {fam fam' : CellType → ElementDofs} {t : CellType} (h : SerialSpace sp fam)
    (h' : SerialSpace sp' fam') (hg : sp.grid = sp'.grid) (ht : sp.grid.entityTypes 2 = [t]) (hbr : BrokenFamily fam fam' t) :
    ∃ τ : Nat → Nat, ∀ c ∈ sp'.grid.entityIter 2, ∀ cd, sp'.cellDofs c.localIndex = some cd →
      sp.cellDofs c.localIndex = some (cd.map τ) := by
  classical
  obtain ⟨nd, -, fo, -⟩ := h.family
  obtain ⟨nd', -, fo', -⟩ := h'.family
  have hy : (FunctionSpace.new 0 1 sp.grid fam).Yields sp := by rw [h.made]; exact .done sp
  have hy' : (FunctionSpace.new 0 1 sp'.grid fam').Yields sp' := by rw [h'.made]; exact .done sp'
  have ct : ∀ c ∈ sp'.grid.entityIter 2, c.entityType = t := by
    intro c hc
    have := h'.wf.types c hc
    rwa [← hg, ht, List.mem_singleton] at this
  -- cells of the broken space have blocks of DOFs of their own
  have disj : ∀ c ∈ sp'.grid.entityIter 2, ∀ c0 ∈ sp'.grid.entityIter 2, ∀ cd cd0 n, sp'.cellDofs c.localIndex = some cd →
      sp'.cellDofs c0.localIndex = some cd0 → n ∈ cd → n ∈ cd0 → c0.localIndex = c.localIndex := by
    intro c hc c0 hc0 cd cd0 n e1 e2 n1 n2
    obtain ⟨d, e, hd, m1, m2, hpos⟩ := (C04_shared_dofs h'.wf fo' hy' c c0 hc hc0).mp ⟨cd, cd0, n, e1, e2, n1, n2⟩
    by_cases h2 : d = 2
    · subst h2
      rw [h'.wf.sub_self c hc, List.mem_singleton] at m1
      rw [h'.wf.sub_self c0 hc0, List.mem_singleton] at m2
      rw [← m1, ← m2]
    · exfalso
      obtain ⟨i, hi⟩ := List.getElem?_of_mem m1
      have hwf := fo'.elem _ (h'.wf.types c hc)
      have hi2 : i < refCount c.entityType d := by
        rw [← h'.wf.sub_length c hc d hd]; exact (List.getElem?_eq_some_iff.mp hi).1
      obtain ⟨l, hl⟩ := Option.isSome_iff_exists.mp (hwf.defined d hd i hi2)
      rw [← fo'.count c hc d hd i e hi l hl] at hpos
      obtain ⟨x, hx⟩ := List.exists_mem_of_length_pos hpos
      have h2r : 0 < refCount c.entityType 2 := by
        rw [← h'.wf.sub_length c hc 2 (by omega), h'.wf.sub_self c hc]; simp
      refine hwf.disjoint hd hi2 hl (by omega : 2 ≤ 2) h2r (by rw [ct c hc]; exact hbr.2)
        (by simp only [ne_eq, Prod.mk.injEq]; omega) hx ?_
      rw [List.mem_range, ← hbr.1, ← ct c hc]
      exact hwf.lt_dim hd hi2 hl hx
  let Q : Nat → Nat → Prop := fun n m => ∃ c ∈ sp'.grid.entityIter 2, ∃ cd cd0, sp'.cellDofs c.localIndex = some cd ∧
    sp.cellDofs c.localIndex = some cd0 ∧ ∃ a : Nat, cd[a]? = some n ∧ cd0[a]? = some m
  refine ⟨fun n => if hn : ∃ m, Q n m then hn.choose else 0, ?_⟩
  intro c hc cd hcd
  have hc' : c ∈ sp.grid.entityIter 2 := by rw [hg]; exact hc
  obtain ⟨cd0, hcd0, len0, -, -⟩ := (C03_cell_dofs h.wf fo hy).2 c hc'
  obtain ⟨cd1, hcd1, len1, nodup1, -⟩ := (C03_cell_dofs h'.wf fo' hy').2 c hc
  rw [hcd] at hcd1
  cases hcd1
  rw [hcd0, Option.some.injEq]
  have hlen : cd0.length = cd.length := by rw [len0, len1, ct c hc, hbr.1]
  apply List.ext_getElem?
  intro a
  rw [List.getElem?_map]
  by_cases ha : a < cd.length
  · have ha0 : a < cd0.length := by omega
    rw [List.getElem?_eq_getElem ha, List.getElem?_eq_getElem ha0, Option.map_some, Option.some.injEq]
    have hn : ∃ m, Q cd[a] m := ⟨cd0[a], c, hc, cd, cd0, hcd, hcd0, a, List.getElem?_eq_getElem ha,
      List.getElem?_eq_getElem ha0⟩
    simp only [dif_pos hn]
    obtain ⟨c2, hc2, cd2, cd3, e1, e2, a2, e3, e4⟩ := hn.choose_spec
    have hci := disj c hc c2 hc2 cd cd2 cd[a] hcd e1 (List.getElem_mem _) (List.mem_of_getElem? e3)
    rw [hci] at e1 e2
    rw [hcd] at e1
    cases e1
    rw [hcd0] at e2
    cases e2
    have : a2 = a := (List.getElem?_inj (by exact (List.getElem?_eq_some_iff.mp e3).1) nodup1).mp
      (by rw [e3, List.getElem?_eq_getElem ha])
    subst this
    rw [List.getElem?_eq_getElem ha0, Option.some.injEq] at e4
    exact e4
  · rw [List.getElem?_eq_none (by omega), List.getElem?_eq_none (by omega)]
    rfl

section
variable [Field R] [Field T]
  {env : Env R T} {asm : Assembler R T} {trial test trial' test' : Space R T} {o : Options}
  {famT famR famT' famR' : CellType → ElementDofs} {F : MathIntegrand T} {K : MathKernel R T} {GT GR : Geometry R}
  {BT BR : Basis R T} {Q : Quadrature R} {t : CellType}

/-- **C58.** The matrix of every operator for (continuous) spaces can be read off from its matrix for the broken spaces, in which each cell
has basis functions of its own: entry `(i, j)` is the sum of the entries `(k, l)` of the larger matrix for the broken DOFs `k`, `l` that are identified to
`i`, `j`. -/
theorem C58_broken_spaces (h : SpacePair env o trial test famT famR GT GR BT BR Q t)
    (h' : SpacePair env o trial' test' famT' famR' GT GR BT BR Q t) (ho : OperatorWith env.cast o K asm F)
    (hb : 0 < o.batchSize) (gT : test.fs.grid = test'.fs.grid) (gR : trial.fs.grid = trial'.fs.grid)
    (bT : BrokenFamily famT famT' t) (bR : BrokenFamily famR famR' t) :
    ∃ (τ σ : Nat → Nat) (M M' : List T),
      (∀ c ∈ test'.fs.grid.entityIter 2, ∀ cd, test'.fs.cellDofs c.localIndex = some cd →
        test.fs.cellDofs c.localIndex = some (cd.map τ)) ∧
      (∀ c ∈ trial'.fs.grid.entityIter 2, ∀ cd, trial'.fs.cellDofs c.localIndex = some cd →
        trial.fs.cellDofs c.localIndex = some (cd.map σ)) ∧
      (∀ out, Assemble env asm trial test out ↔ out = some M) ∧
      (∀ out, Assemble env asm trial' test' out ↔ out = some M') ∧
      ∀ i j, i < test.fs.globalSize → j < trial.fs.globalSize → M[i + test.fs.globalSize * j]? =
        some (((List.range test'.fs.globalSize).filter fun k => τ k = i).map fun k =>
          (((List.range trial'.fs.globalSize).filter fun l => σ l = j).map fun l =>
            M'.getD (k + test'.fs.globalSize * l) 0).sum).sum := by
  obtain ⟨τ, hτ⟩ := broken_dofs h.testSpace h'.testSpace gT h.testType bT
  obtain ⟨σ, hσ⟩ := broken_dofs h.trialSpace h'.trialSpace gR h.trialType bR
  obtain ⟨M, M', m1, m2, m3⟩ := C58_nested_spaces h h' ho hb (nested_of_renamed h'.testSpace gT hτ)
    (nested_of_renamed h'.trialSpace gR hσ)
  refine ⟨τ, σ, M, M', hτ, hσ, m1, m2, fun i j hi hj => ?_⟩
  rw [m3 i j hi hj]
  congr 1
  have fs : ∀ (l : List Nat) (p : Nat → Bool) (f : Nat → T), ((l.filter p).map f).sum = (l.map fun x => if p x then f x else 0).sum := by
    intro l p f
    induction l with
    | nil => rfl
    | cons x l ih => by_cases hp : p x = true <;> simp [hp, ih]
  rw [fs]
  congr 1
  apply List.map_congr_left
  intro k _
  rw [fs]
  by_cases hk : τ k = i
  · simp [hk]
  · simp [hk]

end

/-! ### The hypotheses can be met -/

namespace Examples

/-- Discontinuous degree 1: the functions of P1, all in the interior. -/
def dp1 (t : CellType) : ElementDofs :=
  { dim := refCount t 0
    entityDofs := fun d i => if d ≤ 2 ∧ i < refCount t d then
      some (if d = 2 then List.range (refCount t 0) else []) else none }

theorem dp1_octahedron : FamilyOn octahedron dp1 (fun d _ => if d = 2 then 3 else 0) where
  elem := by
    intro t ht
    have ht : t = .triangle := by revert ht; revert t; decide
    subst ht
    exact ⟨le2 (by decide) (by decide) (by decide), by decide⟩
  count := by
    intro c hc d _ i e _ l hl
    have ht : ∀ c ∈ octahedron.entityIter 2, c.entityType = .triangle := by decide
    rw [ht c hc] at hl
    simp only [dp1] at hl
    split at hl
    · cases hl; split <;> rfl
    · cases hl

theorem dp1_octahedron_colourable : Colourable octahedron dp1 (fun d _ => if d = 2 then 3 else 0) .triangle where
  first := by decide
  exists_dof := ⟨2, [0, 1, 2], by decide, rfl, by decide⟩
  lowest := by
    intro d hd h e
    rcases (by omega : d = 0 ∨ d = 1) with rfl | rfl <;> rfl

/-- DP1 space on the octahedron. -/
theorem octBroken : ∃ fs, SerialSpace fs dp1 ∧ fs.grid = octahedron := by
  obtain ⟨sp, h, _⟩ := C18_serial_space octahedron_wf dp1_octahedron octahedron_owned
  have hy : (FunctionSpace.new 0 1 octahedron dp1).Yields sp := by rw [h]; exact .done sp
  obtain ⟨dm, _, _, _, _, hg, _, hel⟩ := new_local hy
  refine ⟨sp, ⟨?_, ?_, ?_, ?_, ?_⟩, hg⟩
  all_goals rw [hg]
  · exact octahedron_wf
  · exact ⟨_, mkGrid_edges _ _ _ _ (by decide)⟩
  · exact ⟨_, _, dp1_octahedron, dp1_octahedron_colourable⟩
  · exact octahedron_owned
  · exact h

/-- A space on the octahedron, paired with itself. -/
theorem octPairOf {fam : CellType → ElementDofs} {fs : FunctionSpace} (B : Basis Rat Rat) (h : SerialSpace fs fam)
    (hg : fs.grid = octahedron) :
    SpacePair exEnv smallOptions (Examples.spaceOf fs fam octGeometry B) (Examples.spaceOf fs fam octGeometry B) fam fam
      octGeometry octGeometry B B smallRules .triangle where
  testSpace := h
  trialSpace := h
  testType := by show fs.grid.entityTypes 2 = _; rw [hg]; decide
  trialType := by show fs.grid.entityTypes 2 = _; rw [hg]; decide
  testSurface := by show Surface fs.grid; rw [hg]; exact ⟨rfl, rfl⟩
  trialSurface := by show Surface fs.grid; rw [hg]; exact ⟨rfl, rfl⟩
  testGeometry := spaceOf_geometry fs fam octGeometry B
  trialGeometry := spaceOf_geometry fs fam octGeometry B
  testBasis := spaceOf_tabulate fs fam octGeometry B
  trialBasis := spaceOf_tabulate fs fam octGeometry B
  rule := exEnv_regular
  same := fun _ => ⟨rfl, rfl, by show fs.grid.Vertices; rw [hg]; exact octahedron_vertices,
    by
      show ∃ ev, fs.grid.Edges ev ∧ fs.grid.Conforming ev
      rw [hg]
      exact ⟨_, octahedron_edges, octahedron_conforming⟩, exEnv_singular⟩

/-- The 6 by 6 hypersingular matrix for P1 from the 24 by 24 matrix for DP1. -/
example : ∃ (dfs : FunctionSpace) (τ σ : Nat → Nat) (M M' : List Rat),
    (∀ out, Assemble exEnv (Laplace.hypersingular (kernelOf squareKernel) smallOptions)
      (Examples.spaceOf octFs p1 octGeometry p1Basis) (Examples.spaceOf octFs p1 octGeometry p1Basis) out ↔ out = some M) ∧
    (∀ out, Assemble exEnv (Laplace.hypersingular (kernelOf squareKernel) smallOptions)
      (Examples.spaceOf dfs dp1 octGeometry p1Basis) (Examples.spaceOf dfs dp1 octGeometry p1Basis) out ↔ out = some M') ∧
    M[2]? = some (((List.range dfs.globalSize).filter fun k => τ k = 2).map fun k =>
      (((List.range dfs.globalSize).filter fun l => σ l = 0).map fun l => M'.getD (k + dfs.globalSize * l) 0).sum).sum := by
  obtain ⟨dfs, h, hg⟩ := octBroken
  have hs : octFs.globalSize = 6 := by decide +kernel
  obtain ⟨τ, σ, M, M', -, -, h1, h2, h3⟩ := C58_broken_spaces (K := squareKernel) (octPairOf p1Basis octFs_space.1 octFs_space.2)
    (octPairOf p1Basis h hg) (OperatorWith.laplaceHypersingular (cast := id) (kernelOf_computes squareKernel _)) (by decide)
    (octFs_space.2.trans hg.symm) (octFs_space.2.trans hg.symm) ⟨rfl, rfl⟩ ⟨rfl, rfl⟩
  refine ⟨dfs, τ, σ, M, M', h1, h2, ?_⟩
  have := h3 2 0 (by show 2 < octFs.globalSize; omega) (by show 0 < octFs.globalSize; omega)
  exact this

end Examples

end Bempp
