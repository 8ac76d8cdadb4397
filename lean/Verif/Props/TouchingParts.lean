import Verif.Props.Touching
import Verif.Props.Partition
/-
**C113** on distributed grids.
-/
set_option linter.unusedSectionVars false

namespace Bempp

section
variable {R T : Type} [Zero R] [Mul R] [Zero T] [Add T] [Mul T] {env : Env R T} {asm : Assembler R T} {trial test : Space R T}
  {famT famR : CellType → ElementDofs} {F : MathIntegrand T} {K : MathKernel R T} {G : Geometry R} {BT BR : Basis R T}
  {Q : Quadrature R}

/-- **C113**, any conforming grid, also a part of a distributed one and with cells of several types: the sparse matrix of the singular part
stores for every pair of touching cells, the first one owned by the process, one triplet for each pair of a test and a trial function of the
elements of these cells. -/
theorem C113_any_grid (h : SingularSetting env asm trial test famT famR F K G BT BR Q) (hb : 0 < asm.options.batchSize) (sm : Sparse T)
    (hsm : AssembleSingularPart env asm (test.fs.globalSize, trial.fs.globalSize) trial test (some sm)) :
    sm.data.length = (((test.fs.grid.entityIter 2).filter fun c => c.ownership = .owned).map fun c =>
      (((test.fs.grid.entityIter 2).filter fun c' => c.Touches c').map fun c' =>
        (famT c.entityType).dim * (famR c'.entityType).dim).sum).sum ∧
    sm.rows.length = sm.data.length ∧ sm.cols.length = sm.data.length := by
  rw [h.part hb] at hsm
  cases hsm
  simp only [Sparse.ofTriplets, List.length_map, and_self, and_true]
  rw [h.triplets_perm.length_eq, List.length_flatMap]
  have key : ∀ p ∈ adjacentPairs test.fs.grid,
      (cellTriplets env.cast F K G BT BR Q famT famR trial.fs test.fs p).length =
        (famT p.1.entityType).dim * (famR p.2.entityType).dim := by
    intro p hp
    obtain ⟨p1, p2, -, -⟩ := mem_adjacentPairs.mp hp
    obtain ⟨cd, -, e1, l1, -, -⟩ := h.testSpace.cell p1
    obtain ⟨cd', -, e2, l2, -, -⟩ := h.trialSpace.cell (by rw [h.sameGrid]; exact p2)
    unfold cellTriplets localTriplets
    rw [e1, e2, List.length_flatMap]
    have : ∀ x ∈ cd'.zip ((List.range (famR p.2.entityType).dim).map fun b => (List.range (famT p.1.entityType).dim).map fun a =>
        singularValue env.cast F K G G BT BR Q p.1.entityType p.2.entityType (connectivity p.1 p.2) p.1.localIndex p.2.localIndex a b),
        ((cd.zip x.2).map fun e => ((test.fs.gdof e.1, trial.fs.gdof x.1), e.2)).length = (famT p.1.entityType).dim := by
      intro x hx
      obtain ⟨b, -, e⟩ := List.mem_map.mp (List.of_mem_zip hx).2
      rw [List.length_map, List.length_zip, ← e, List.length_map, List.length_range, l1, Nat.min_self]
    rw [List.map_congr_left this, List.map_const', List.sum_replicate, List.length_zip, l2, List.length_map, List.length_range,
      Nat.min_self, smul_eq_mul, Nat.mul_comm]
  rw [List.map_congr_left key]
  unfold adjacentPairs
  have sum_flat : ∀ {α : Type} (l : List α) (f : α → List Nat), (l.flatMap f).sum = (l.map fun a => (f a).sum).sum := by
    intro α l f
    induction l with
    | nil => rfl
    | cons a l ih => rw [List.flatMap_cons, List.sum_append, ih, List.map_cons, List.sum_cons]
  rw [List.map_flatMap, sum_flat]
  congr 1
  refine List.map_congr_left fun c hc => ?_
  rw [List.map_map]
  congr 2
  refine List.filter_congr fun c' _ => ?_
  rw [Bool.eq_iff_iff]
  rw [decide_eq_true_iff]
  simp [Entity.Touches]

end

section
variable {R T U : Type} [Zero R] [Mul R] [Zero T] [Add T] [Mul T]
  {env : Env R T} {asm : Assembler R T} {N : Nat} {G : Nat → Grid} {S : Grid} {num : Nat → Nat → Nat → Nat}
  {trial test : Nat → Space R T} {trialS testS : Space R T} {famT famR : CellType → ElementDofs} {F : MathIntegrand T}
  {K : MathKernel R T} {geo : Nat → Geometry R} {geoS : Geometry R} {BT BR : Basis R T} {Q : Quadrature R}

theorem PartSetting.grids (h : PartSetting env asm N G S num trial test trialS testS famT famR F K geo geoS BT BR Q) :
    testS.fs.grid = S ∧ ∀ r, r < N → (test r).fs.grid = G r := by
  have yT : (FunctionSpace.new 0 1 S famT).Yields testS.fs := by rw [h.testWhole]; exact .done _
  have gS : testS.fs.grid = S := by
    obtain ⟨_, _, _, _, _, hg, _⟩ := new_local yT
    exact hg
  obtain ⟨ndT, -, foT, -⟩ := h.onWhole.testSpace.family
  rw [gS] at foT
  refine ⟨gS, fun r hr => ?_⟩
  obtain ⟨_, _, _, _, _, hg, _⟩ := new_local (h.testParts.yields (h.part.distributed foT) hr)
  exact hg

/-- **C113**, distributed grids: the processes together store exactly as many triplets as one process that has the whole grid; nothing
is stored twice and nothing is left out. -/
theorem C113_parts_stored (h : PartSetting env asm N G S num trial test trialS testS famT famR F K geo geoS BT BR Q)
    (hb : 0 < asm.options.batchSize) (A : Nat → Sparse T) (W : Sparse T)
    (hA : ∀ r, r < N → AssembleSingularPart env asm ((test r).fs.globalSize, (trial r).fs.globalSize) (trial r) (test r) (some (A r)))
    (hW : AssembleSingularPart env asm (testS.fs.globalSize, trialS.fs.globalSize) trialS testS (some W)) :
    ((List.range N).map fun r => (A r).data.length).sum = W.data.length := by
  obtain ⟨gS, gP⟩ := h.grids
  rw [(C113_any_grid h.onWhole hb W hW).1, gS, ← h.part.sum_eq h.layer
    (f := fun c c' => (famT c.entityType).dim * (famR c'.entityType).dim)
    (v := fun _ c c' => (famT c.entityType).dim * (famR c'.entityType).dim)]
  · congr 1
    refine List.map_congr_left fun r hr => ?_
    have hr := List.mem_range.mp hr
    rw [(C113_any_grid (h.onParts r hr) hb (A r) (hA r hr)).1, gP r hr]
  · intro r hr c hc c' hc' c0 h0 c1 h1 e0 e1
    obtain ⟨x, hx, ex, tx, -⟩ := h.part.cell r hr c hc
    obtain ⟨y, hy, ey, ty, -⟩ := h.part.cell r hr c' hc'
    rw [cell_ext h.part.whole h0 hx (by rw [e0, ex]), cell_ext h.part.whole h1 hy (by rw [e1, ey]), tx, ty]

/-- The cells of a part that touch a cell are cells of the whole grid that touch it there. -/
theorem PartOf.touching_le (h : PartOf N G S num) {r : Nat} (hr : r < N) {c c0 : Entity} (hc : c ∈ (G r).entityIter 2)
    (h0 : c0 ∈ S.entityIter 2) (e0 : c0.localIndex = num r 2 c.localIndex) :
    ((G r).entityIter 2).countP (fun c' => decide (c.Touches c')) ≤ (S.entityIter 2).countP fun c' => decide (c0.Touches c') := by
  classical
  rw [List.countP_eq_length_filter, List.countP_eq_length_filter]
  have hsub : ((((G r).entityIter 2).filter fun c' => decide (c.Touches c')).map fun c' => num r 2 c'.localIndex) ⊆
      ((S.entityIter 2).filter fun c' => decide (c0.Touches c')).map Entity.localIndex := by
    intro x hx
    obtain ⟨c', hc', rfl⟩ := List.mem_map.mp hx
    obtain ⟨m, ht⟩ := List.mem_filter.mp hc'
    obtain ⟨v, hv, hv'⟩ := of_decide_eq_true ht
    obtain ⟨a, ha, ea, -, sa⟩ := h.cell r hr c hc
    obtain ⟨b, hb, eb, -, sb⟩ := h.cell r hr c' m
    obtain rfl : c0 = a := cell_ext h.whole h0 ha (by rw [e0, ea])
    refine List.mem_map.mpr ⟨b, List.mem_filter.mpr ⟨hb, decide_eq_true ⟨num r 0 v, ?_, ?_⟩⟩, eb⟩
    · rw [sa 0 (by omega)]
      exact List.mem_map.mpr ⟨v, hv, rfl⟩
    · rw [sb 0 (by omega)]
      exact List.mem_map.mpr ⟨v, hv', rfl⟩
  have hnd : ((((G r).entityIter 2).filter fun c' => decide (c.Touches c')).map fun c' => num r 2 c'.localIndex).Nodup := by
    have hl := (cells_nodup (h.parts r hr)).of_map
    refine List.Nodup.map_on ?_ (hl.filter _)
    intro x hx y hy e
    have mx := (List.mem_filter.mp hx).1
    have my := (List.mem_filter.mp hy).1
    exact cell_ext (h.parts r hr) mx my (h.inj r hr 2 (le_refl 2) x mx y my e)
  have := (List.subperm_of_subset hnd hsub).length_le
  simpa using this

variable [Zero U] [One U] [Neg U] [Add U] [Mul U] [Div U] {s : Shape U} {t : CellType} {pt cl : Nat → Nat} {n : Nat}

/-- **C113**, the shapes distributed over any number of processes in any way: a process stores at most 13 (9 for quadrilaterals) times the
number of cells that it owns, for each pair of a test and a trial function of the element, whatever the level is. -/
theorem C113_parts_bounded (half : U) (sqrt : U → U) (fromNat : Nat → U)
    (hs : regularSphere half sqrt n = some s ∧ t = .triangle ∨ screenTriangles fromNat n = some s ∧ t = .triangle ∨
      screenQuadrilaterals fromNat n = some s ∧ t = .quadrilateral)
    (h : PartSetting env asm N G S num trial test trialS testS famT famR F K geo geoS BT BR Q) (hg : Built s t S pt cl)
    (hb : 0 < asm.options.batchSize) {r : Nat} (hr : r < N) (A : Sparse T)
    (hA : AssembleSingularPart env asm ((test r).fs.globalSize, (trial r).fs.globalSize) (trial r) (test r) (some A)) :
    A.data.length ≤ (famT t).dim * (famR t).dim * (if t = .triangle then 13 else 9) *
      ((G r).entityIter 2).countP fun c => decide (c.ownership = .owned) := by
  obtain ⟨gS, gP⟩ := h.grids
  rw [(C113_any_grid (h.onParts r hr) hb A hA).1, gP r hr]
  have hty : ∀ c ∈ (G r).entityIter 2, c.entityType = t := by
    intro c hc
    obtain ⟨x, hx, -, tx, -⟩ := h.part.cell r hr c hc
    rw [← tx]
    exact hg.cell_type hx
  have sum_le : ∀ {α : Type} (l : List α) (f : α → Nat) (m : Nat), (∀ a ∈ l, f a ≤ m) → (l.map f).sum ≤ l.length * m := by
    intro α l f m hf
    induction l with
    | nil => simp
    | cons a l ih =>
      simp only [List.map_cons, List.sum_cons, List.length_cons, Nat.add_mul, Nat.one_mul]
      have := hf a (by simp)
      have := ih fun a ha => hf a (by simp [ha])
      omega
  refine (sum_le _ _ ((famT t).dim * (famR t).dim * (if t = .triangle then 13 else 9)) fun c hc => ?_).trans (le_of_eq ?_)
  · have hc := (List.mem_filter.mp hc).1
    refine (sum_le _ _ ((famT t).dim * (famR t).dim) fun c' hc' => ?_).trans ?_
    · rw [hty c hc, hty c' (List.mem_filter.mp hc').1]
    · rw [Nat.mul_comm]
      apply Nat.mul_le_mul_left
      obtain ⟨x, hx, ex, -⟩ := h.part.cell r hr c hc
      have h1 := h.part.touching_le hr hc hx ex
      rw [hg.touching hx] at h1
      obtain ⟨y, hy, e⟩ := hg.cell_mem hx
      rw [← e] at h1
      rw [← List.countP_eq_length_filter]
      exact h1.trans (C113_bounded half sqrt fromNat hs y hy)
  · rw [← List.countP_eq_length_filter, Nat.mul_comm]

end

/-! ### The hypotheses can be met: every process has a copy of a grid and owns any part of it -/

/-- A copy of an entity of dimension `d` on process `r`. -/
def Entity.copy (owner : Nat → Nat → Nat) (r d : Nat) (e : Entity) : Entity :=
  { e with ownership := if owner d e.localIndex = r then .owned else .ghost (owner d e.localIndex) e.localIndex }

/-- A copy of a grid on process `r`, which owns the entities that `owner` says. -/
def Grid.copy (owner : Nat → Nat → Nat) (S : Grid) (r : Nat) : Grid :=
  { S with
    entityIter := fun d => (S.entityIter d).map (Entity.copy owner r d)
    entity := fun d i => (S.entity d i).map (Entity.copy owner r d) }

section
variable {S : Grid} {owner : Nat → Nat → Nat} {N : Nat}

theorem mem_copy {r d : Nat} {e : Entity} (h : e ∈ (S.copy owner r).entityIter d) :
    ∃ e0 ∈ S.entityIter d, e = e0.copy owner r d := by
  obtain ⟨e0, h0, rfl⟩ := List.mem_map.mp h
  exact ⟨e0, h0, rfl⟩

theorem copy_mem {r d : Nat} {e0 : Entity} (h : e0 ∈ S.entityIter d) : e0.copy owner r d ∈ (S.copy owner r).entityIter d :=
  List.mem_map.mpr ⟨e0, h, rfl⟩

theorem copy_wf (h : S.WF) (r : Nat) : (S.copy owner r).WF where
  tdim := h.tdim
  index := by
    intro d hd
    show (((S.entityIter d).map _).map _).Perm _
    rw [List.map_map]
    exact h.index d hd
  entity := by
    intro d hd e he
    obtain ⟨e0, h0, rfl⟩ := mem_copy he
    show (S.entity d e0.localIndex).map _ = _
    rw [h.entity d hd e0 h0]
    rfl
  types := by
    intro c hc
    obtain ⟨e0, h0, rfl⟩ := mem_copy hc
    exact h.types e0 h0
  sub_lt := by
    intro c hc
    obtain ⟨e0, h0, rfl⟩ := mem_copy hc
    exact h.sub_lt e0 h0
  sub_nodup := by
    intro c hc
    obtain ⟨e0, h0, rfl⟩ := mem_copy hc
    exact h.sub_nodup e0 h0
  sub_length := by
    intro c hc
    obtain ⟨e0, h0, rfl⟩ := mem_copy hc
    exact h.sub_length e0 h0
  sub_self := by
    intro c hc
    obtain ⟨e0, h0, rfl⟩ := mem_copy hc
    exact h.sub_self e0 h0
  cell_types := h.cell_types
  types_nodup := h.types_nodup
  types0 := h.types0
  types1 := h.types1
  covered := by
    intro d hd e he
    obtain ⟨c, hc, hm⟩ := h.covered d hd e he
    exact ⟨_, copy_mem hc, hm⟩

theorem copy_edges {ev : Nat → Nat × Nat} (h : S.Edges ev) (r : Nat) : (S.copy owner r).Edges ev where
  ref := by
    intro c hc
    obtain ⟨e0, h0, rfl⟩ := mem_copy hc
    exact h.ref e0 h0
  inj := h.inj

theorem copy_conforming {ev : Nat → Nat × Nat} (h : S.Conforming ev) (r : Nat) : (S.copy owner r).Conforming ev where
  edge := by
    intro c hc c' hc'
    obtain ⟨e0, h0, rfl⟩ := mem_copy hc
    obtain ⟨e1, h1, rfl⟩ := mem_copy hc'
    exact h.edge e0 h0 e1 h1
  two := by
    intro c hc c' hc'
    obtain ⟨e0, h0, rfl⟩ := mem_copy hc
    obtain ⟨e1, h1, rfl⟩ := mem_copy hc'
    exact h.two e0 h0 e1 h1

theorem copy_family {fam : CellType → ElementDofs} {nd : Nat → Nat → Nat} (h : FamilyOn S fam nd) (r : Nat) :
    FamilyOn (S.copy owner r) fam nd where
  elem := h.elem
  count := by
    intro c hc
    obtain ⟨e0, h0, rfl⟩ := mem_copy hc
    exact h.count e0 h0

theorem copy_colourable {fam : CellType → ElementDofs} {nd : Nat → Nat → Nat} {t0 : CellType} (h : Colourable S fam nd t0) (r : Nat) :
    Colourable (S.copy owner r) fam nd t0 := ⟨h.first, h.exists_dof, h.lowest⟩

theorem copy_part (hN : 0 < N) (h : S.WF) (hs : ∀ d, d ≤ 2 → ∀ e ∈ S.entityIter d, e.ownership = .owned)
    (ho : ∀ d e, owner d e < N) : PartOf N (S.copy owner) S (fun _ _ e => e) where
  pos := hN
  whole := h
  parts := fun r _ => copy_wf h r
  types := fun _ _ _ ht => ht
  serial := hs
  inj := fun _ _ _ _ _ _ _ _ e => e
  cell := by
    intro r _ c hc
    obtain ⟨e0, h0, rfl⟩ := mem_copy hc
    exact ⟨e0, h0, rfl, rfl, fun d _ => by simp [Entity.copy]⟩
  ghost := by
    intro r _ d hd e he p i hg
    obtain ⟨e0, h0, rfl⟩ := mem_copy he
    simp only [Entity.copy] at hg
    split at hg
    · cases hg
    · rename_i hne
      cases hg
      exact ⟨ho _ _, hne, _, copy_mem h0, rfl, by simp [Entity.copy], rfl⟩
  owner := by
    intro d hd e0 he
    have : e0 ∈ (S.entityIter d).map Entity.localIndex := (h.index d hd).mem_iff.mpr (List.mem_range.mpr he)
    obtain ⟨e, h0, rfl⟩ := List.mem_map.mp this
    exact ⟨owner d e.localIndex, ho _ _, _, copy_mem h0, by simp [Entity.copy], rfl⟩
  owner_unique := by
    intro d _ r _ r' _ e he e' he' h1 h2 e12
    obtain ⟨x, hx, rfl⟩ := mem_copy he
    obtain ⟨y, hy, rfl⟩ := mem_copy he'
    simp only [Entity.copy] at h1 h2 e12
    split at h1
    · split at h2
      · rename_i a b
        rw [← a, ← b, e12]
      · cases h2
    · cases h1

theorem copy_layer : GhostLayer N (S.copy owner) S (fun _ _ e => e) := by
  intro r _ c _ _ c0 _ c1 h1 _ _
  exact ⟨_, copy_mem h1, rfl⟩

end

theorem copy_vertices {S : Grid} {owner : Nat → Nat → Nat} (h : S.Vertices) (r : Nat) : (S.copy owner r).Vertices where
  nodup := by
    intro v hv
    obtain ⟨e0, h0, rfl⟩ := mem_copy hv
    exact h.nodup e0 h0
  mem := by
    intro v hv i
    obtain ⟨e0, h0, rfl⟩ := mem_copy hv
    refine (h.mem e0 h0 i).trans ⟨?_, ?_⟩
    · rintro ⟨c, hc, e, hm⟩
      exact ⟨_, copy_mem hc, e, hm⟩
    · rintro ⟨c, hc, e, hm⟩
      obtain ⟨c0, h1, rfl⟩ := mem_copy hc
      exact ⟨c0, h1, e, hm⟩

open Examples

/-- A sphere of any level that is distributed over any number of processes in any way, with continuous piecewise linear functions and
the single layer operator. -/
theorem exampleParts (n N : Nat) (hN : 0 < N) (owner : Nat → Nat → Nat) (ho : ∀ d e, owner d e < N) :
    ∃ (s : Shape Rat) (S : Grid) (pt cl : Nat → Nat) (sp : Nat → FunctionSpace) (fs : FunctionSpace),
      regularSphere (1 / 2) (fun _ => 1) n = some s ∧ Built s .triangle S pt cl ∧
      PartSetting sizedEnv (Laplace.singleLayer (sizedKernel squareKernel) smallOptions) N (S.copy owner) S (fun _ _ e => e)
        (fun r => sizedSpace (sp r) p1 octGeometry p1Basis) (fun r => sizedSpace (sp r) p1 octGeometry p1Basis)
        (sizedSpace fs p1 octGeometry p1Basis) (sizedSpace fs p1 octGeometry p1Basis) p1 p1 slF squareKernel (fun _ => octGeometry)
        octGeometry p1Basis p1Basis smallRules := by
  obtain ⟨s, g, pt, cl, hs, hb, hex⟩ := exampleSphere n
  obtain ⟨fs, hg, hm, hsing⟩ := hex p1 _ p1Basis (p1_uniform _ (by simp))
  subst hg
  have hpart := copy_part hN hb.wf hb.owned ho
  obtain ⟨nd, t0, fo, co⟩ := hsing.testSpace.family
  have dist := hpart.distributed fo
  obtain ⟨sp, hsp⟩ := finished_exists dist
  have hgr : ∀ r, r < N → (sp r).grid = fs.grid.copy owner r := by
    intro r hr
    obtain ⟨_, _, _, _, _, hg, _⟩ := new_local (hsp.yields dist hr)
    exact hg
  refine ⟨s, fs.grid, pt, cl, sp, fs, hs, hb, ⟨hpart, copy_layer, hsp, hsp, hm, hm, ?_, hsing, ?_⟩⟩
  · intro r hr
    have hspace : SpaceOn (sp r) p1 := by
      refine ⟨?_, ?_, r, N, ?_⟩ <;> rw [hgr r hr]
      · exact copy_wf hb.wf r
      · exact ⟨nd, t0, copy_family fo r, copy_colourable co r⟩
      · exact hsp.yields dist hr
    obtain ⟨ev, he, hc⟩ := hsing.conforming
    exact
      { testSpace := hspace
        trialSpace := hspace
        sameGrid := rfl
        surface := by show Surface (sp r).grid; rw [hgr r hr]; exact hb.surface
        vertices := by show (sp r).grid.Vertices; rw [hgr r hr]; exact copy_vertices hb.vertices r
        conforming := by
          show ∃ ev, (sp r).grid.Edges ev ∧ (sp r).grid.Conforming ev
          rw [hgr r hr]
          exact ⟨ev, copy_edges he r, copy_conforming hc r⟩
        geometry := sizedSpace_geometry _ _ _ _
        testBasis := sizedSpace_tabulate _ _ _ _
        trialBasis := sizedSpace_tabulate _ _ _ _
        operator := hsing.operator
        rules := by
          show ∀ tt ∈ (sp r).grid.entityTypes 2, ∀ rt ∈ (sp r).grid.entityTypes 2, _
          rw [hgr r hr]
          exact hsing.rules }
  · intro r hr c hc
    exact ⟨rfl, rfl, rfl, rfl⟩

/-- The theorems apply to it: the processes store `9 * (104 * 4^n - 48)` triplets together, and none of them more than 117 for each triangle
that it owns. -/
example (n N : Nat) (hN : 0 < N) (owner : Nat → Nat → Nat) (ho : ∀ d e, owner d e < N) :
    ∃ (S : Grid) (sp : Nat → FunctionSpace) (A : Nat → Sparse Rat),
      (∀ r, r < N → AssembleSingularPart sizedEnv (Laplace.singleLayer (sizedKernel squareKernel) smallOptions)
        ((sp r).globalSize, (sp r).globalSize) (sizedSpace (sp r) p1 octGeometry p1Basis) (sizedSpace (sp r) p1 octGeometry p1Basis)
        (some (A r)) ∧
        (A r).data.length ≤ 117 * ((S.copy owner r).entityIter 2).countP fun c => decide (c.ownership = .owned)) ∧
      ((List.range N).map fun r => (A r).data.length).sum = 9 * (104 * 4 ^ n - 48) := by
  obtain ⟨s, S, pt, cl, sp, fs, hs, hb, h⟩ := exampleParts n N hN owner ho
  have hA : ∀ r, ∃ A : Sparse Rat, r < N → AssembleSingularPart sizedEnv (Laplace.singleLayer (sizedKernel squareKernel) smallOptions)
      ((sp r).globalSize, (sp r).globalSize) (sizedSpace (sp r) p1 octGeometry p1Basis) (sizedSpace (sp r) p1 octGeometry p1Basis)
      (some A) := by
    intro r
    by_cases hr : r < N
    · exact ⟨_, fun _ => ((h.onParts r hr).part (by decide) _).mpr rfl⟩
    · exact ⟨Sparse.new (0, 0), fun h => absurd h hr⟩
  choose A hA using hA
  have hW := (h.onWhole.part (by decide) _).mpr rfl
  refine ⟨S, sp, A, fun r hr => ⟨hA r hr, ?_⟩, ?_⟩
  · exact C113_parts_bounded (1 / 2 : Rat) (fun _ => 1) (fun n => (n : Rat)) (Or.inl ⟨hs, rfl⟩) h hb (by decide) hr _ (hA r hr)
  · rw [C113_parts_stored h (by decide) A _ hA hW]
    exact C113_sphere_stored _ _ hs h.onWhole (by decide) (by rw [h.grids.1]; exact hb) _ hW

end Bempp
