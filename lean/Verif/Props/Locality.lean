import Verif.Proofs.Locality
import Verif.Props.Sparse
/-
C59: entries depend only on the cells that carry the DOFs.
-/
set_option linter.unusedSectionVars false

namespace Bempp
open Examples

variable {R T : Type}

section
variable [Zero R] [Mul R] [Neg R] [AddCommMonoid T] [Mul T] [Sub T] [Div T] [Neg T]
  {env : Env R T} {asm : Assembler R T} {trial test trial' test' : Space R T} {o : Options}
  {famT famR : CellType → ElementDofs} {F : MathIntegrand T} {K : MathKernel R T} {GT GR GT' GR' : Geometry R}
  {BT BR : Basis R T} {Q : Quadrature R} {t : CellType} {numT numR : Nat → Nat → Nat}

/-- **C59.** If two grids are parts of larger ones, the DOFs of the spaces on the parts are DOFs of the spaces on the large grids, and
for DOFs whose cells all lie in the parts the entry of the matrix of every operator is the same, whatever else the large grids
contain. -/
theorem C59_locality (h : SpacePair env o trial test famT famR GT GR BT BR Q t)
    (h' : SpacePair env o trial' test' famT famR GT' GR' BT BR Q t) (ho : OperatorWith env.cast o K asm F)
    (hb : 0 < o.batchSize) (hp : PartPair test.fs trial.fs test'.fs trial'.fs numT numR)
    (gT : ∀ c ∈ test.fs.grid.entityIter 2, SameGeometry GT c.localIndex GT' (numT 2 c.localIndex))
    (gR : ∀ c ∈ trial.fs.grid.entityIter 2, SameGeometry GR c.localIndex GR' (numR 2 c.localIndex)) :
    ∃ (M M' : List T) (pT pR : Nat → Nat), (∀ out, Assemble env asm trial test out ↔ out = some M) ∧
      (∀ out, Assemble env asm trial' test' out ↔ out = some M') ∧
      PartDofs test.fs test'.fs (numT 2) pT ∧ PartDofs trial.fs trial'.fs (numR 2) pR ∧
      ∀ i j, i < test.fs.globalSize → j < trial.fs.globalSize → InsidePart test.fs test'.fs (numT 2) (pT i) →
        InsidePart trial.fs trial'.fs (numR 2) (pR j) →
        M'[pT i + test'.fs.globalSize * pR j]? = M[i + test.fs.globalSize * j]? := by
  obtain ⟨M, m1, -, m3⟩ := C14_operators h ho hb
  obtain ⟨M', n1, -, n3⟩ := C14_operators h' ho hb
  obtain ⟨pT, dT⟩ := hp.testPart.dofs h.testSpace h'.testSpace
  obtain ⟨pR, dR⟩ := hp.trialPart.dofs h.trialSpace h'.trialSpace
  refine ⟨M, M', pT, pR, m1, n1, dT, dR, fun i j hi hj iT iR => ?_⟩
  obtain ⟨φT, uT, sT⟩ := hp.testPart.cells h.testSpace.wf
  obtain ⟨φR, uR, sR⟩ := hp.trialPart.cells h.trialSpace.wf
  rw [m3 i j hi hj, n3 _ _ (dT.lt i hi) (dR.lt j hj), Option.some.injEq]
  refine doubleSum_part uT uR h'.testSpace.wf h'.trialSpace.wf (fun c hc => ⟨(sT c hc).1, (sT c hc).2.1⟩)
    (fun c hc => ⟨(sR c hc).1, (sR c hc).2.1⟩) dT dR h.testSpace.dof_lt h.trialSpace.dof_lt ?_ hi hj iT iR
  intro c hc c' hc' a b
  obtain ⟨t1, t2, t3, t4⟩ := sT c hc
  obtain ⟨r1, r2, r3, r4⟩ := sR c' hc'
  have hG := gT c hc
  have hG' := gR c' hc'
  have hreg : ∀ tt rt, regularValue env.cast F K GT' GR' BT BR Q tt rt (numT 2 c.localIndex) (numR 2 c'.localIndex) a b =
      regularValue env.cast F K GT GR BT BR Q tt rt c.localIndex c'.localIndex a b := by
    intro tt rt
    unfold regularValue Geometry.coords Geometry.data
    rw [hG.point, hG.normal, hG.jacobian, hG.jdet, hG'.point, hG'.normal, hG'.jacobian, hG'.jdet]
  have hsing : ∀ tt rt con, singularValue env.cast F K GT' GR' BT BR Q tt rt con (numT 2 c.localIndex)
      (numR 2 c'.localIndex) a b =
      singularValue env.cast F K GT GR BT BR Q tt rt con c.localIndex c'.localIndex a b := by
    intro tt rt con
    unfold singularValue Geometry.coords Geometry.data
    rw [hG.point, hG.normal, hG.jacobian, hG.jdet, hG'.point, hG'.normal, hG'.jacobian, hG'.jdet]
  unfold cellPairValue
  rw [t2, r2, t3, r3, hreg, hsing]
  by_cases ha : test.fs.grid.addr = trial.fs.grid.addr
  · obtain ⟨ha', hnum⟩ := hp.same ha
    subst hnum
    have hg : trial.fs.grid = test.fs.grid := (h.same ha).1
    have hc'' : c' ∈ test.fs.grid.entityIter 2 := by rw [← hg]; exact hc'
    have htouch := hp.testPart.touches h.testSpace.wf hc hc'' (t4 0 (by omega)) (r4 0 (by omega))
    rw [hp.testPart.connectivity h.testSpace.wf hc hc'' (t4 0 (by omega)) (r4 0 (by omega)) t2 r2]
    simp only [ha, ha', htouch]
  · have hn : ¬ (test'.fs.grid.addr = trial'.fs.grid.addr ∧ (φT c).Touches (φR c')) := by
      rintro ⟨ha', v, hv, hv'⟩
      rw [t4 0 (by omega)] at hv
      rw [r4 0 (by omega)] at hv'
      obtain ⟨u, hu, rfl⟩ := List.mem_map.mp hv
      obtain ⟨u', hu', he⟩ := List.mem_map.mp hv'
      exact hp.apart ha ha' c hc c' hc' u hu u' hu' he.symm
    rw [if_neg hn, if_neg fun hh => ha hh.1]

end

/-- All DOFs of a connected component (or a union of some) are inside. -/
theorem Grid.ComponentOf.inside {sp sp' : FunctionSpace} {fam : CellType → ElementDofs} {num : Nat → Nat → Nat}
    {p : Nat → Nat} (h : sp.grid.ComponentOf sp'.grid num) (hs : SerialSpace sp fam) (hs' : SerialSpace sp' fam)
    (hd : PartDofs sp sp' (num 2) p) {i : Nat} (hi : i < sp.globalSize) : InsidePart sp sp' (num 2) (p i) := by
  intro c' hc' cd' hcd' hm
  obtain ⟨c, hc, cd, a, e1, e2⟩ := hs.dof_in_cell hi
  obtain ⟨cd2, f1, f2⟩ := hd.cell c hc
  rw [e1] at f1
  cases f1
  obtain ⟨d0, u1, u2, u3, u4⟩ := h.cell c hc
  obtain ⟨nd', -, fo', -⟩ := hs'.family
  obtain ⟨ev, hev⟩ := hs'.edges
  rw [← u2] at f2
  obtain ⟨d, e, q1, q2, q3, -⟩ := (C04_shared_dofs hs'.wf fo' hs'.yields d0 c' u1 hc').mp
    ⟨_, cd', p i, f2, hcd', List.mem_map_of_mem (List.mem_of_getElem? e2), hm⟩
  have vertex : ∀ v, v ∈ d0.sub 0 → v ∈ c'.sub 0 → ∃ d ∈ sp.grid.entityIter 2, c'.localIndex = num 2 d.localIndex := by
    intro v hv hv'
    rw [u4 0 (by omega)] at hv
    obtain ⟨w, hw, rfl⟩ := List.mem_map.mp hv
    exact h.closed c hc c' hc' w hw hv'
  rcases (by omega : d = 0 ∨ d = 1 ∨ d = 2) with rfl | rfl | rfl
  · exact vertex e q2 q3
  · obtain ⟨x, hx⟩ := List.getElem?_of_mem q2
    obtain ⟨y, hy⟩ := List.getElem?_of_mem q3
    obtain ⟨a1, b1, va, vb, -, h2, h3, h4⟩ := hev.ref d0 u1 x e hx
    obtain ⟨a2, b2, wa, wb, -, k2, k3, k4⟩ := hev.ref c' hc' y e hy
    unfold SamePair at h4 k4
    apply vertex va (List.mem_of_getElem? h2)
    have : va = wa ∨ va = wb := by
      rcases h4 with h4 | h4 <;> rcases k4 with k4 | k4 <;> simp_all
    rcases this with rfl | rfl
    · exact List.mem_of_getElem? k2
    · exact List.mem_of_getElem? k3
  · rw [hs'.wf.sub_self d0 u1, List.mem_singleton] at q2
    rw [hs'.wf.sub_self c' hc', List.mem_singleton] at q3
    exact ⟨c, hc, by rw [← q3, q2, u2]⟩

section
variable [Zero R] [Mul R] [Neg R] [AddCommMonoid T] [Mul T] [Sub T] [Div T] [Neg T]
  {env : Env R T} {asm : Assembler R T} {trial test trial' test' : Space R T} {o : Options}
  {famT famR : CellType → ElementDofs} {F : MathIntegrand T} {K : MathKernel R T} {GT GR GT' GR' : Geometry R}
  {BT BR : Basis R T} {Q : Quadrature R} {t : CellType} {numT numR : Nat → Nat → Nat}

/-- **C59.** The matrix for a surface of several components that do not touch each other contains the matrix for each
component and, for two components, the matrix for test functions on the one and trial functions on the other, as a block. -/
theorem C59_components (h : SpacePair env o trial test famT famR GT GR BT BR Q t)
    (h' : SpacePair env o trial' test' famT famR GT' GR' BT BR Q t) (ho : OperatorWith env.cast o K asm F)
    (hb : 0 < o.batchSize) (hp : PartPair test.fs trial.fs test'.fs trial'.fs numT numR)
    (cT : test.fs.grid.ComponentOf test'.fs.grid numT) (cR : trial.fs.grid.ComponentOf trial'.fs.grid numR)
    (gT : ∀ c ∈ test.fs.grid.entityIter 2, SameGeometry GT c.localIndex GT' (numT 2 c.localIndex))
    (gR : ∀ c ∈ trial.fs.grid.entityIter 2, SameGeometry GR c.localIndex GR' (numR 2 c.localIndex)) :
    ∃ (M M' : List T) (pT pR : Nat → Nat), (∀ out, Assemble env asm trial test out ↔ out = some M) ∧
      (∀ out, Assemble env asm trial' test' out ↔ out = some M') ∧
      PartDofs test.fs test'.fs (numT 2) pT ∧ PartDofs trial.fs trial'.fs (numR 2) pR ∧
      ∀ i j, i < test.fs.globalSize → j < trial.fs.globalSize →
        M'[pT i + test'.fs.globalSize * pR j]? = M[i + test.fs.globalSize * j]? := by
  obtain ⟨M, M', pT, pR, m, m', dT, dR, e⟩ := C59_locality h h' ho hb hp gT gR
  exact ⟨M, M', pT, pR, m, m', dT, dR, fun i j hi hj => e i j hi hj (cT.inside h.testSpace h'.testSpace dT hi)
    (cR.inside h.trialSpace h'.trialSpace dR hj)⟩

end

/-! ### The hypotheses can be met -/

namespace Examples

/-- A surface of triangles on one process. -/
structure TriGrid (g : Grid) : Prop where
  wf : g.WF
  types : g.entityTypes 2 = [.triangle]
  owned : ∀ d, d ≤ 2 → ∀ e ∈ g.entityIter d, e.ownership = .owned
  vertices : g.Vertices
  conforming : ∃ ev, g.Edges ev ∧ g.Conforming ev
  surface : Surface g

theorem TriGrid.p1 {g : Grid} (h : TriGrid g) : FamilyOn g Examples.p1 (fun d _ => if d = 0 then 1 else 0) where
  elem := fun t ht => p1_wf t (by rw [h.types, List.mem_singleton] at ht; subst ht; decide)
  count := by
    intro c _ d _ i e _ l hl
    simp only [Examples.p1] at hl
    split at hl
    · cases hl; split <;> rfl
    · cases hl

theorem TriGrid.p1_colourable {g : Grid} (h : TriGrid g) :
    Colourable g Examples.p1 (fun d _ => if d = 0 then 1 else 0) .triangle where
  first := by rw [h.types]; rfl
  exists_dof := ⟨0, [0], by decide, rfl, by decide⟩
  lowest := by
    intro d hd h e
    rcases (by omega : d = 0 ∨ d = 1) with rfl | rfl
    · exact absurd h (by decide)
    · rfl

/-- The P1 space on a grid. -/
def p1Fs (g : Grid) : FunctionSpace :=
  match FunctionSpace.new 0 1 g Examples.p1 with
  | .done sp => sp
  | _ => ⟨g, 0, [], [], [], 0, 0, [], []⟩

theorem TriGrid.space {g : Grid} (h : TriGrid g) : SerialSpace (p1Fs g) Examples.p1 ∧ (p1Fs g).grid = g := by
  obtain ⟨sp, hs, _⟩ := C18_serial_space h.wf h.p1 h.owned
  have hy : (FunctionSpace.new 0 1 g Examples.p1).Yields sp := by rw [hs]; exact .done sp
  obtain ⟨dm, _, _, _, _, hg, _, hel⟩ := new_local hy
  have : p1Fs g = sp := by unfold p1Fs; rw [hs]
  rw [this]
  refine ⟨⟨?_, ?_, ?_, ?_, ?_⟩, hg⟩
  all_goals rw [hg]
  · exact h.wf
  · obtain ⟨ev, h1, -⟩ := h.conforming
    exact ⟨ev, h1⟩
  · exact ⟨_, _, h.p1, h.p1_colourable⟩
  · exact h.owned
  · exact hs

/-- P1 test functions on one grid, P1 trial functions on the same or on another grid. -/
theorem TriGrid.pair {g g' : Grid} (h : TriGrid g) (h' : TriGrid g') (G G' : Geometry Rat)
    (same : g.addr = g'.addr → g' = g ∧ G' = G) :
    SpacePair exEnv smallOptions (Examples.spaceOf (p1Fs g') Examples.p1 G' p1Basis)
      (Examples.spaceOf (p1Fs g) Examples.p1 G p1Basis) Examples.p1 Examples.p1 G G' p1Basis p1Basis smallRules .triangle where
  testSpace := h.space.1
  trialSpace := h'.space.1
  testType := by show (p1Fs g).grid.entityTypes 2 = _; rw [h.space.2]; exact h.types
  trialType := by show (p1Fs g').grid.entityTypes 2 = _; rw [h'.space.2]; exact h'.types
  testSurface := by show Surface (p1Fs g).grid; rw [h.space.2]; exact h.surface
  trialSurface := by show Surface (p1Fs g').grid; rw [h'.space.2]; exact h'.surface
  testGeometry := spaceOf_geometry (p1Fs g) Examples.p1 G p1Basis
  trialGeometry := spaceOf_geometry (p1Fs g') Examples.p1 G' p1Basis
  testBasis := spaceOf_tabulate (p1Fs g) Examples.p1 G p1Basis
  trialBasis := spaceOf_tabulate (p1Fs g') Examples.p1 G' p1Basis
  rule := exEnv_regular
  same := by
    show (p1Fs g).grid.addr = (p1Fs g').grid.addr → (p1Fs g').grid = (p1Fs g).grid ∧ _ ∧ (p1Fs g).grid.Vertices ∧
      (∃ ev, (p1Fs g).grid.Edges ev ∧ (p1Fs g).grid.Conforming ev) ∧ _
    rw [h.space.2, h'.space.2]
    exact fun ha => ⟨(same ha).1, (same ha).2, h.vertices, h.conforming, exEnv_singular⟩

theorem octahedron_tri : TriGrid octahedron where
  wf := octahedron_wf
  types := by decide
  owned := octahedron_owned
  vertices := octahedron_vertices
  conforming := ⟨_, octahedron_edges, octahedron_conforming⟩
  surface := ⟨rfl, rfl⟩

/-- The upper half of the octahedron. -/
def fan : Grid :=
  mkGrid 3 5 [(.triangle, [0, 1, 2]), (.triangle, [0, 2, 3]), (.triangle, [0, 3, 4]), (.triangle, [0, 4, 1])]
    fun _ _ => .owned

theorem mkGrid_entity (addr nv : Nat) (cells : List (CellType × List Nat)) (own : Nat → Nat → Ownership) :
    ∀ d, d ≤ 2 → ∀ e ∈ (mkGrid addr nv cells own).entityIter d,
      (mkGrid addr nv cells own).entity d e.localIndex = some e := by
  apply le2
  · intro e he
    simp only [mkGrid, List.mem_map, List.mem_range] at he ⊢
    obtain ⟨i, hi, rfl⟩ := he
    rw [List.getElem?_map, List.getElem?_range hi]
    rfl
  · intro e he
    simp only [mkGrid, List.mem_map, List.mem_range] at he ⊢
    obtain ⟨i, hi, rfl⟩ := he
    rw [List.getElem?_map, List.getElem?_range hi]
    rfl
  · intro e he
    simp only [mkGrid, List.mem_map] at he ⊢
    obtain ⟨i, hi, rfl⟩ := he
    obtain ⟨k, hk⟩ := List.getElem?_of_mem hi
    have : i.2 = k := by
      rw [List.getElem?_zipIdx] at hk
      cases h : cells[k]? with
      | none => rw [h] at hk; cases hk
      | some c => rw [h] at hk; cases hk; simp
    simp only [List.getElem?_map]
    rw [this, hk, ← this]
    rfl

/-- What has to be checked for a given list of triangles. -/
theorem triGrid_of {addr nv : Nat} {cells : List (CellType × List Nat)} {g : Grid}
    (hg : g = mkGrid addr nv cells fun _ _ => .owned)
    (index : ∀ d, d ≤ 2 → ((g.entityIter d).map Entity.localIndex).Perm (List.range (g.count d)))
    (sub_lt : ∀ d, d ≤ 2 → ∀ c ∈ g.entityIter 2, ∀ e ∈ c.sub d, e < g.count d)
    (sub_nodup : ∀ d, d ≤ 2 → ∀ c ∈ g.entityIter 2, (c.sub d).Nodup)
    (sub_length : ∀ d, d ≤ 2 → ∀ c ∈ g.entityIter 2, (c.sub d).length = refCount c.entityType d)
    (sub_self : ∀ c ∈ g.entityIter 2, c.sub 2 = [c.localIndex])
    (tri : g.entityTypes 2 = [.triangle])
    (types : ∀ c ∈ g.entityIter 2, c.entityType = .triangle)
    (covered : ∀ d, d ≤ 2 → ∀ e, e < g.count d → ∃ c ∈ g.entityIter 2, e ∈ c.sub d)
    (owned : ∀ d, d ≤ 2 → ∀ e ∈ g.entityIter d, e.ownership = .owned)
    (vnodup : ∀ v ∈ g.entityIter 0, (v.connected 2).Nodup)
    (vcells : ∀ v ∈ g.entityIter 0, ∀ i ∈ v.connected 2, ∃ c ∈ g.entityIter 2, c.localIndex = i ∧ v.localIndex ∈ c.sub 0)
    (cellsv : ∀ v ∈ g.entityIter 0, ∀ c ∈ g.entityIter 2, v.localIndex ∈ c.sub 0 → c.localIndex ∈ v.connected 2)
    (lengths : ∀ c ∈ cells, ∀ p ∈ refEdges c.1, p.1 < c.2.length ∧ p.2 < c.2.length)
    (edge : ∀ c ∈ g.entityIter 2, ∀ c' ∈ g.entityIter 2, c.localIndex ≠ c'.localIndex →
      ∀ v ∈ c.sub 0, ∀ w ∈ c.sub 0, v ∈ c'.sub 0 → w ∈ c'.sub 0 → v ≠ w →
      ∃ e, e ∈ c.sub 1 ∧ e ∈ c'.sub 1 ∧ SamePair ((allEdges cells).getD e (0, 0)) (v, w))
    (two : ∀ c ∈ g.entityIter 2, ∀ c' ∈ g.entityIter 2, c.localIndex ≠ c'.localIndex →
      ∀ u ∈ c.sub 0, ∀ v ∈ c.sub 0, ∀ w ∈ c.sub 0, u ∈ c'.sub 0 → v ∈ c'.sub 0 → w ∈ c'.sub 0 →
      u = v ∨ u = w ∨ v = w) : TriGrid g where
  wf := {
    tdim := by rw [hg]; rfl
    index := index
    entity := by rw [hg]; exact mkGrid_entity _ _ _ _
    types := by intro c hc; rw [tri, types c hc]; simp
    sub_lt := fun c hc d hd => sub_lt d hd c hc
    sub_nodup := fun c hc d hd => sub_nodup d hd c hc
    sub_length := fun c hc d hd => sub_length d hd c hc
    sub_self := sub_self
    cell_types := by rw [tri]; decide
    types_nodup := by rw [tri]; decide
    types0 := by rw [hg]; rfl
    types1 := by rw [hg]; rfl
    covered := covered }
  types := tri
  owned := owned
  vertices := {
    nodup := vnodup
    mem := by
      intro v hv i
      constructor
      · exact vcells v hv i
      · rintro ⟨c, hc, rfl, h⟩
        exact cellsv v hv c hc h }
  conforming := ⟨_, by rw [hg]; exact mkGrid_edges _ _ _ _ lengths, ⟨edge, by
    intro c hc c' hc' hn u v w hu hv hw
    exact two c hc c' hc' hn u hu v hv w hw⟩⟩
  surface := by rw [hg]; exact ⟨rfl, rfl⟩

theorem fan_tri : TriGrid fan :=
  triGrid_of rfl (le2 (by decide) (by decide) (by decide)) (le2 (by decide) (by decide) (by decide))
    (le2 (by decide) (by decide) (by decide)) (le2 (by decide) (by decide) (by decide)) (by decide) (by decide) (by decide)
    (le2 (by decide) (by decide) (by decide)) (le2 (by decide) (by decide) (by decide)) (by decide) (by decide) (by decide)
    (by decide) (by decide +kernel) (by decide +kernel)

theorem fan_part : fan.PartIn octahedron fun _ e => e where
  inj := fun _ _ _ _ _ _ h => h
  cell := by
    intro c hc
    have h : ∀ c ∈ fan.entityIter 2, ∃ c0 ∈ octahedron.entityIter 2, c0.localIndex = c.localIndex ∧
      c0.entityType = c.entityType ∧ c0.sub 0 = c.sub 0 ∧ c0.sub 1 = c.sub 1 ∧ c0.sub 2 = c.sub 2 := by decide +kernel
    obtain ⟨c0, h0, h1, h2, h3, h4, h5⟩ := h c hc
    exact ⟨c0, h0, h1, h2, le2 (by rw [h3]; simp) (by rw [h4]; simp) (by rw [h5]; simp)⟩

/-- The entry for the top of the octahedron (DOF 0) is the same for the upper half alone. -/
example : ∃ M M' : List Rat,
    (∀ out, Assemble exEnv (Laplace.hypersingular (kernelOf squareKernel) smallOptions)
      (Examples.spaceOf (p1Fs fan) Examples.p1 octGeometry p1Basis) (Examples.spaceOf (p1Fs fan) Examples.p1 octGeometry p1Basis) out
        ↔ out = some M) ∧
    (∀ out, Assemble exEnv (Laplace.hypersingular (kernelOf squareKernel) smallOptions)
      (Examples.spaceOf (p1Fs octahedron) Examples.p1 octGeometry p1Basis)
      (Examples.spaceOf (p1Fs octahedron) Examples.p1 octGeometry p1Basis) out ↔ out = some M') ∧
    M'[0]? = M[0]? := by
  have hs : (p1Fs fan).globalSize = 5 := by decide +kernel
  have hg := fan_tri.space.2
  have hg' := octahedron_tri.space.2
  obtain ⟨M, M', pT, pR, m, m', dT, dR, e⟩ := C59_locality (K := squareKernel) (numT := fun _ e => e) (numR := fun _ e => e)
    (fan_tri.pair fan_tri octGeometry octGeometry fun _ => ⟨rfl, rfl⟩)
    (octahedron_tri.pair octahedron_tri octGeometry octGeometry fun _ => ⟨rfl, rfl⟩)
    (OperatorWith.laplaceHypersingular (cast := id) (kernelOf_computes squareKernel _)) (by decide)
    ⟨by show (p1Fs fan).grid.PartIn (p1Fs octahedron).grid _; rw [hg, hg']; exact fan_part,
      by show (p1Fs fan).grid.PartIn (p1Fs octahedron).grid _; rw [hg, hg']; exact fan_part,
      fun _ => ⟨rfl, rfl⟩, fun h => absurd rfl h⟩ (fun _ _ => ⟨rfl, rfl, rfl, rfl⟩) (fun _ _ => ⟨rfl, rfl, rfl, rfl⟩)
  refine ⟨M, M', m, m', ?_⟩
  have hp : ∀ p, PartDofs (p1Fs fan) (p1Fs octahedron) (fun e => e) p → p 0 = 0 := by
    intro p hp
    have hc : (fan.entityIter 2)[0]'(by decide) ∈ (p1Fs fan).grid.entityIter 2 := by rw [hg]; exact List.getElem_mem _
    obtain ⟨cd, h1, h2⟩ := hp.cell _ hc
    have e1 : (p1Fs fan).cellDofs 0 = some [0, 1, 2] := by decide +kernel
    have e2 : (p1Fs octahedron).cellDofs 0 = some [0, 1, 2] := by decide +kernel
    have h1' : (p1Fs fan).cellDofs 0 = some cd := h1
    have h2' : (p1Fs octahedron).cellDofs 0 = some (cd.map p) := h2
    rw [e1] at h1'
    cases h1'
    rw [e2, Option.some.injEq] at h2'
    simp only [List.map_cons, List.cons.injEq] at h2'
    exact h2'.1.symm
  have hin : InsidePart (p1Fs fan) (p1Fs octahedron) (fun e => e) 0 := by
    intro c' hc' cd hcd hm
    rw [hg'] at hc'
    rw [hg]
    have key : ∀ c' ∈ octahedron.entityIter 2, 0 ∈ ((p1Fs octahedron).cellDofs c'.localIndex).getD [] →
        ∃ c ∈ fan.entityIter 2, c'.localIndex = c.localIndex := by decide +kernel
    exact key c' hc' (by rw [hcd]; exact hm)
  have := e 0 0 (by show 0 < (p1Fs fan).globalSize; omega) (by show 0 < (p1Fs fan).globalSize; omega)
  rw [hp pT dT, hp pR dR] at this
  simpa using this hin hin

/-- One triangle. -/
def oneTriangle (addr : Nat) : Grid := mkGrid addr 3 [(.triangle, [0, 1, 2])] fun _ _ => .owned

/-- Two triangles that do not touch each other. -/
def twoTriangles : Grid := mkGrid 6 6 [(.triangle, [0, 1, 2]), (.triangle, [3, 4, 5])] fun _ _ => .owned

theorem oneTriangle_tri0 : TriGrid (oneTriangle 0) :=
  triGrid_of rfl (le2 (by decide) (by decide) (by decide)) (le2 (by decide) (by decide) (by decide))
    (le2 (by decide) (by decide) (by decide)) (le2 (by decide) (by decide) (by decide)) (by decide) (by decide) (by decide)
    (le2 (by decide) (by decide) (by decide)) (le2 (by decide) (by decide) (by decide)) (by decide) (by decide) (by decide)
    (by decide) (by decide) (by decide)

theorem oneTriangle_tri (addr : Nat) : TriGrid (oneTriangle addr) :=
  let h := oneTriangle_tri0
  { wf := ⟨h.wf.tdim, h.wf.index, h.wf.entity, h.wf.types, h.wf.sub_lt, h.wf.sub_nodup, h.wf.sub_length, h.wf.sub_self,
      h.wf.cell_types, h.wf.types_nodup, h.wf.types0, h.wf.types1, h.wf.covered⟩
    types := h.types
    owned := h.owned
    vertices := ⟨h.vertices.nodup, h.vertices.mem⟩
    conforming := by
      obtain ⟨ev, h1, h2⟩ := h.conforming
      exact ⟨ev, ⟨h1.ref, h1.inj⟩, ⟨h2.edge, h2.two⟩⟩
    surface := ⟨rfl, rfl⟩ }

theorem twoTriangles_tri : TriGrid twoTriangles :=
  triGrid_of rfl (le2 (by decide) (by decide) (by decide)) (le2 (by decide) (by decide) (by decide))
    (le2 (by decide) (by decide) (by decide)) (le2 (by decide) (by decide) (by decide)) (by decide) (by decide) (by decide)
    (le2 (by decide) (by decide) (by decide)) (le2 (by decide) (by decide) (by decide)) (by decide) (by decide) (by decide)
    (by decide) (by decide +kernel) (by decide +kernel)

/-- The numbers of the entities of the second triangle. -/
def secondTriangle (d e : Nat) : Nat := if d = 2 then e + 1 else e + 3

theorem first_component (addr : Nat) : (oneTriangle addr).ComponentOf twoTriangles fun _ e => e where
  inj := fun _ _ _ _ _ _ h => h
  cell := by
    intro c hc
    have h : ∀ c ∈ (oneTriangle 0).entityIter 2, ∃ c0 ∈ twoTriangles.entityIter 2, c0.localIndex = c.localIndex ∧
      c0.entityType = c.entityType ∧ c0.sub 0 = c.sub 0 ∧ c0.sub 1 = c.sub 1 ∧ c0.sub 2 = c.sub 2 := by decide
    obtain ⟨c0, h0, h1, h2, h3, h4, h5⟩ := h c hc
    exact ⟨c0, h0, h1, h2, le2 (by rw [h3]; simp) (by rw [h4]; simp) (by rw [h5]; simp)⟩
  closed := by
    show ∀ c ∈ (oneTriangle 0).entityIter 2, ∀ c' ∈ twoTriangles.entityIter 2, ∀ v ∈ c.sub 0, _ ∈ c'.sub 0 →
      ∃ d ∈ (oneTriangle 0).entityIter 2, _
    decide

theorem second_component (addr : Nat) : (oneTriangle addr).ComponentOf twoTriangles secondTriangle where
  inj := by
    intro d _ e e' _ _ h
    unfold secondTriangle at h
    split at h <;> omega
  cell := by
    intro c hc
    have h : ∀ c ∈ (oneTriangle 0).entityIter 2, ∃ c0 ∈ twoTriangles.entityIter 2,
      c0.localIndex = secondTriangle 2 c.localIndex ∧
      c0.entityType = c.entityType ∧ c0.sub 0 = (c.sub 0).map (secondTriangle 0) ∧
      c0.sub 1 = (c.sub 1).map (secondTriangle 1) ∧ c0.sub 2 = (c.sub 2).map (secondTriangle 2) := by decide
    obtain ⟨c0, h0, h1, h2, h3, h4, h5⟩ := h c hc
    exact ⟨c0, h0, h1, h2, le2 h3 h4 h5⟩
  closed := by
    show ∀ c ∈ (oneTriangle 0).entityIter 2, ∀ c' ∈ twoTriangles.entityIter 2, ∀ v ∈ c.sub 0, _ ∈ c'.sub 0 →
      ∃ d ∈ (oneTriangle 0).entityIter 2, _
    decide

/-- The block for test functions on the first and trial functions on the second of two triangles. -/
example (G : Geometry Rat) : ∃ (M M' : List Rat) (pT pR : Nat → Nat),
    (∀ out, Assemble exEnv (Laplace.singleLayer (kernelOf squareKernel) smallOptions)
      (Examples.spaceOf (p1Fs (oneTriangle 5)) Examples.p1 ⟨fun c => G.point (c + 1), fun c => G.normal (c + 1),
        fun c => G.jacobian (c + 1), fun c => G.jdet (c + 1)⟩ p1Basis)
      (Examples.spaceOf (p1Fs (oneTriangle 4)) Examples.p1 G p1Basis) out ↔ out = some M) ∧
    (∀ out, Assemble exEnv (Laplace.singleLayer (kernelOf squareKernel) smallOptions)
      (Examples.spaceOf (p1Fs twoTriangles) Examples.p1 G p1Basis)
      (Examples.spaceOf (p1Fs twoTriangles) Examples.p1 G p1Basis) out ↔ out = some M') ∧
    ∀ i j, i < 3 → j < 3 → M'[pT i + 6 * pR j]? = M[i + 3 * j]? := by
  have hs : ∀ addr, (p1Fs (oneTriangle addr)).globalSize = 3 := by intro addr; rfl
  have hs' : (p1Fs twoTriangles).globalSize = 6 := by decide +kernel
  have h4 := (oneTriangle_tri 4).space.2
  have h5 := (oneTriangle_tri 5).space.2
  have h6 := twoTriangles_tri.space.2
  obtain ⟨M, M', pT, pR, m, m', dT, dR, e⟩ := C59_components (K := squareKernel) (numT := fun _ e => e)
    (numR := secondTriangle)
    ((oneTriangle_tri 4).pair (oneTriangle_tri 5) G ⟨fun c => G.point (c + 1), fun c => G.normal (c + 1),
        fun c => G.jacobian (c + 1), fun c => G.jdet (c + 1)⟩ fun h => absurd h (by decide))
    (twoTriangles_tri.pair twoTriangles_tri G G fun _ => ⟨rfl, rfl⟩)
    (OperatorWith.laplaceSingleLayer (cast := id) (kernelOf_computes squareKernel _)) (by decide)
    ⟨by show (p1Fs (oneTriangle 4)).grid.PartIn (p1Fs twoTriangles).grid _; rw [h4, h6]; exact (first_component 4).toPartIn,
      by show (p1Fs (oneTriangle 5)).grid.PartIn (p1Fs twoTriangles).grid _; rw [h5, h6]; exact (second_component 5).toPartIn,
      by show (p1Fs (oneTriangle 4)).grid.addr = (p1Fs (oneTriangle 5)).grid.addr → _; rw [h4, h5]; intro h; exact absurd h (by decide),
      by
        intro _ _
        show ∀ c ∈ (p1Fs (oneTriangle 4)).grid.entityIter 2, ∀ c' ∈ (p1Fs (oneTriangle 5)).grid.entityIter 2, _
        rw [h4, h5]
        decide⟩
    (by show (p1Fs (oneTriangle 4)).grid.ComponentOf (p1Fs twoTriangles).grid _; rw [h4, h6]; exact first_component 4)
    (by show (p1Fs (oneTriangle 5)).grid.ComponentOf (p1Fs twoTriangles).grid _; rw [h5, h6]; exact second_component 5)
    (fun _ _ => ⟨rfl, rfl, rfl, rfl⟩) (fun _ _ => ⟨rfl, rfl, rfl, rfl⟩)
  refine ⟨M, M', pT, pR, m, m', fun i j hi hj => ?_⟩
  have := e i j (by show i < (p1Fs (oneTriangle 4)).globalSize; rw [hs]; exact hi)
    (by show j < (p1Fs (oneTriangle 5)).globalSize; rw [hs]; exact hj)
  change M'[pT i + (p1Fs twoTriangles).globalSize * pR j]? = M[i + (p1Fs (oneTriangle 4)).globalSize * j]? at this
  rw [hs, hs'] at this
  exact this

end Examples

end Bempp
