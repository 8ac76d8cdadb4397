import Verif.Proofs.Galerkin
import Verif.Spec.ExamplesAssembly
/-
The hypotheses of the theorems about assembly are met by the example world.
-/
namespace Bempp.Examples

instance (p q : Nat × Nat) : Decidable (SamePair p q) := by unfold SamePair; infer_instance

theorem octahedron_owned : ∀ d, d ≤ 2 → ∀ e ∈ octahedron.entityIter d, e.ownership = .owned :=
  le2 (by decide) (by decide) (by decide)

theorem p1_octahedron_colourable :
    Colourable octahedron p1 (fun d _ => if d = 0 then 1 else 0) .triangle where
  first := by decide
  exists_dof := ⟨0, [0], by decide, rfl, by decide⟩
  lowest := by
    intro d hd h e
    rcases (by omega : d = 0 ∨ d = 1) with rfl | rfl
    · exact absurd h (by decide)
    · rfl

/-- P1 space on the octahedron. -/
theorem octSpace : ∃ fs, SerialSpace fs p1 ∧ fs.grid = octahedron := by
  obtain ⟨sp, h, _⟩ := C18_serial_space octahedron_wf p1_octahedron octahedron_owned
  have hy : (FunctionSpace.new 0 1 octahedron p1).Yields sp := by rw [h]; exact .done sp
  obtain ⟨dm, _, _, _, _, hg, _, hel⟩ := new_local hy
  refine ⟨sp, ⟨?_, ?_, ?_, ?_, ?_⟩, hg⟩
  all_goals rw [hg]
  · exact octahedron_wf
  · exact ⟨_, mkGrid_edges _ _ _ _ (by decide)⟩
  · exact ⟨_, _, p1_octahedron, p1_octahedron_colourable⟩
  · exact octahedron_owned
  · exact h

theorem octahedron_vertices : octahedron.Vertices where
  nodup := by decide
  mem := by
    intro v hv i
    have h1 : ∀ v ∈ octahedron.entityIter 0, ∀ i ∈ v.connected 2, ∃ c ∈ octahedron.entityIter 2,
        c.localIndex = i ∧ v.localIndex ∈ c.sub 0 := by decide
    have h2 : ∀ v ∈ octahedron.entityIter 0, ∀ c ∈ octahedron.entityIter 2, v.localIndex ∈ c.sub 0 →
        c.localIndex ∈ v.connected 2 := by decide
    constructor
    · exact h1 v hv i
    · rintro ⟨c, hc, rfl, h⟩
      exact h2 v hv c hc h

/-- The vertices of the edges of the octahedron. -/
def octEdge (e : Nat) : Nat × Nat :=
  (allEdges [(.triangle, [0, 1, 2]), (.triangle, [0, 2, 3]), (.triangle, [0, 3, 4]),
    (.triangle, [0, 4, 1]), (.triangle, [5, 2, 1]), (.triangle, [5, 3, 2]), (.triangle, [5, 4, 3]),
    (.triangle, [5, 1, 4])]).getD e (0, 0)

theorem octahedron_edges : octahedron.Edges octEdge := mkGrid_edges _ _ _ _ (by decide)

set_option maxRecDepth 100000 in
theorem octahedron_conforming : octahedron.Conforming octEdge where
  edge := by decide +kernel
  two := by
    have h : ∀ c ∈ octahedron.entityIter 2, ∀ c' ∈ octahedron.entityIter 2, c.localIndex ≠ c'.localIndex →
        ∀ u ∈ c.sub 0, ∀ v ∈ c.sub 0, ∀ w ∈ c.sub 0, u ∈ c'.sub 0 → v ∈ c'.sub 0 → w ∈ c'.sub 0 →
        u = v ∨ u = w ∨ v = w := by decide +kernel
    intro c hc c' hc' hn u v w hu hv hw
    exact h c hc c' hc' hn u hu v hv w hw

theorem octSingularSetting {fs : FunctionSpace} (h : SerialSpace fs p1) (hg : fs.grid = octahedron)
    {asm : Assembler Rat Rat} {F : MathIntegrand Rat} {K : MathKernel Rat Rat} (hc : asm.Computes F K)
    (hs : asm.options.getSingularQuadratureDegree (.triangle, .triangle) = some 4) :
    SingularSetting exEnv asm (spaceOf fs p1 octGeometry p1Basis) (spaceOf fs p1 octGeometry p1Basis) p1 p1
      F K octGeometry p1Basis p1Basis smallRules where
  testSpace := h.spaceOn
  trialSpace := h.spaceOn
  sameGrid := rfl
  surface := by
    show Surface fs.grid
    rw [hg]; exact ⟨rfl, rfl⟩
  vertices := by
    show fs.grid.Vertices
    rw [hg]; exact octahedron_vertices
  conforming := by
    show ∃ ev, fs.grid.Edges ev ∧ fs.grid.Conforming ev
    rw [hg]; exact ⟨_, octahedron_edges, octahedron_conforming⟩
  geometry := spaceOf_geometry fs p1 octGeometry p1Basis
  testBasis := spaceOf_tabulate fs p1 octGeometry p1Basis
  trialBasis := spaceOf_tabulate fs p1 octGeometry p1Basis
  operator := hc
  rules := by
    show ∀ tt ∈ fs.grid.entityTypes 2, ∀ rt ∈ fs.grid.entityTypes 2, _
    rw [hg]
    intro tt htt rt hrt
    have e : octahedron.entityTypes 2 = [.triangle] := by decide
    rw [e, List.mem_singleton] at htt hrt
    subst htt hrt
    exact ⟨⟨4, hs, fun _ _ => rfl⟩, exEnv_singular.points⟩

theorem octDenseSetting {fs : FunctionSpace} (h : SerialSpace fs p1) (hg : fs.grid = octahedron)
    {asm : Assembler Rat Rat} {F : MathIntegrand Rat} {K : MathKernel Rat Rat} (hc : asm.Computes F K)
    (hr : asm.options.getRegularQuadratureDegree .triangle = some 2)
    (hs : asm.options.getSingularQuadratureDegree (.triangle, .triangle) = some 4) :
    DenseSetting exEnv asm (spaceOf fs p1 octGeometry p1Basis) (spaceOf fs p1 octGeometry p1Basis) p1 p1
      F K octGeometry octGeometry p1Basis p1Basis smallRules .triangle where
  testSpace := h
  trialSpace := h
  testType := by show fs.grid.entityTypes 2 = _; rw [hg]; decide
  trialType := by show fs.grid.entityTypes 2 = _; rw [hg]; decide
  testSurface := by show Surface fs.grid; rw [hg]; exact ⟨rfl, rfl⟩
  trialSurface := by show Surface fs.grid; rw [hg]; exact ⟨rfl, rfl⟩
  testGeometry := spaceOf_geometry fs p1 octGeometry p1Basis
  trialGeometry := spaceOf_geometry fs p1 octGeometry p1Basis
  testBasis := spaceOf_tabulate fs p1 octGeometry p1Basis
  trialBasis := spaceOf_tabulate fs p1 octGeometry p1Basis
  operator := hc
  rule := ⟨hr, rfl, exEnv_regular.points⟩
  same := fun _ => ⟨octSingularSetting h hg hc hs, rfl⟩

/-- The P1 space on the octahedron, paired with itself. -/
theorem octSpacePair {fs : FunctionSpace} (h : SerialSpace fs p1) (hg : fs.grid = octahedron) :
    SpacePair exEnv smallOptions (spaceOf fs p1 octGeometry p1Basis) (spaceOf fs p1 octGeometry p1Basis) p1 p1
      octGeometry octGeometry p1Basis p1Basis smallRules .triangle where
  testSpace := h
  trialSpace := h
  testType := by show fs.grid.entityTypes 2 = _; rw [hg]; decide
  trialType := by show fs.grid.entityTypes 2 = _; rw [hg]; decide
  testSurface := by show Surface fs.grid; rw [hg]; exact ⟨rfl, rfl⟩
  trialSurface := by show Surface fs.grid; rw [hg]; exact ⟨rfl, rfl⟩
  testGeometry := spaceOf_geometry fs p1 octGeometry p1Basis
  trialGeometry := spaceOf_geometry fs p1 octGeometry p1Basis
  testBasis := spaceOf_tabulate fs p1 octGeometry p1Basis
  trialBasis := spaceOf_tabulate fs p1 octGeometry p1Basis
  rule := exEnv_regular
  same := fun _ => ⟨rfl, rfl, by show fs.grid.Vertices; rw [hg]; exact octahedron_vertices,
    by
      show ∃ ev, fs.grid.Edges ev ∧ fs.grid.Conforming ev
      rw [hg]
      exact ⟨_, octahedron_edges, octahedron_conforming⟩, exEnv_singular⟩

end Bempp.Examples
