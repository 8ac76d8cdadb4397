import Verif.Props.Partition
import Verif.Props.Colouring
/-
C40: which rule the assembler uses, on grids of triangles, of quadrilaterals and of both.
-/
namespace Bempp
open Examples

section
variable {R T : Type} [CommSemiring R] [CommRing T] {env : Env R T} {asm : Assembler R T}
  {trial test : Space R T} {famT famR : CellType → ElementDofs} {F : MathIntegrand T} {K : MathKernel R T}
  {G : Geometry R} {BT BR : Basis R T} {Q : Quadrature R}

/-- **C40.** The singular part consists of one value for every pair of touching cells and every pair of basis
functions on them, computed by the rule of the quadrature crate for the types of the two cells, in this order, for
their connectivity, and for the number of points that the options have for this pair of types (`SingularOk`). The
grid may have cells of both types. -/
theorem C40_rule_used (h : SingularSetting env asm trial test famT famR F K G BT BR Q)
    (hb : 0 < asm.options.batchSize) :
    ∃ sp : Sparse T,
      (∀ out, AssembleSingularPart env asm (test.fs.globalSize, trial.fs.globalSize) trial test out ↔
        out = some sp) ∧
      ∀ i j, tripletSum sp.rows sp.cols sp.data i j =
        touchingSum test.fs trial.fs (singularPairValue env.cast F K G BT BR Q) i j := by
  refine ⟨_, h.part hb, fun i j => ?_⟩
  rw [tripletSum_ofTriplets, h.tsum_eq]

end

/-! ### The hypotheses can be met -/

namespace Examples

/-- The P1 space on the mixed grid. -/
theorem mixedSpace : ∃ fs, SerialSpace fs p1 ∧ fs.grid = mixed := by
  have ho : ∀ d, d ≤ 2 → ∀ e ∈ mixed.entityIter d, e.ownership = .owned :=
    le2 (by decide) (by decide) (by decide)
  obtain ⟨sp, h, _⟩ := C18_serial_space mixed_wf p1_mixed ho
  have hy : (FunctionSpace.new 0 1 mixed p1).Yields sp := by rw [h]; exact .done sp
  obtain ⟨dm, _, _, _, _, hg, _, hel⟩ := new_local hy
  refine ⟨sp, ⟨?_, ?_, ?_, ?_, ?_⟩, hg⟩
  all_goals rw [hg]
  · exact mixed_wf
  · exact ⟨_, mkGrid_edges _ _ _ _ (by decide)⟩
  · refine ⟨_, .triangle, p1_mixed, by decide, ⟨0, [0], by decide, rfl, by decide⟩, ?_⟩
    intro d hd h e
    rcases (by omega : d = 0 ∨ d = 1) with rfl | rfl
    · exact absurd h (by decide)
    · rfl
  · exact ho
  · exact h

theorem mixed_vertices : mixed.Vertices where
  nodup := by decide
  mem := by
    intro v hv i
    have h1 : ∀ v ∈ mixed.entityIter 0, ∀ i ∈ v.connected 2, ∃ c ∈ mixed.entityIter 2,
        c.localIndex = i ∧ v.localIndex ∈ c.sub 0 := by decide
    have h2 : ∀ v ∈ mixed.entityIter 0, ∀ c ∈ mixed.entityIter 2, v.localIndex ∈ c.sub 0 →
        c.localIndex ∈ v.connected 2 := by decide
    constructor
    · exact h1 v hv i
    · rintro ⟨c, hc, rfl, h⟩
      exact h2 v hv c hc h

/-- The vertices of the edges of the mixed grid. -/
def mixedEdge (e : Nat) : Nat × Nat :=
  (allEdges [(.triangle, [0, 1, 2]), (.triangle, [1, 3, 2]), (.quadrilateral, [1, 4, 3, 5])]).getD e (0, 0)

set_option maxRecDepth 100000 in
theorem mixed_conforming : mixed.Conforming mixedEdge where
  edge := by decide +kernel
  two := by
    have h : ∀ c ∈ mixed.entityIter 2, ∀ c' ∈ mixed.entityIter 2, c.localIndex ≠ c'.localIndex →
        ∀ u ∈ c.sub 0, ∀ v ∈ c.sub 0, ∀ w ∈ c.sub 0, u ∈ c'.sub 0 → v ∈ c'.sub 0 → w ∈ c'.sub 0 →
        u = v ∨ u = w ∨ v = w := by decide +kernel
    intro c hc c' hc' hn u v w hu hv hw
    exact h c hc c' hc' hn u hu v hv w hw

/-- Rules that are different for every pair of cell types and for every connectivity. -/
def mixedRules : Quadrature Rat :=
  { regular := smallRules.regular
    singular := fun tt rt con =>
      [([1/3, 1/3], [1/4, 1/2], con.connectivityDimension + refCount tt 0 + 10 * refCount rt 0)] }

def mixedEnv : Env Rat Rat :=
  envOf id mixedRules (fun x => decide (1/10000000000 < |x|))
    (fun shape rows cols data => some (csrOf shape rows cols data))

/-- The setting of `C40_rule_used` on a grid of two triangles and a quadrilateral. -/
theorem mixedSetting : ∃ fs, fs.grid = mixed ∧
    SingularSetting mixedEnv (Laplace.singleLayer (kernelOf squareKernel) smallOptions)
      (spaceOf fs p1 octGeometry p1Basis) (spaceOf fs p1 octGeometry p1Basis) p1 p1
      slF squareKernel octGeometry p1Basis p1Basis mixedRules := by
  obtain ⟨fs, h, hg⟩ := mixedSpace
  refine ⟨fs, hg, h.spaceOn, h.spaceOn, rfl, ?_, ?_, ?_, spaceOf_geometry _ _ _ _, spaceOf_tabulate _ _ _ _,
    spaceOf_tabulate _ _ _ _, (OperatorWith.laplaceSingleLayer (cast := id) (kernelOf_computes _ _)).computes.1, ?_⟩
  · show Surface fs.grid
    rw [hg]; exact ⟨rfl, rfl⟩
  · show fs.grid.Vertices
    rw [hg]; exact mixed_vertices
  · show ∃ ev, fs.grid.Edges ev ∧ fs.grid.Conforming ev
    rw [hg]; exact ⟨_, mkGrid_edges _ _ _ _ (by decide), mixed_conforming⟩
  · show ∀ tt ∈ fs.grid.entityTypes 2, ∀ rt ∈ fs.grid.entityTypes 2, _
    rw [hg]
    intro tt htt rt hrt
    have e : mixed.entityTypes 2 = [.triangle, .quadrilateral] := by decide
    rw [e] at htt hrt
    simp only [List.mem_cons, List.not_mem_nil, or_false] at htt hrt
    refine ⟨⟨4, ?_, ?_⟩, ?_⟩
    · rcases htt with rfl | rfl <;> rcases hrt with rfl | rfl <;> decide
    · rcases htt with rfl | rfl <;> rcases hrt with rfl | rfl <;> intro _ _ <;> rfl
    · intro con _ p hp
      simp only [mixedRules, List.mem_cons, List.not_mem_nil, or_false] at hp
      rcases hp with rfl
      exact ⟨rfl, rfl⟩

end Examples
end Bempp
