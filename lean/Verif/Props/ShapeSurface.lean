import Verif.Proofs.ShapeSurface
import Verif.Proofs.Integrable
import Verif.Proofs.ExactRules
/-
C79: on the surfaces made from the shapes of the library the integrals of the operators exist, and the assembled
matrices converge to them.
-/
namespace Bempp
open MeasureTheory Filter Topology

section
variable {s : Shape ℝ} {t : CellType} {g : Grid} {pt cl : Nat → Nat} {V : Nat → Nat → Nat → ℝ} {n : Nat}

/-- **C79.** On every sphere and every screen, of every level or size and with whatever numbering the grid builder
chooses, no cell is degenerate, and two cells without a common vertex have no point in common. -/
theorem C79_surface (hs : LibraryShape n t s) (hb : Built s t g pt cl) :
    (∃ V, HasCorners s g pt V) ∧ ∀ V, HasCorners s g pt V →
      (∀ c ∈ g.entityIter 2, ∀ x, (vertexGeometry (cellFunctions t) V).jdet c.localIndex x ≠ 0) ∧
      ∀ c ∈ g.entityIter 2, ∀ c' ∈ g.entityIter 2, ¬ c.Touches c' →
        DisjointCells (vertexGeometry (cellFunctions t) V) (vertexGeometry (cellFunctions t) V) t c.localIndex
          c'.localIndex :=
  ⟨hb.exists_corners, fun _ hV => ⟨fun _ hc x => shape_jdet hs hb hV hc x,
    fun _ hc _ hc' hn => shape_disjoint hs hb hV hc hc' hn⟩⟩

theorem cellFunctions_continuous (t : CellType) : (cellFunctions t).Continuous := by
  unfold cellFunctions
  split
  · exact quadrilateralFunctions_continuous
  · exact triangleFunctions_continuous

theorem shape_continuous (hs : LibraryShape n t s) (hb : Built s t g pt cl) (hV : HasCorners s g pt V) {c : Entity}
    (hc : c ∈ g.entityIter 2) : ContinuousCell (vertexGeometry (cellFunctions t) V) t c.localIndex :=
  continuousCell_vertices (cellFunctions_continuous t) V t _ fun z _ => shape_jdet hs hb hV hc (pointList z)

theorem shape_flat (hs : LibraryShape n t s) (hb : Built s t g pt cl) (hV : HasCorners s g pt V) {c : Entity}
    (hc : c ∈ g.entityIter 2) : FlatCell (vertexGeometry (cellFunctions t) V) c.localIndex := by
  have hj := shape_jdet hs hb hV hc (pointList (0, 0))
  rcases hs with ⟨-, rfl⟩ | ⟨-, rfl⟩ | ⟨hs, rfl⟩
  · exact triangle_flat hj
  · exact triangle_flat hj
  · exact parallelogram_flat (fun i hi => square_parallelogram hs hb hV hc hi) hj

theorem shape_integrable {T : Type} [RCLike T] {K : MathKernel ℝ T} (hK : GreenLike K) {F : MathIntegrand T}
    (ho : OperatorFormula F) (hs : LibraryShape n t s) (hb : Built s t g pt cl) (hV : HasCorners s g pt V)
    {BT BR : Basis ℝ T} {dT dR : Nat} (hBT : ContinuousBasis BT t dT) (hBR : ContinuousBasis BR t dR) {c c' : Entity}
    (hc : c ∈ g.entityIter 2) (hc' : c' ∈ g.entityIter 2) {a b : Nat} (ha : a < dT) (hb' : b < dR) :
    IntegrableOn (fun z : (ℝ × ℝ) × (ℝ × ℝ) => pairIntegrand F K (vertexGeometry (cellFunctions t) V)
      (vertexGeometry (cellFunctions t) V) BT BR t c.localIndex c'.localIndex a b (pointList z.1) (pointList z.2))
      (refCell t ×ˢ refCell t) :=
  pairIntegrand_integrable hK ho (shape_continuous hs hb hV hc) (shape_continuous hs hb hV hc')
    (shape_flat hs hb hV hc) (shape_flat hs hb hV hc') hBT hBR ha hb'

/-- **C79.** The integrals that define the Galerkin matrices of the Laplace operators converge absolutely on every pair
of cells of such a surface, also if the cells touch each other or are the same cell. -/
theorem C79_integrable_laplace {F : MathIntegrand ℝ} {cast : ℝ → ℝ} {o : Options} {asm : Assembler ℝ ℝ}
    (ho : OperatorWith cast o laplaceGreen asm F) (hs : LibraryShape n t s) (hb : Built s t g pt cl)
    (hV : HasCorners s g pt V) {BT BR : Basis ℝ ℝ} {dT dR : Nat} (hBT : ContinuousBasis BT t dT)
    (hBR : ContinuousBasis BR t dR) {c c' : Entity} (hc : c ∈ g.entityIter 2) (hc' : c' ∈ g.entityIter 2) {a b : Nat}
    (ha : a < dT) (hb' : b < dR) :
    IntegrableOn (fun z : (ℝ × ℝ) × (ℝ × ℝ) => pairIntegrand F laplaceGreen (vertexGeometry (cellFunctions t) V)
      (vertexGeometry (cellFunctions t) V) BT BR t c.localIndex c'.localIndex a b (pointList z.1) (pointList z.2))
      (refCell t ×ˢ refCell t) :=
  shape_integrable laplaceGreen_greenLike ho.formula hs hb hV hBT hBR hc hc' ha hb'

/-- **C79.** The same for the Helmholtz operators, for every wavenumber. -/
theorem C79_integrable_helmholtz {F : MathIntegrand ℂ} {w : ℝ} {cast : ℝ → ℂ} {o : Options} {asm : Assembler ℝ ℂ}
    (ho : OperatorWith cast o (helmholtzGreen w) asm F) (hs : LibraryShape n t s) (hb : Built s t g pt cl)
    (hV : HasCorners s g pt V) {BT BR : Basis ℝ ℂ} {dT dR : Nat} (hBT : ContinuousBasis BT t dT)
    (hBR : ContinuousBasis BR t dR) {c c' : Entity} (hc : c ∈ g.entityIter 2) (hc' : c' ∈ g.entityIter 2) {a b : Nat}
    (ha : a < dT) (hb' : b < dR) :
    IntegrableOn (fun z : (ℝ × ℝ) × (ℝ × ℝ) => pairIntegrand F (helmholtzGreen w)
      (vertexGeometry (cellFunctions t) V) (vertexGeometry (cellFunctions t) V) BT BR t c.localIndex c'.localIndex a b
      (pointList z.1) (pointList z.2)) (refCell t ×ˢ refCell t) :=
  shape_integrable (helmholtzGreen_greenLike w) ho.formula hs hb hV hBT hBR hc hc' ha hb'

/-- **C79.** On any surface of flat triangles the same holds for every two triangles that are not degenerate, also for
triangles of two surfaces that intersect each other. -/
theorem C79_integrable_triangles {F : MathIntegrand ℝ} {cast : ℝ → ℝ} {o : Options} {asm : Assembler ℝ ℝ}
    (ho : OperatorWith cast o laplaceGreen asm F) {V V' : Nat → Nat → Nat → ℝ} {BT BR : Basis ℝ ℝ} {dT dR : Nat}
    (hBT : ContinuousBasis BT .triangle dT) (hBR : ContinuousBasis BR .triangle dR) {c c' : Nat}
    (hc : ∀ x, (vertexGeometry triangleFunctions V).jdet c x ≠ 0)
    (hc' : ∀ x, (vertexGeometry triangleFunctions V').jdet c' x ≠ 0) {a b : Nat} (ha : a < dT) (hb : b < dR) :
    IntegrableOn (fun z : (ℝ × ℝ) × (ℝ × ℝ) => pairIntegrand F laplaceGreen (vertexGeometry triangleFunctions V)
      (vertexGeometry triangleFunctions V') BT BR .triangle c c' a b (pointList z.1) (pointList z.2))
      (refCell .triangle ×ˢ refCell .triangle) :=
  pairIntegrand_integrable laplaceGreen_greenLike ho.formula
    (continuousCell_vertices triangleFunctions_continuous V .triangle c fun _ _ => hc _)
    (continuousCell_vertices triangleFunctions_continuous V' .triangle c' fun _ _ => hc' _)
    (triangle_flat (hc _)) (triangle_flat (hc' _)) hBT hBR ha hb

end

section
variable {s : Shape ℝ} {t : CellType} {g : Grid} {pt cl : Nat → Nat} {V : Nat → Nat → Nat → ℝ} {lev : Nat}
  {o : Nat → Options} {Q : Nat → Quadrature ℝ} {famT famR : CellType → ElementDofs} {kT kR : Nat → Nat}

/-- The spaces on a surface made from a shape. -/
theorem shape_pair {T : Type} {env : Env ℝ T} {o : Options} {trial test : Space ℝ T} {BT BR : Basis ℝ T}
    {Q : Quadrature ℝ} (hs : LibraryShape lev t s) (hb : Built s t g pt cl)
    (hT : (famT t).Uniform t kT) (hR : (famR t).Uniform t kR)
    (hmT : FunctionSpace.new 0 1 g famT = .done test.fs) (hmR : FunctionSpace.new 0 1 g famR = .done trial.fs)
    (hgT : GeometryOk test (vertexGeometry (cellFunctions t) V))
    (hgR : GeometryOk trial (vertexGeometry (cellFunctions t) V)) (hbT : TabulateOk test famT BT)
    (hbR : TabulateOk trial famR BR) (hreg : RegularOk env o Q t) (hsing : SingularOk env o Q t t) :
    SpacePair env o trial test famT famR (vertexGeometry (cellFunctions t) V) (vertexGeometry (cellFunctions t) V) BT BR
      Q t ∧ test.fs.grid = g ∧ trial.fs.grid = g := by
  obtain ⟨-, -, -, -, hall⟩ := C47_conforming _ _ _ hs
  obtain ⟨-, -, -, hev⟩ := hall g pt cl hb
  obtain ⟨fT, eT, sT, gT, -, -⟩ := hb.space hT
  obtain ⟨fR, eR, sR, gR, -, -⟩ := hb.space hR
  obtain rfl : test.fs = fT := by
    rw [hmT] at eT
    exact Prog.done.inj eT
  obtain rfl : trial.fs = fR := by
    rw [hmR] at eR
    exact Prog.done.inj eR
  exact ⟨{
    testSpace := sT
    trialSpace := sR
    testType := by rw [gT]; exact hb.types
    trialType := by rw [gR]; exact hb.types
    testSurface := by rw [gT]; exact hb.surface
    trialSurface := by rw [gR]; exact hb.surface
    testGeometry := hgT
    trialGeometry := hgR
    testBasis := hbT
    trialBasis := hbR
    rule := hreg
    same := fun _ => ⟨by rw [gT, gR], rfl, by rw [gT]; exact hb.vertices, by rw [gT]; exact hev, hsing⟩ }, gT, gR⟩

/-- **C79.** The Laplace operators on spheres and screens. The surface needs no hypotheses other than that it was made
from one of the shapes. If the regular rules converge for continuous functions, and the singular rules for the integrands
on pairs of cells that touch each other, then assembly returns matrices that converge to the Galerkin matrix. -/
theorem C79_laplace {env : Env ℝ ℝ} {asm : Nat → Assembler ℝ ℝ} {trial test : Space ℝ ℝ} {F : MathIntegrand ℝ}
    {BT BR : Basis ℝ ℝ} (hcast : env.cast = id)
    (hs : LibraryShape lev t s) (hb : Built s t g pt cl) (hV : HasCorners s g pt V)
    (hT : (famT t).Uniform t kT) (hR : (famR t).Uniform t kR)
    (hmT : FunctionSpace.new 0 1 g famT = .done test.fs) (hmR : FunctionSpace.new 0 1 g famR = .done trial.fs)
    (hgT : GeometryOk test (vertexGeometry (cellFunctions t) V))
    (hgR : GeometryOk trial (vertexGeometry (cellFunctions t) V)) (hbT : TabulateOk test famT BT)
    (hbR : TabulateOk trial famR BR) (hreg : ∀ n, RegularOk env (o n) (Q n) t)
    (hsing : ∀ n, SingularOk env (o n) (Q n) t t)
    (ho : ∀ n, OperatorWith env.cast (o n) laplaceGreen (asm n) F) (hbatch : ∀ n, 0 < (o n).batchSize)
    (hBT : ContinuousBasis BT t (famT t).dim) (hBR : ContinuousBasis BR t (famR t).dim)
    (hrule : RulesConverge (refCell t) fun n => (Q n).regular t)
    (hpair : ∀ c ∈ g.entityIter 2, ∀ c' ∈ g.entityIter 2, c.Touches c' → ∀ a b, a < (famT t).dim → b < (famR t).dim →
      PairRulesConverge (refCell t) (fun n => (Q n).singular t t (connectivity c c'))
        (pairIntegrand F laplaceGreen (vertexGeometry (cellFunctions t) V) (vertexGeometry (cellFunctions t) V) BT BR t
          c.localIndex c'.localIndex a b)) :
    ∃ M : Nat → List ℝ, (∀ n out, Assemble env (asm n) trial test out ↔ out = some (M n)) ∧
      ∀ i j, i < test.fs.globalSize → j < trial.fs.globalSize →
        Tendsto (fun n => (M n).getD (i + test.fs.globalSize * j) 0) atTop
          (𝓝 (doubleSum test.fs trial.fs (pairIntegral F laplaceGreen (vertexGeometry (cellFunctions t) V)
            (vertexGeometry (cellFunctions t) V) BT BR t) i j)) := by
  have hp := fun n => shape_pair (V := V) hs hb hT hR hmT hmR hgT hgR hbT hbR (hreg n) (hsing n)
  obtain ⟨-, gT, gR⟩ := hp 0
  have hcell := fun c (hc : c ∈ g.entityIter 2) => shape_continuous hs hb hV hc
  refine C76_convergence (fun x => by rw [hcast]; rfl) (fun n => (hp n).1) ho hbatch laplaceGreen_continuous
    (by rw [gT]; exact hcell) (by rw [gR]; exact hcell) hBT hBR ?_ hrule ?_
  · rw [gT, gR]
    exact fun c hc c' hc' hn => shape_disjoint hs hb hV hc hc' fun h => hn ⟨rfl, h⟩
  · rw [gT, gR]
    exact fun c hc c' hc' _ h => hpair c hc c' hc' h

/-- **C79.** The same for the Helmholtz operators. -/
theorem C79_helmholtz {env : Env ℝ ℂ} {asm : Nat → Assembler ℝ ℂ} {trial test : Space ℝ ℂ} {F : MathIntegrand ℂ} {w : ℝ}
    {BT BR : Basis ℝ ℂ} (hcast : env.cast = Complex.ofReal)
    (hs : LibraryShape lev t s) (hb : Built s t g pt cl) (hV : HasCorners s g pt V)
    (hT : (famT t).Uniform t kT) (hR : (famR t).Uniform t kR)
    (hmT : FunctionSpace.new 0 1 g famT = .done test.fs) (hmR : FunctionSpace.new 0 1 g famR = .done trial.fs)
    (hgT : GeometryOk test (vertexGeometry (cellFunctions t) V))
    (hgR : GeometryOk trial (vertexGeometry (cellFunctions t) V)) (hbT : TabulateOk test famT BT)
    (hbR : TabulateOk trial famR BR) (hreg : ∀ n, RegularOk env (o n) (Q n) t)
    (hsing : ∀ n, SingularOk env (o n) (Q n) t t)
    (ho : ∀ n, OperatorWith env.cast (o n) (helmholtzGreen w) (asm n) F) (hbatch : ∀ n, 0 < (o n).batchSize)
    (hBT : ContinuousBasis BT t (famT t).dim) (hBR : ContinuousBasis BR t (famR t).dim)
    (hrule : RulesConverge (refCell t) fun n => (Q n).regular t)
    (hpair : ∀ c ∈ g.entityIter 2, ∀ c' ∈ g.entityIter 2, c.Touches c' → ∀ a b, a < (famT t).dim → b < (famR t).dim →
      PairRulesConverge (refCell t) (fun n => (Q n).singular t t (connectivity c c'))
        (pairIntegrand F (helmholtzGreen w) (vertexGeometry (cellFunctions t) V) (vertexGeometry (cellFunctions t) V) BT
          BR t c.localIndex c'.localIndex a b)) :
    ∃ M : Nat → List ℂ, (∀ n out, Assemble env (asm n) trial test out ↔ out = some (M n)) ∧
      ∀ i j, i < test.fs.globalSize → j < trial.fs.globalSize →
        Tendsto (fun n => (M n).getD (i + test.fs.globalSize * j) 0) atTop
          (𝓝 (doubleSum test.fs trial.fs (pairIntegral F (helmholtzGreen w) (vertexGeometry (cellFunctions t) V)
            (vertexGeometry (cellFunctions t) V) BT BR t) i j)) := by
  have hp := fun n => shape_pair (V := V) hs hb hT hR hmT hmR hgT hgR hbT hbR (hreg n) (hsing n)
  obtain ⟨-, gT, gR⟩ := hp 0
  have hcell := fun c (hc : c ∈ g.entityIter 2) => shape_continuous hs hb hV hc
  refine C76_convergence (fun x => by rw [hcast]; rfl) (fun n => (hp n).1) ho hbatch (helmholtzGreen_continuous w)
    (by rw [gT]; exact hcell) (by rw [gR]; exact hcell) hBT hBR ?_ hrule ?_
  · rw [gT, gR]
    exact fun c hc c' hc' hn => shape_disjoint hs hb hV hc hc' fun h => hn ⟨rfl, h⟩
  · rw [gT, gR]
    exact fun c hc c' hc' _ h => hpair c hc c' hc' h

end

/-! ### The hypotheses can be met -/

namespace Examples

/-- The rules for the cells of `latticeRules`, and a given rule for pairs of cells that touch. -/
noncomputable def pairRules (rule : List (List ℝ × List ℝ × ℝ)) (n : Nat) : Quadrature ℝ :=
  { latticeRules n with singular := fun _ _ _ => rule }

noncomputable def pairEnv (rule : List (List ℝ × List ℝ × ℝ)) : Env ℝ ℝ :=
  { latticeEnv with
    triangleDuffy := fun _ _ => some ⟨rule.flatMap fun p => p.1, rule.flatMap fun p => p.2.1, rule.map fun p => p.2.2⟩ }

theorem pair_regular (rule : List (List ℝ × List ℝ × ℝ)) (n : Nat) :
    RegularOk (pairEnv rule) (latticeOptions n) (pairRules rule n) .triangle where
  degree := rfl
  rule := (lattice_regular n).rule
  points := lattice_points n

theorem pair_singular {rule : List (List ℝ × List ℝ × ℝ)} (h : ∀ p ∈ rule, p.1.length = 2 ∧ p.2.1.length = 2) (n : Nat) :
    SingularOk (pairEnv rule) (latticeOptions n) (pairRules rule n) .triangle .triangle where
  degree := ⟨(triangleRule n).length, rfl, fun _ _ => rfl⟩
  points := fun _ _ p hp => h p hp

/-- C79: the matrices of the Laplace single layer operator with P1 elements on spheres of all levels, with a rule for
pairs of cells that touch which is exact for the integrands. -/
example (lev : Nat) : ∃ (rule : List (List ℝ × List ℝ × ℝ)) (V : Nat → Nat → Nat → ℝ) (fs : FunctionSpace),
    fs.globalSize = 4 ^ (lev + 1) + 2 ∧
    ∃ M : Nat → List ℝ, (∀ n out,
        Assemble (pairEnv rule) (Laplace.singleLayer (kernelOf laplaceGreen) (latticeOptions n))
          (Examples.spaceOf fs p1 (vertexGeometry triangleFunctions V) realP1)
          (Examples.spaceOf fs p1 (vertexGeometry triangleFunctions V) realP1) out ↔ out = some (M n)) ∧
      ∀ i j, i < fs.globalSize → j < fs.globalSize →
        Tendsto (fun n => (M n).getD (i + fs.globalSize * j) 0) atTop
          (𝓝 (doubleSum fs fs (pairIntegral slF laplaceGreen (vertexGeometry triangleFunctions V)
            (vertexGeometry triangleFunctions V) realP1 realP1 .triangle) i j)) := by
  obtain ⟨s, hs, -⟩ := C30_sizes (1 / 2 : ℝ) Real.sqrt lev
  have hl : LibraryShape lev .triangle s := .inl ⟨hs, rfl⟩
  obtain ⟨-, -, -, ⟨g, pt, cl, hb⟩, -⟩ := C47_conforming _ _ _ hl
  obtain ⟨⟨V, hV⟩, -⟩ := C79_surface hl hb
  have hu := p1_uniform .triangle (by decide)
  obtain ⟨fs, h1, h2⟩ := C46_sphere _ _ hs hb hu
  obtain ⟨rule, r1, r2⟩ := exact_rule (S := refCell .triangle)
    ((g.entityIter 2).flatMap fun c => (g.entityIter 2).flatMap fun c' => (List.range 3).flatMap fun a =>
      (List.range 3).map fun b => pairIntegrand slF laplaceGreen (vertexGeometry triangleFunctions V)
        (vertexGeometry triangleFunctions V) realP1 realP1 .triangle c.localIndex c'.localIndex a b) (by
      intro f hf
      simp only [List.mem_flatMap, List.mem_map, List.mem_range] at hf
      obtain ⟨c, hc, c', hc', a, ha, b, hb', rfl⟩ := hf
      exact shape_integrable laplaceGreen_greenLike .singleLayer hl hb hV (realP1_continuous .triangle)
        (realP1_continuous .triangle) hc hc' ha hb')
  obtain ⟨M, hM, hlim⟩ := C79_laplace (env := pairEnv rule) (o := latticeOptions) (Q := pairRules rule)
    (test := Examples.spaceOf fs p1 (vertexGeometry triangleFunctions V) realP1)
    (trial := Examples.spaceOf fs p1 (vertexGeometry triangleFunctions V) realP1)
    (asm := fun n => Laplace.singleLayer (kernelOf laplaceGreen) (latticeOptions n)) rfl hl hb hV hu hu h1 h1
    (spaceOf_geometry fs p1 _ realP1) (spaceOf_geometry fs p1 _ realP1) (spaceOf_tabulate fs p1 _ realP1)
    (spaceOf_tabulate fs p1 _ realP1) (pair_regular rule) (pair_singular r1)
    (fun n => .laplaceSingleLayer (kernelOf_computes laplaceGreen _)) (fun _ => by show 0 < 128; decide)
    (realP1_continuous _) (realP1_continuous _) triangleRule_converges
    (fun c hc c' hc' _ a b ha hb' => by
      have := r2 _ (List.mem_flatMap.mpr ⟨c, hc, List.mem_flatMap.mpr ⟨c', hc', List.mem_flatMap.mpr
        ⟨a, List.mem_range.mpr ha, List.mem_map.mpr ⟨b, List.mem_range.mpr hb', rfl⟩⟩⟩⟩)
      show Tendsto (fun _ => (rule.map fun p => p.2.2 * _).sum) atTop _
      exact tendsto_const_nhds.congr fun _ => this.symm)
  exact ⟨rule, V, fs, by simpa using h2, M, hM, hlim⟩

end Examples
end Bempp
