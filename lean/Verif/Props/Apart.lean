import Verif.Proofs.Apart
import Verif.Props.Positive
import Verif.Props.Sparse
/-
C101: the kernel is evaluated at pairs of different points only.
-/
namespace Bempp

section
variable {R T : Type} {env : Env R T} {asm : Assembler R T} {trial test : Space R T} {famT famR : CellType → ElementDofs}
  {F : MathIntegrand T} {K : MathKernel R T} {GT GR : Geometry R} {BT BR : Basis R T} {Q : Quadrature R} {t : CellType}

section
variable [Zero R] [Mul R] [Zero T] [Add T] [Mul T]

/-- **C101.** If the rules do not pair a point of a test cell with the same point of a trial cell, then replacing the kernel
object by one that does the same at pairs of different points has no effect on dense assembly: the same outcomes are possible,
for every buffer, batch size and schedule. -/
theorem C101_same (h : DenseSetting env asm trial test famT famR F K GT GR BT BR Q t) {k : Kernel R T}
    (hk : k.SameApart asm.kernel.kernel) (ha : NodesApart Q GT GR test.fs.grid trial.fs.grid) :
    (∀ mem o, AssembleIntoMemory env (asm.withKernel k) trial test mem o ↔ AssembleIntoMemory env asm trial test mem o) ∧
    ∀ out, Assemble env (asm.withKernel k) trial test out ↔ Assemble env asm trial test out := by
  have h1 := h.intoMemory_swap hk ha
  refine ⟨h1, fun out => ?_⟩
  unfold Assemble
  simp only [h1]

/-- **C101.** The same for the assembly of the singular part as a sparse matrix, on any number of processes. -/
theorem C101_same_singular {G : Geometry R} (h : SingularSetting env asm trial test famT famR F K G BT BR Q) {k : Kernel R T}
    (hk : k.SameApart asm.kernel.kernel)
    (ha : ∀ c ∈ test.fs.grid.entityIter 2, ∀ c' ∈ test.fs.grid.entityIter 2, c.Touches c' →
      ∀ p ∈ Q.singular c.entityType c'.entityType (connectivity c c'),
        G.coords c.localIndex p.1 ≠ G.coords c'.localIndex p.2.1) (out : Option (Csr T)) :
    AssembleSingular env (asm.withKernel k) trial test out ↔ AssembleSingular env asm trial test out := by
  unfold AssembleSingular
  simp only [h.part_swap hk _ ha]

end

open Classical in
/-- A kernel object that also returns the values of `G` at coinciding points. -/
noncomputable def Kernel.repair (k : Kernel R T) (G : MathKernel R T) : Kernel R T :=
  { assemblePairwiseSt := fun et src tgt res => if ∀ p ∈ src.zip tgt, p.1 ≠ p.2 then k.assemblePairwiseSt et src tgt res
      else some (List.zipWith (fun x y => (List.range et.comps).map (G x y)) src tgt)
    assembleSt := fun et src tgt res => if ∀ x ∈ src, ∀ y ∈ tgt, x ≠ y then k.assembleSt et src tgt res
      else some (tgt.map fun y => src.map fun x => (List.range et.comps).map (G x y)) }

theorem Kernel.repair_same (k : Kernel R T) (G : MathKernel R T) : k.SameApart (k.repair G) :=
  ⟨fun _ _ _ _ h => (if_pos h).symm, fun _ _ _ _ h => (if_pos h).symm⟩

theorem Kernel.ComputesApart.repair {k : Kernel R T} {et : EvalType} {G : MathKernel R T} (h : k.ComputesApart et G) :
    (k.repair G).Computes et G := by
  refine ⟨fun n src tgt res h1 h2 h3 => ?_, fun m n src tgt res h1 h2 h3 => ?_⟩
  · unfold Kernel.repair
    by_cases hp : ∀ p ∈ src.zip tgt, p.1 ≠ p.2
    · exact (if_pos hp).trans (h.pairwise n src tgt res h1 h2 h3 hp)
    · exact if_neg hp
  · unfold Kernel.repair
    by_cases hp : ∀ x ∈ src, ∀ y ∈ tgt, x ≠ y
    · exact (if_pos hp).trans (h.all m n src tgt res h1 h2 h3 hp)
    · exact if_neg hp

theorem Assembler.ComputesApart.repair (h : asm.ComputesApart F K) :
    (asm.withKernel (asm.kernel.kernel.repair K)).Computes F K := ⟨h.integrand, h.kernel.repair, h.comps⟩

/-- **C101.** The matrix is the one of C14 if the kernel object works at pairs of different points; what it does at coinciding
points, where Green's functions are singular, does not matter, it may also panic. -/
theorem C101_galerkin [Zero R] [Mul R] [AddCommMonoid T] [Mul T]
    (h : SpacePair env asm.options trial test famT famR GT GR BT BR Q t) (hc : asm.ComputesApart F K)
    (ha : NodesApart Q GT GR test.fs.grid trial.fs.grid) (hb : 0 < asm.options.batchSize) :
    ∃ M : List T, (∀ out, Assemble env asm trial test out ↔ out = some M) ∧
      M.length = test.fs.globalSize * trial.fs.globalSize ∧
      ∀ i j, i < test.fs.globalSize → j < trial.fs.globalSize → M[i + test.fs.globalSize * j]? =
        some (doubleSum test.fs trial.fs (cellPairValue env.cast F K GT GR BT BR Q test.fs trial.fs) i j) := by
  have hset : DenseSetting env (asm.withKernel (asm.kernel.kernel.repair K)) trial test famT famR F K GT GR BT BR Q t :=
    h.dense rfl hc.repair
  obtain ⟨M, h1, h2, h3⟩ := C14_galerkin hset hb
  exact ⟨M, fun out => ((C101_same hset (asm.kernel.kernel.repair_same K) ha).2 out).trans (h1 out), h2, h3⟩

end

/-! ### Spheres and screens -/

section
variable {s : Shape ℝ} {t : CellType} {g : Grid} {pt cl : Nat → Nat} {V : Nat → Nat → Nat → ℝ} {lev : Nat}

theorem openCell_refCell {z : ℝ × ℝ} (h : z ∈ openCell t) : z ∈ refCell t := by
  unfold openCell at h
  unfold refCell
  split at h
  · exact ⟨h.1.le, h.2.1.le, h.2.2.le⟩
  · exact ⟨h.1.le, h.2.1.le, h.2.2.1.le, h.2.2.2.le⟩
  · exact h.elim

theorem openCell_weights {z : ℝ × ℝ} (h : z ∈ openCell t) : (0 : ℝ) ∉ cornerWeights t z := by
  unfold openCell at h
  split at h
  · obtain ⟨h1, h2, h3⟩ := h
    simp only [cornerWeights, List.mem_cons, List.not_mem_nil, or_false, not_or]
    exact ⟨by linarith, h1.ne, h2.ne⟩
  · obtain ⟨h1, h2, h3, h4⟩ := h
    have a1 : (0 : ℝ) < 1 - z.1 := by linarith
    have a2 : (0 : ℝ) < 1 - z.2 := by linarith
    simp only [cornerWeights, List.mem_cons, List.not_mem_nil, or_false, not_or]
    exact ⟨(mul_pos a1 a2).ne, (mul_pos h1 a2).ne, (mul_pos a1 h3).ne, (mul_pos h1 h3).ne⟩
  · exact h.elim

/-- A point inside of a cell of a sphere or screen is not in any other cell. -/
theorem shape_inside (hs : LibraryShape lev t s) (hb : Built s t g pt cl) (hV : HasCorners s g pt V) {c c' : Entity}
    (hc : c ∈ g.entityIter 2) (hc' : c' ∈ g.entityIter 2) (hne : c ≠ c') {x y : ℝ × ℝ} (hx : x ∈ openCell t)
    (hy : y ∈ refCell t) : (vertexGeometry (cellFunctions t) V).coords c.localIndex (pointList x) ≠
      (vertexGeometry (cellFunctions t) V).coords c'.localIndex (pointList y) := by
  intro e
  have h0 := openCell_weights hx
  obtain ⟨f, hw, hf⟩ := shape_common hs hb hV hc hc' (openCell_refCell hx) hy e
  obtain ⟨ev, -, hco⟩ := ((C47_conforming (T := ℝ) (1 / 2) Real.sqrt (fun k => (k : ℝ)) hs).2.2.2.2 g pt cl hb).2.2.2
  have hl : c.localIndex ≠ c'.localIndex := fun e => hne (hb.wf.index_inj (by decide) hc hc' e)
  obtain ⟨-, -, hnd, hlen⟩ := hb.corner_list hc
  have hin : ∀ v ∈ c.sub 0, v ∈ c'.sub 0 := by
    intro v hv
    have hfv : f (pt v) ≠ 0 := by
      intro h
      apply h0
      rw [← hw, ← h]
      exact List.mem_map.mpr ⟨pt v, List.mem_map.mpr ⟨v, hv, rfl⟩, rfl⟩
    obtain ⟨w, hw', e'⟩ := List.mem_map.mp (hf _ hfv).2
    rwa [hb.pt_inj hc' hc hw' hv e'] at hw'
  have h3 : 3 ≤ (c.sub 0).length := by
    rw [hlen]
    rcases hs with ⟨-, rfl⟩ | ⟨-, rfl⟩ | ⟨-, rfl⟩ <;> decide
  have hnd' := hb.wf.sub_nodup c hc 0 (by decide)
  match hsub : c.sub 0, h3 with
  | u :: v :: w :: l, _ =>
    rw [hsub] at hnd' hin
    have := hco.two c hc c' hc' hl u v w (by rw [hsub]; simp) (by rw [hsub]; simp) (by rw [hsub]; simp)
      (hin u (by simp)) (hin v (by simp)) (hin w (by simp))
    simp only [List.nodup_cons, List.mem_cons, not_or] at hnd'
    obtain ⟨⟨a1, a2, -⟩, ⟨a3, -⟩, -⟩ := hnd'
    rcases this with h | h | h
    · exact a1 h
    · exact a2 h
    · exact a3 h

/-- **C101.** On every sphere and every screen, of every level or size and with whatever numbering the grid builder chooses,
rules whose nodes are inside of the cells never pair a point with itself. -/
theorem C101_nodes (hs : LibraryShape lev t s) (hb : Built s t g pt cl) (hV : HasCorners s g pt V) {Q : Quadrature ℝ}
    (hQ : Q.Inside t) :
    NodesApart Q (vertexGeometry (cellFunctions t) V) (vertexGeometry (cellFunctions t) V) g g := by
  obtain ⟨ev, ed, co⟩ := ((C47_conforming (T := ℝ) (1 / 2) Real.sqrt (fun k => (k : ℝ)) hs).2.2.2.2 g pt cl hb).2.2.2
  have htype : t = .triangle ∨ t = .quadrilateral := by
    rcases hs with ⟨-, h⟩ | ⟨-, h⟩ | ⟨-, h⟩
    · exact .inl h
    · exact .inl h
    · exact .inr h
  refine ⟨fun c hc c' hc' _ hcc p hp => ?_, fun c hc c' hc' hn p hp q hq => ?_⟩
  · obtain ⟨h1, h2⟩ := sharedVertices_possible hb.wf ed co hc hc' hcc
    rw [hb.cell_type hc, hb.cell_type hc'] at hp h1
    have hpos : (connectivity c c').Possible t t := by
      rw [← h2]
      exact (possiblePairs_possible htype h1).2
    obtain ⟨z, hz, w, hw, e1, e2⟩ := hQ.singular _ hpos p hp
    by_cases hne : c = c'
    · subst hne
      have hd := hQ.same _ hpos (by simp [connectivity]) p hp
      rw [e1, e2] at hd ⊢
      intro e
      exact hd (congrArg pointList ((shape_flat hs hb hV hc).cellPoint_injective ((cellPoint_eq_iff _ _ _ z w).mpr e)))
    · rw [e1, e2]
      exact shape_inside hs hb hV hc hc' hne hz (openCell_refCell hw)
  · rw [hb.cell_type hc] at hp
    rw [hb.cell_type hc'] at hq
    obtain ⟨z, hz, e1⟩ := hQ.regular p hp
    obtain ⟨w, hw, e2⟩ := hQ.regular q hq
    rw [e1, e2]
    exact shape_disjoint hs hb hV hc hc' (fun h => hn ⟨rfl, h⟩) z hz w hw

variable {famT famR : CellType → ElementDofs} {kT kR : Nat → Nat}

/-- **C101.** So on spheres and screens every operator is assembled correctly, whatever the kernel object does at coinciding
points. -/
theorem C101_shapes {T : Type} [AddCommMonoid T] [Mul T] {env : Env ℝ T} {asm : Assembler ℝ T} {trial test : Space ℝ T}
    {BT BR : Basis ℝ T} {Q : Quadrature ℝ} {F : MathIntegrand T} {K : MathKernel ℝ T} (hs : LibraryShape lev t s)
    (hb : Built s t g pt cl) (hV : HasCorners s g pt V) (hT : (famT t).Uniform t kT) (hR : (famR t).Uniform t kR)
    (hmT : FunctionSpace.new 0 1 g famT = .done test.fs) (hmR : FunctionSpace.new 0 1 g famR = .done trial.fs)
    (hgT : GeometryOk test (vertexGeometry (cellFunctions t) V))
    (hgR : GeometryOk trial (vertexGeometry (cellFunctions t) V)) (hbT : TabulateOk test famT BT)
    (hbR : TabulateOk trial famR BR) (hreg : RegularOk env asm.options Q t) (hsing : SingularOk env asm.options Q t t)
    (hQ : Q.Inside t) (hc : asm.ComputesApart F K) (hbatch : 0 < asm.options.batchSize) :
    ∃ M : List T, (∀ out, Assemble env asm trial test out ↔ out = some M) ∧
      M.length = test.fs.globalSize * trial.fs.globalSize ∧
      ∀ i j, i < test.fs.globalSize → j < trial.fs.globalSize → M[i + test.fs.globalSize * j]? =
        some (doubleSum test.fs trial.fs (cellPairValue env.cast F K (vertexGeometry (cellFunctions t) V)
          (vertexGeometry (cellFunctions t) V) BT BR Q test.fs trial.fs) i j) := by
  obtain ⟨hp, e1, e2⟩ := shape_pair (V := V) hs hb hT hR hmT hmR hgT hgR hbT hbR hreg hsing
  refine C101_galerkin hp hc ?_ hbatch
  rw [e1, e2]
  exact C101_nodes hs hb hV hQ

end

/-- **C101.** The condition on the operator is met by all operators of the library, with every kernel object that works at
pairs of different points. -/
theorem C101_operators {R T : Type} [CommRing R] [Field T] {cast : R → T} {o : Options} {K : MathKernel R T} :
    (∀ k : Kernel R T, k.ComputesApart .value K → (Laplace.singleLayer k o).ComputesApart slF K) ∧
    (∀ k : Kernel R T, k.ComputesApart .valueDeriv K → (Laplace.doubleLayer k o).ComputesApart dlF K ∧
      (Laplace.adjointDoubleLayer k o).ComputesApart adlF K ∧ (Laplace.hypersingular k o).ComputesApart curlCurlF K) ∧
    (∀ (k : R → Kernel R T) w, (k w).ComputesApart .value K → (Helmholtz.singleLayer k w o).ComputesApart slF K) ∧
    ∀ (k : R → Kernel R T) w, (k w).ComputesApart .valueDeriv K → (Helmholtz.doubleLayer k w o).ComputesApart dlF K ∧
      (Helmholtz.adjointDoubleLayer k w o).ComputesApart adlF K ∧
      (Helmholtz.hypersingular cast k w o).ComputesApart (helmholtzHypF cast w) K := by
  have hv := Examples.kernelOf_computes K .value
  have hd := Examples.kernelOf_computes K .valueDeriv
  refine ⟨fun k hk => ⟨?_, hk, rfl⟩, fun k hk => ⟨⟨?_, hk, rfl⟩, ⟨?_, hk, rfl⟩, ?_, hk, rfl⟩, fun k w hk => ⟨?_, hk, rfl⟩,
    fun k w hk => ⟨⟨?_, hk, rfl⟩, ⟨?_, hk, rfl⟩, ?_, hk, rfl⟩⟩
  · exact (OperatorWith.laplaceSingleLayer (cast := cast) (o := o) hv).computes.1.integrand
  · exact (OperatorWith.laplaceDoubleLayer (cast := cast) (o := o) hd).computes.1.integrand
  · exact (OperatorWith.laplaceAdjoint (cast := cast) (o := o) hd).computes.1.integrand
  · exact (OperatorWith.laplaceHypersingular (cast := cast) (o := o) hd).computes.1.integrand
  · exact (OperatorWith.helmholtzSingleLayer (cast := cast) (o := o) (k := fun _ => Examples.kernelOf K) (w := w) hv).computes.1.integrand
  · exact (OperatorWith.helmholtzDoubleLayer (cast := cast) (o := o) (k := fun _ => Examples.kernelOf K) (w := w) hd).computes.1.integrand
  · exact (OperatorWith.helmholtzAdjoint (cast := cast) (o := o) (k := fun _ => Examples.kernelOf K) (w := w) hd).computes.1.integrand
  · exact (OperatorWith.helmholtzHypersingular (cast := cast) (o := o) (k := fun _ => Examples.kernelOf K) (w := w) hd).computes.1.integrand

section Example
open Examples

/-- A kernel object that panics if it is asked for a value at coinciding points, and returns the values of `K` otherwise. -/
def strictKernel {R T : Type} [DecidableEq R] (K : MathKernel R T) : Kernel R T :=
  { assemblePairwiseSt := fun et src tgt res =>
      if ∀ p ∈ src.zip tgt, p.1 ≠ p.2 then (kernelOf K).assemblePairwiseSt et src tgt res else none
    assembleSt := fun et src tgt res =>
      if ∀ x ∈ src, ∀ y ∈ tgt, x ≠ y then (kernelOf K).assembleSt et src tgt res else none }

theorem strictKernel_computes {R T : Type} [DecidableEq R] (K : MathKernel R T) (et : EvalType) :
    (strictKernel K).ComputesApart et K :=
  ⟨fun _ _ _ _ _ _ _ h => if_pos h, fun _ _ _ _ _ _ _ _ h => if_pos h⟩

theorem strictKernel_same {R T : Type} [DecidableEq R] (K : MathKernel R T) : (strictKernel K).SameApart (kernelOf K) :=
  ⟨fun _ _ _ _ h => if_pos h, fun _ _ _ _ h => if_pos h⟩

set_option maxRecDepth 100000 in
theorem octNodes_apart : NodesApart smallRules octGeometry octGeometry octahedron octahedron where
  singular := by decide +kernel
  regular := by decide +kernel

/-- Every hypothesis is met: the double layer operator on the octahedron with a kernel object that panics at coinciding
points. -/
example : ∃ M : List Rat, ∀ out, Assemble exEnv (Laplace.doubleLayer (strictKernel squareKernel) smallOptions)
    (Examples.spaceOf octFs p1 octGeometry p1Basis) (Examples.spaceOf octFs p1 octGeometry p1Basis) out ↔ out = some M := by
  obtain ⟨M, h, -⟩ := C101_galerkin (asm := Laplace.doubleLayer (strictKernel squareKernel) smallOptions)
    (octSpacePair octFs_space.1 octFs_space.2)
    ((C101_operators (cast := id)).2.1 _ (strictKernel_computes squareKernel _)).1
    (by
      show NodesApart smallRules octGeometry octGeometry octFs.grid octFs.grid
      rw [octFs_space.2]
      exact octNodes_apart) (by decide)
  exact ⟨M, h⟩

theorem realRules_inside : realRules.Inside .triangle where
  regular := by
    intro p hp
    simp only [realRules, List.mem_cons, List.not_mem_nil, or_false] at hp
    rcases hp with rfl | rfl
    · exact ⟨(1/3, 1/3), ⟨by norm_num, by norm_num, by norm_num⟩, rfl⟩
    · exact ⟨(1/2, 1/4), ⟨by norm_num, by norm_num, by norm_num⟩, rfl⟩
  singular := by
    intro con _ p hp
    simp only [realRules, List.mem_cons, List.not_mem_nil, or_false] at hp
    rcases hp with rfl | rfl
    · exact ⟨(1/3, 1/3), ⟨by norm_num, by norm_num, by norm_num⟩, (1/4, 1/2), ⟨by norm_num, by norm_num, by norm_num⟩, rfl, rfl⟩
    · exact ⟨(1/4, 1/2), ⟨by norm_num, by norm_num, by norm_num⟩, (1/3, 1/3), ⟨by norm_num, by norm_num, by norm_num⟩, rfl, rfl⟩
  same := by
    intro con _ _ p hp
    simp only [realRules, List.mem_cons, List.not_mem_nil, or_false] at hp
    rcases hp with rfl | rfl
    · intro h
      have := List.head_eq_of_cons_eq h
      norm_num at this
    · intro h
      have := List.head_eq_of_cons_eq h
      norm_num at this

open Classical in
/-- C101: the Laplace single layer operator on spheres of all levels, with a kernel object that panics at coinciding points. -/
example (lev : Nat) : ∃ (V : Nat → Nat → Nat → ℝ) (fs : FunctionSpace), fs.globalSize = 4 ^ (lev + 1) + 2 ∧
    ∃ M : List ℝ, ∀ out, Assemble realEnv (Laplace.singleLayer (strictKernel laplaceGreen) smallOptions)
      (Examples.spaceOf fs p1 (vertexGeometry triangleFunctions V) realP1)
      (Examples.spaceOf fs p1 (vertexGeometry triangleFunctions V) realP1) out ↔ out = some M := by
  obtain ⟨s, hs, -⟩ := C30_sizes (1 / 2 : ℝ) Real.sqrt lev
  have hl : LibraryShape lev .triangle s := .inl ⟨hs, rfl⟩
  obtain ⟨-, -, -, ⟨g, pt, cl, hb⟩, -⟩ := C47_conforming _ _ _ hl
  obtain ⟨⟨V, hV⟩, -⟩ := C79_surface hl hb
  have hu := p1_uniform .triangle (by decide)
  obtain ⟨fs, h1, h2⟩ := C46_sphere _ _ hs hb hu
  obtain ⟨M, hM, -⟩ := C101_shapes (env := realEnv)
    (asm := Laplace.singleLayer (strictKernel laplaceGreen) smallOptions)
    (test := Examples.spaceOf fs p1 (vertexGeometry triangleFunctions V) realP1)
    (trial := Examples.spaceOf fs p1 (vertexGeometry triangleFunctions V) realP1) hl hb hV hu hu h1 h1
    (spaceOf_geometry fs p1 _ realP1) (spaceOf_geometry fs p1 _ realP1) (spaceOf_tabulate fs p1 _ realP1)
    (spaceOf_tabulate fs p1 _ realP1) realEnv_regular realEnv_singular realRules_inside
    ((C101_operators (cast := id)).1 _ (strictKernel_computes laplaceGreen _)) (by decide)
  exact ⟨V, fs, by simpa using h2, M, hM⟩

/-- A second copy of the P1 space on the octahedron, on a grid object of its own. -/
def octFs' : FunctionSpace :=
  match FunctionSpace.new 0 1 octahedron' p1 with
  | .done sp => sp
  | _ => ⟨octahedron', 0, [], [], [], 0, 0, [], []⟩

theorem octFs'_space : SerialSpace octFs' p1 ∧ octFs'.grid = octahedron' := by
  obtain ⟨fs, h, hg⟩ := octSpace'
  have h' := h.made
  rw [hg] at h'
  have : octFs' = fs := by unfold octFs'; rw [h']
  rw [this]
  exact ⟨h, hg⟩

/-- 1 at coinciding points, 0 elsewhere. -/
def coincideKernel : MathKernel Rat Rat := fun x y _ => if x = y then 1 else 0

theorem octTwoSingle (K : MathKernel Rat Rat) :
    DenseSetting exEnv (Laplace.singleLayer (kernelOf K) smallOptions)
      (Examples.spaceOf octFs p1 octGeometry p1Basis) (Examples.spaceOf octFs' p1 octGeometry p1Basis) p1 p1
      slF K octGeometry octGeometry p1Basis p1Basis smallRules .triangle :=
  let h := octTwoSetting octFs_space.1 octFs_space.2 octFs'_space.1 octFs'_space.2
  { h with
    operator := ⟨laplace_singleLayer_integrand _ _, kernelOf_computes _ _, rfl⟩
    same := fun e => absurd e (by
      show octFs'.grid.addr ≠ octFs.grid.addr
      rw [octFs_space.2, octFs'_space.2]
      decide) }

/-- C101 is false without the condition on the nodes. If the same surface is given twice, as two grid objects, then cells that
are the same piece of the surface are treated by the regular rules, and the kernel is evaluated at coinciding points: two kernel
objects that do the same at pairs of different points give different matrices. -/
theorem C101_two_grids : ∃ (env : Env Rat Rat) (asm : Assembler Rat Rat) (trial test : Space Rat Rat) (k : Kernel Rat Rat)
    (F : MathIntegrand Rat) (K : MathKernel Rat Rat) (G : Geometry Rat) (B : Basis Rat Rat) (Q : Quadrature Rat)
    (M M' : List Rat), DenseSetting env asm trial test p1 p1 F K G G B B Q .triangle ∧
    NodesApart Q G G trial.fs.grid trial.fs.grid ∧ test.fs.grid = { trial.fs.grid with addr := test.fs.grid.addr } ∧
    k.SameApart asm.kernel.kernel ∧ Assemble env asm trial test (some M) ∧
    Assemble env (asm.withKernel k) trial test (some M') ∧ M ≠ M' := by
  obtain ⟨M, h1, -, h2⟩ := C14_galerkin (octTwoSingle fun _ _ _ => 0) (by decide)
  obtain ⟨M', h1', -, h2'⟩ := C14_galerkin (octTwoSingle coincideKernel) (by decide)
  refine ⟨exEnv, _, _, _, kernelOf coincideKernel, slF, _, octGeometry, p1Basis, smallRules, M, M',
    octTwoSingle fun _ _ _ => 0, ?_, ?_, ?_, (h1 _).mpr rfl, (h1' _).mpr rfl, ?_⟩
  · show NodesApart smallRules octGeometry octGeometry octFs.grid octFs.grid
    rw [octFs_space.2]
    exact octNodes_apart
  · show octFs'.grid = { octFs.grid with addr := octFs'.grid.addr }
    rw [octFs_space.2, octFs'_space.2]
    rfl
  · refine ⟨fun et src tgt res h => ?_, fun et src tgt res h => ?_⟩
    · show some _ = some _
      congr 1
      rw [← List.map_uncurry_zip_eq_zipWith, ← List.map_uncurry_zip_eq_zipWith]
      refine List.map_congr_left fun p hp => ?_
      exact List.map_congr_left fun i _ => if_neg (h p hp)
    · show some _ = some _
      congr 1
      refine List.map_congr_left fun y hy => List.map_congr_left fun x hx => ?_
      exact List.map_congr_left fun i _ => if_neg (h x hx y hy)
  · intro e
    have hs : octFs.globalSize = 6 ∧ octFs'.globalSize = 6 := by decide +kernel
    have a := h2 0 0 (by show 0 < octFs'.globalSize; omega) (by show 0 < octFs.globalSize; omega)
    have b := h2' 0 0 (by show 0 < octFs'.globalSize; omega) (by show 0 < octFs.globalSize; omega)
    rw [e, b, Option.some.injEq] at a
    revert a
    show ¬ (doubleSum octFs' octFs (cellPairValue exEnv.cast slF coincideKernel octGeometry octGeometry p1Basis p1Basis
      smallRules octFs' octFs) 0 0 = doubleSum octFs' octFs (cellPairValue exEnv.cast slF (fun _ _ _ => 0) octGeometry octGeometry
      p1Basis p1Basis smallRules octFs' octFs) 0 0)
    decide +kernel

end Example
end Bempp
