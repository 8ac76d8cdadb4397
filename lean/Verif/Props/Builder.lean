import Verif.Proofs.ShapeGrids
import Verif.Props.Dofs
import Verif.Props.Dense
/-
C46, C47: grids made from the shapes, and spaces and matrices on them.
-/
set_option linter.unusedSectionVars false

namespace Bempp

section
variable {T : Type} {s : Shape T} {t : CellType} {g : Grid} {pt cl : Nat → Nat} {fam : CellType → ElementDofs}
  {k : Nat → Nat}

theorem Built.family (h : Built s t g pt cl) (hf : (fam t).Uniform t k) : FamilyOn g fam fun d _ => k d where
  elem := by
    intro t' ht'
    rw [h.types, List.mem_singleton] at ht'
    subst ht'
    exact hf.wf
  count := by
    intro c hc d hd i e hi l hl
    rw [h.cell_type hc] at hl
    refine hf.count d hd i ?_ l hl
    have := h.wf.sub_length c hc d hd
    rw [h.cell_type hc] at this
    rw [← this]
    exact (List.getElem?_eq_some_iff.mp hi).1

theorem Built.colourable (h : Built s t g pt cl) (hf : (fam t).Uniform t k) :
    Colourable g fam (fun d _ => k d) t where
  first := by rw [h.types]; rfl
  exists_dof := by
    have pos : ∀ d, d ≤ 2 → 0 < refCount t d := by
      rcases h.type_cases with rfl | rfl <;> decide
    have : ∃ d, d ≤ 2 ∧ 0 < k d := by
      have := hf.some
      by_contra hcon
      have h0 : ¬ 0 < k 0 := fun hh => hcon ⟨0, by omega, hh⟩
      have h1 : ¬ 0 < k 1 := fun hh => hcon ⟨1, by omega, hh⟩
      have h2 : ¬ 0 < k 2 := fun hh => hcon ⟨2, by omega, hh⟩
      omega
    obtain ⟨d, hd, hk⟩ := this
    obtain ⟨l, hl⟩ := Option.isSome_iff_exists.mp (hf.wf.defined d hd 0 (pos d hd))
    refine ⟨d, l, hd, hl, ?_⟩
    rintro rfl
    have := hf.count d hd 0 (pos d hd) _ hl
    simp at this
    omega
  lowest := by
    intro d hd h0 _
    have pos : ∀ d, d ≤ 2 → 0 < refCount t d := by
      rcases h.type_cases with rfl | rfl <;> decide
    exact (hf.count d (by omega) 0 (pos d (by omega)) _ h0).symm

/-- A space on a grid that was made from a shape. -/
theorem Built.space (h : Built s t g pt cl) (hf : (fam t).Uniform t k) :
    ∃ fs, FunctionSpace.new 0 1 g fam = .done fs ∧ SerialSpace fs fam ∧ fs.grid = g ∧
      fs.localSize = k 0 * s.points.length + k 1 * s.undirected.card + k 2 * s.cells.length ∧
      fs.globalSize = fs.localSize := by
  obtain ⟨fs, hn, -, hg, -, -⟩ := C18_serial_space h.wf (h.family hf) h.owned
  have hy : (FunctionSpace.new 0 1 g fam).Yields fs := by rw [hn]; exact .done fs
  obtain ⟨dm, _, _, _, _, hgrid, _, _⟩ := new_local hy
  refine ⟨fs, hn, ⟨?_, ?_, ?_, ?_, ?_⟩, hgrid, ?_, hg⟩
  · rw [hgrid]; exact h.wf
  · rw [hgrid]; exact h.edges
  · rw [hgrid]; exact ⟨_, _, h.family hf, h.colourable hf⟩
  · rw [hgrid]; exact h.owned
  · rw [hgrid]; exact hn
  · rw [C05_size h.wf (h.family hf) hy, ← h.count_points, ← h.count_edges, ← h.count_cells]
    simp [List.range_succ, Nat.mul_comm, Nat.add_assoc]

end

section
variable {T : Type} [Zero T] [One T] [Neg T] [Add T] [Mul T] [Div T] {t : CellType} {g : Grid}
  {pt cl : Nat → Nat} {fam : CellType → ElementDofs} {k : Nat → Nat} {n : Nat} {s : Shape T}

/-- C46: an element with `k 0`, `k 1` and `k 2` degrees of freedom on each vertex, on each edge and in each cell gives
on every grid made from `regular_sphere(n)` a space with
`k 0 * (4^(n+1) + 2) + k 1 * 12 * 4^n + k 2 * 8 * 4^n` degrees of freedom. -/
theorem C46_sphere (half : T) (sqrt : T → T) (hs : regularSphere half sqrt n = some s)
    (hb : Built s .triangle g pt cl) (hf : (fam .triangle).Uniform .triangle k) :
    ∃ fs, FunctionSpace.new 0 1 g fam = .done fs ∧ fs.globalSize =
      k 0 * (4 ^ (n + 1) + 2) + k 1 * (12 * 4 ^ n) + k 2 * (8 * 4 ^ n) := by
  obtain ⟨-, -, -, h1, h2, h3⟩ := sphere_input half sqrt n hs
  obtain ⟨fs, hn, -, -, hl, hg⟩ := hb.space hf
  exact ⟨fs, hn, by rw [hg, hl, h1, h2, h3]⟩

/-- C46 for the screen of triangles. -/
theorem C46_screen_triangles (fromNat : Nat → T) (hs : screenTriangles fromNat n = some s)
    (hb : Built s .triangle g pt cl) (hf : (fam .triangle).Uniform .triangle k) :
    ∃ fs, FunctionSpace.new 0 1 g fam = .done fs ∧ fs.globalSize =
      k 0 * ((n + 1) * (n + 1)) + k 1 * (3 * n * n + 2 * n) + k 2 * (2 * (n * n)) := by
  obtain ⟨-, -, -, h1, h2, h3, -⟩ := triangles_input fromNat hs
  obtain ⟨fs, hn, -, -, hl, hg⟩ := hb.space hf
  exact ⟨fs, hn, by rw [hg, hl, h1, h2, h3]⟩

/-- C46 for the screen of quadrilaterals. -/
theorem C46_screen_quadrilaterals (fromNat : Nat → T) (hs : screenQuadrilaterals fromNat n = some s)
    (hb : Built s .quadrilateral g pt cl) (hf : (fam .quadrilateral).Uniform .quadrilateral k) :
    ∃ fs, FunctionSpace.new 0 1 g fam = .done fs ∧ fs.globalSize =
      k 0 * ((n + 1) * (n + 1)) + k 1 * (2 * n * (n + 1)) + k 2 * (n * n) := by
  obtain ⟨-, -, -, h1, h2, h3, -⟩ := quadrilaterals_input fromNat hs
  obtain ⟨fs, hn, -, -, hl, hg⟩ := hb.space hf
  exact ⟨fs, hn, by rw [hg, hl, h1, h2, h3]⟩

/-- C47: for every `n`, the shapes are complete and conforming and can be built, and every grid that the builder makes
from them is a conforming surface grid. -/
theorem C47_conforming (half : T) (sqrt : T → T) (fromNat : Nat → T)
    (hs : regularSphere half sqrt n = some s ∧ t = .triangle ∨ screenTriangles fromNat n = some s ∧ t = .triangle ∨
      screenQuadrilaterals fromNat n = some s ∧ t = .quadrilateral) :
    s.Complete ∧ s.OfType t ∧ s.Conforming ∧ (∃ g pt cl, Built s t g pt cl) ∧
    ∀ g pt cl, Built s t g pt cl → g.WF ∧ Surface g ∧ g.Vertices ∧ ∃ ev, g.Edges ev ∧ g.Conforming ev := by
  have key : (t = .triangle ∨ t = .quadrilateral) ∧ s.cells ≠ [] ∧ s.Complete ∧ s.OfType t ∧ s.Conforming := by
    rcases hs with ⟨h, rfl⟩ | ⟨h, rfl⟩ | ⟨h, rfl⟩
    · obtain ⟨h1, h2, h3, -, -, h4⟩ := sphere_input half sqrt n h
      refine ⟨Or.inl rfl, ?_, h1, h2, h3⟩
      rintro e
      rw [e] at h4
      have : 0 < 4 ^ n := Nat.pow_pos (by omega)
      simp at h4
    · obtain ⟨h1, h2, h3, -, -, h4, hn⟩ := triangles_input fromNat h
      refine ⟨Or.inl rfl, ?_, h1, h2, h3⟩
      rintro e
      rw [e] at h4
      have : 0 < n * n := Nat.mul_pos hn hn
      simp at h4
      omega
    · obtain ⟨h1, h2, h3, -, -, h4, hn⟩ := quadrilaterals_input fromNat h
      refine ⟨Or.inr rfl, ?_, h1, h2, h3⟩
      rintro e
      rw [e] at h4
      have : 0 < n * n := Nat.mul_pos hn hn
      simp at h4
      omega
  obtain ⟨ht, hne, hc, ho, hcon⟩ := key
  refine ⟨hc, ho, hcon, ⟨_, _, _, gridOf_built s t 0 ht hne hc ho⟩, ?_⟩
  intro g pt cl hb
  obtain ⟨ev, he⟩ := hb.edges
  exact ⟨hb.wf, hb.surface, hb.vertices, ev, he, hb.conforming hcon he⟩

end

section Example
open Examples

theorem p1_uniform : ∀ t ∈ [CellType.triangle, CellType.quadrilateral],
    (p1 t).Uniform t fun d => if d = 0 then 1 else 0 := by
  intro t ht
  refine ⟨p1_wf t ht, ?_, by decide⟩
  intro d hd i hi l hl
  simp only [p1, hd, hi, and_self, if_true, Option.some.injEq] at hl
  subst hl
  split <;> rfl

theorem p2_uniform : (p2 .triangle).Uniform .triangle fun d => if d = 2 then 0 else 1 := by
  refine ⟨p2_wf _ (by decide), ?_, by decide⟩
  intro d hd i hi l hl
  simp only [p2, hd, hi, and_self, if_true, Option.some.injEq] at hl
  subst hl
  rcases (by omega : d = 0 ∨ d = 1 ∨ d = 2) with rfl | rfl | rfl <;> rfl

/-- P1 and P2 spaces on a grid made from a sphere of any level. -/
example (n : Nat) : ∃ g fs fs', FunctionSpace.new 0 1 g p1 = .done fs ∧ FunctionSpace.new 0 1 g p2 = .done fs' ∧
    fs.globalSize = 4 ^ (n + 1) + 2 ∧ fs'.globalSize = 4 ^ (n + 1) + 2 + 12 * 4 ^ n := by
  obtain ⟨s, hs, -⟩ := C30_sizes (1 : Int) id n
  obtain ⟨-, -, -, ⟨g, pt, cl, hb⟩, -⟩ :=
    C47_conforming (1 : Int) id (fun k => (k : Int)) (Or.inl ⟨hs, rfl⟩)
  obtain ⟨fs, h1, h2⟩ := C46_sphere (1 : Int) id hs hb (p1_uniform _ (by decide))
  obtain ⟨fs', h1', h2'⟩ := C46_sphere (1 : Int) id hs hb p2_uniform
  exact ⟨g, fs, fs', h1, h1', by simpa using h2, by simpa using h2'⟩

/-- P1 spaces on screens of any size. -/
example (n : Nat) (hn : 0 < n) : ∃ g g' fs fs', FunctionSpace.new 0 1 g p1 = .done fs ∧
    FunctionSpace.new 0 1 g' p1 = .done fs' ∧ fs.globalSize = (n + 1) * (n + 1) ∧
    fs'.globalSize = (n + 1) * (n + 1) := by
  obtain ⟨s, hs⟩ := screenTriangles_some (fun k => (k : Int)) hn
  obtain ⟨s', hs'⟩ := screenQuadrilaterals_some (fun k => (k : Int)) hn
  obtain ⟨-, -, -, ⟨g, pt, cl, hb⟩, -⟩ :=
    C47_conforming (1 : Int) id (fun k => (k : Int)) (Or.inr (Or.inl ⟨hs, rfl⟩))
  obtain ⟨-, -, -, ⟨g', pt', cl', hb'⟩, -⟩ :=
    C47_conforming (1 : Int) id (fun k => (k : Int)) (Or.inr (Or.inr ⟨hs', rfl⟩))
  obtain ⟨fs, h1, h2⟩ := C46_screen_triangles _ hs hb (p1_uniform _ (by decide))
  obtain ⟨fs', h1', h2'⟩ := C46_screen_quadrilaterals _ hs' hb' (p1_uniform _ (by decide))
  exact ⟨g, g', fs, fs', h1, h1', by simpa using h2, by simpa using h2'⟩

end Example

section
variable {R U T : Type} [Zero R] [Mul R] [AddCommMonoid T] [Mul T]
  {s : Shape U} {t : CellType} {g : Grid} {pt cl : Nat → Nat} {famT famR : CellType → ElementDofs}
  {kT kR : Nat → Nat} {env : Env R T} {asm : Assembler R T} {F : MathIntegrand T} {K : MathKernel R T}
  {G : Geometry R} {BT BR : Basis R T} {Q : Quadrature R} {test trial : Space R T}

/-- C47: on every grid made from one of the shapes, for every `n`, assembly of an operator succeeds for elements of any
degree and returns a matrix of the size of the spaces; its entries are the sums of C14. Only the external functions
have to work. -/
theorem C47_assembles [Zero U] [One U] [Neg U] [Add U] [Mul U] [Div U] {n : Nat} (half : U) (sqrt : U → U)
    (fromNat : Nat → U)
    (hs : regularSphere half sqrt n = some s ∧ t = .triangle ∨ screenTriangles fromNat n = some s ∧ t = .triangle ∨
      screenQuadrilaterals fromNat n = some s ∧ t = .quadrilateral)
    (hb : Built s t g pt cl) (hT : (famT t).Uniform t kT) (hR : (famR t).Uniform t kR)
    (hmT : FunctionSpace.new 0 1 g famT = .done test.fs) (hmR : FunctionSpace.new 0 1 g famR = .done trial.fs)
    (hgT : GeometryOk test G) (hgR : GeometryOk trial G) (hbT : TabulateOk test famT BT)
    (hbR : TabulateOk trial famR BR) (ho : asm.Computes F K) (hreg : RegularOk env asm.options Q t)
    (hsing : SingularOk env asm.options Q t t) (hbatch : 0 < asm.options.batchSize) :
    ∃ M : List T, (∀ out, Assemble env asm trial test out ↔ out = some M) ∧
      M.length = (kT 0 * s.points.length + kT 1 * s.undirected.card + kT 2 * s.cells.length) *
        (kR 0 * s.points.length + kR 1 * s.undirected.card + kR 2 * s.cells.length) ∧
      ∀ i j, i < test.fs.globalSize → j < trial.fs.globalSize → M[i + test.fs.globalSize * j]? =
        some (doubleSum test.fs trial.fs (cellPairValue env.cast F K G G BT BR Q test.fs trial.fs) i j) := by
  obtain ⟨-, -, -, -, hall⟩ := C47_conforming half sqrt fromNat hs
  obtain ⟨-, -, -, hev⟩ := hall g pt cl hb
  obtain ⟨fT, eT, sT, gT, lT, szT⟩ := hb.space hT
  obtain ⟨fR, eR, sR, gR, lR, szR⟩ := hb.space hR
  obtain rfl : test.fs = fT := by
    rw [hmT] at eT
    exact Prog.done.inj eT
  obtain rfl : trial.fs = fR := by
    rw [hmR] at eR
    exact Prog.done.inj eR
  have hset : DenseSetting env asm trial test famT famR F K G G BT BR Q t := by
    refine ⟨sT, sR, ?_, ?_, ?_, ?_, hgT, hgR, hbT, hbR, ho, hreg, fun _ => ⟨⟨sT.spaceOn, sR.spaceOn, ?_, ?_, ?_, ?_, hgT,
      hbT, hbR, ho, ?_⟩, rfl⟩⟩
    · rw [gT]; exact hb.types
    · rw [gR]; exact hb.types
    · rw [gT]; exact hb.surface
    · rw [gR]; exact hb.surface
    · rw [gT, gR]
    · rw [gT]; exact hb.surface
    · rw [gT]; exact hb.vertices
    · rw [gT]; exact hev
    · rw [gT, hb.types]
      intro tt htt rt hrt
      rw [List.mem_singleton] at htt hrt
      subst htt hrt
      exact hsing
  obtain ⟨M, h1, h2, h3⟩ := C14_galerkin hset hbatch
  exact ⟨M, h1, by rw [h2, szT, szR, lT, lR], h3⟩

end

section Example
open Examples

/-- Every hypothesis of `C47_assembles` is met: the double layer operator with P1 elements on spheres of all levels
(with a made-up geometry). -/
example (n : Nat) : ∃ sp : Space Rat Rat, sp.fs.globalSize = 4 ^ (n + 1) + 2 ∧ ∃ M : List Rat,
    Assemble exEnv (Laplace.doubleLayer (kernelOf squareKernel) smallOptions) sp sp (some M) ∧
    M.length = (4 ^ (n + 1) + 2) * (4 ^ (n + 1) + 2) := by
  obtain ⟨s, hs, -⟩ := C30_sizes (1 : Int) id n
  obtain ⟨-, -, -, ⟨g, pt, cl, hb⟩, -⟩ :=
    C47_conforming (1 : Int) id (fun k => (k : Int)) (Or.inl ⟨hs, rfl⟩)
  have hu := p1_uniform .triangle (by decide)
  obtain ⟨fs, h1, h2⟩ := C46_sphere (1 : Int) id hs hb hu
  let sp := Examples.spaceOf fs p1 octGeometry p1Basis
  have hsz : sp.fs.globalSize = 4 ^ (n + 1) + 2 := by
    show fs.globalSize = _
    simpa using h2
  refine ⟨sp, hsz, ?_⟩
  obtain ⟨M, hM, hl, -⟩ := C47_assembles (env := exEnv) (Q := smallRules) (test := sp) (trial := sp)
    (asm := Laplace.doubleLayer (kernelOf squareKernel) smallOptions) (1 : Int) id (fun k => (k : Int))
    (Or.inl ⟨hs, rfl⟩) hb hu hu h1 h1 (spaceOf_geometry fs p1 octGeometry p1Basis)
    (spaceOf_geometry fs p1 octGeometry p1Basis) (spaceOf_tabulate fs p1 octGeometry p1Basis)
    (spaceOf_tabulate fs p1 octGeometry p1Basis) (octDouble_computes smallOptions)
    exEnv_regular exEnv_singular (by decide)
  refine ⟨M, (hM _).mpr rfl, ?_⟩
  obtain ⟨-, -, -, hp, -, -⟩ := sphere_input (1 : Int) id n hs
  simpa [hp] using hl

end Example
end Bempp
