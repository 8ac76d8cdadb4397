import Verif.Spec.Planar
import Verif.Props.Linear
import Verif.Props.ShapeSurface
/-
C83: operators on flat screens.
-/
namespace Bempp

theorem laplaceGreen_level : LevelKernel laplaceGreen := by
  intro x y h
  show pointDiff x y 2 / _ = 0
  unfold pointDiff
  rw [h, sub_self, zero_div]

theorem helmholtzGreen_level (w : ℝ) : LevelKernel (helmholtzGreen w) := by
  intro x y h
  show _ * _ * ((pointDiff x y 2 : ℝ) : ℂ) / _ = 0
  unfold pointDiff
  rw [h, sub_self, Complex.ofReal_zero, mul_zero, zero_div]

theorem coords_height {G : Geometry ℝ} (c : Nat) (x : List ℝ) : (G.coords c x).getD 2 0 = G.point c x 2 := rfl

section
variable {T : Type} [Field T] {env : Env ℝ T} {o : Options} {trial test : Space ℝ T} {famT famR : CellType → ElementDofs}
  {K : MathKernel ℝ T} {GT GR : Geometry ℝ} {BT BR : Basis ℝ T} {Q : Quadrature ℝ} {t : CellType} {h : ℝ}
  {asm : Assembler ℝ T} {F F' : MathIntegrand T}

/-- Integrands that agree at the points of two cells have the same quadrature values. -/
theorem cellPairValue_congr {cast : ℝ → T} {tfs rfs : FunctionSpace} {c c' : Entity}
    (e : ∀ x y U V, F (K (GT.coords c.localIndex x) (GR.coords c'.localIndex y)) U V (GT.data cast c.localIndex x)
      (GR.data cast c'.localIndex y) = F' (K (GT.coords c.localIndex x) (GR.coords c'.localIndex y)) U V
      (GT.data cast c.localIndex x) (GR.data cast c'.localIndex y)) (a b : Nat) :
    cellPairValue cast F K GT GR BT BR Q tfs rfs c c' a b = cellPairValue cast F' K GT GR BT BR Q tfs rfs c c' a b := by
  unfold cellPairValue singularValue regularValue
  simp only [e]

theorem cellPairValue_zero {cast : ℝ → T} {tfs rfs : FunctionSpace} (c c' : Entity) (a b : Nat) :
    cellPairValue cast (fun _ _ _ _ _ => 0) K GT GR BT BR Q tfs rfs c c' a b = 0 := by
  have := cellPairValue_mul cast (fun _ _ _ _ _ => 0) K GT GR BT BR Q tfs rfs c c' a b 0
  simpa using this

/-- **C83.** On surfaces at the same height, such as a flat screen, the matrices of the double layer and the adjoint
double layer operators are exactly 0, whatever the quadrature rules. -/
theorem C83_double_layer (hp : SpacePair env o trial test famT famR GT GR BT BR Q t)
    (ho : OperatorWith env.cast o K asm F) (hF : F = dlF ∨ F = adlF) (hb : 0 < o.batchSize) (hK : LevelKernel K)
    (hcast : env.cast 0 = 0) (hT : Horizontal GT test.fs.grid h) (hR : Horizontal GR trial.fs.grid h) (out : Option (List T)) :
    Assemble env asm trial test out ↔
      out = some (List.replicate (test.fs.globalSize * trial.fs.globalSize) 0) := by
  obtain ⟨M, h1, h2, h3⟩ := C14_operators hp ho hb
  rw [h1]
  have : M = List.replicate (test.fs.globalSize * trial.fs.globalSize) 0 := by
    refine matrix_ext h2 (List.length_replicate ..) fun i j hi hj => ?_
    rw [h3 i j hi hj, List.getElem?_replicate, if_pos (addr_lt hi hj)]
    have e : ∀ c ∈ test.fs.grid.entityIter 2, ∀ c' ∈ trial.fs.grid.entityIter 2, ∀ a b,
        cellPairValue env.cast F K GT GR BT BR Q test.fs trial.fs c c' a b =
        0 * cellPairValue env.cast F K GT GR BT BR Q test.fs trial.fs c c' a b := by
      intro c hc c' hc' a b
      rw [zero_mul, ← cellPairValue_zero (cast := env.cast) (K := K) (GT := GT) (GR := GR) (BT := BT) (BR := BR) (Q := Q)
        (tfs := test.fs) (rfs := trial.fs) c c' a b]
      refine cellPairValue_congr (fun x y U V => ?_) a b
      have k3 : K (GT.coords c.localIndex x) (GR.coords c'.localIndex y) 3 = 0 :=
        hK _ _ (by rw [coords_height, coords_height, hT.height c hc, hR.height c' hc'])
      obtain ⟨n0, n1, -⟩ := hT.normal c hc x
      obtain ⟨m0, m1, -⟩ := hR.normal c' hc' y
      rcases hF with rfl | rfl
      · simp [dlF, Geometry.data, k3, m0, m1, hcast]
      · simp [adlF, Geometry.data, k3, n0, n1, hcast]
    rw [doubleSum_congr e, doubleSum_mul, zero_mul]
  rw [this]

/-- **C83.** On surfaces at the same height the Helmholtz hypersingular matrix is the curl-curl part minus the square of the
wavenumber times the single layer matrix. -/
theorem C83_hypersingular {w : ℝ} {k : ℝ → Kernel ℝ T} (hp : SpacePair env o trial test famT famR GT GR BT BR Q t)
    (hk : (k w).Computes .value K) (hk' : (k w).Computes .valueDeriv K) (hb : 0 < o.batchSize)
    (h1 : env.cast 1 = 1) (h0 : env.cast 0 = 0)
    (hT : Horizontal GT test.fs.grid h) (hR : Horizontal GR trial.fs.grid h) :
    ∃ H S : List T, (∀ out, Assemble env (Helmholtz.hypersingular env.cast k w o) trial test out ↔ out = some H) ∧
      (∀ out, Assemble env (Helmholtz.singleLayer k w o) trial test out ↔ out = some S) ∧
      ∀ i j, i < test.fs.globalSize → j < trial.fs.globalSize →
        H.getD (i + test.fs.globalSize * j) 0 =
          doubleSum test.fs trial.fs (cellPairValue env.cast curlCurlF K GT GR BT BR Q test.fs trial.fs) i j +
            env.cast (-(w * w)) * S.getD (i + test.fs.globalSize * j) 0 := by
  obtain ⟨H, e1, e2, e3⟩ := C14_operators hp (.helmholtzHypersingular hk') hb
  obtain ⟨S, s1, s2, s3⟩ := C14_operators hp (.helmholtzSingleLayer hk) hb
  refine ⟨H, S, e1, s1, fun i j hi hj => ?_⟩
  rw [List.getD_eq_getElem?_getD, List.getD_eq_getElem?_getD, e3 i j hi hj, s3 i j hi hj, Option.getD_some, Option.getD_some,
    ← doubleSum_mul, ← doubleSum_add]
  refine doubleSum_congr (fun c hc c' hc' a b => ?_) i j
  rw [← cellPairValue_mul, ← cellPairValue_add]
  refine cellPairValue_congr (fun x y U V => ?_) a b
  obtain ⟨n0, n1, n2⟩ := hT.normal c hc x
  obtain ⟨m0, m1, m2⟩ := hR.normal c' hc' y
  simp [helmholtzHypF, normalNormalF, slF, Geometry.data, n0, n1, n2, m0, m1, m2, h0, h1]

end

section
variable {lev : Nat} {t : CellType} {s : Shape ℝ} {g : Grid} {pt cl : Nat → Nat} {V : Nat → Nat → Nat → ℝ}

theorem normal_up {a b : Nat → ℝ} (ha : a 2 = 0) (hb : b 2 = 0) (h : 0 < a 0 * b 1 - a 1 * b 0) :
    cross3 a b 0 / norm3 (cross3 a b) = 0 ∧ cross3 a b 1 / norm3 (cross3 a b) = 0 ∧
      cross3 a b 2 / norm3 (cross3 a b) = 1 := by
  have e : norm3 (cross3 a b) = a 0 * b 1 - a 1 * b 0 := by
    simp only [norm3, cross3, ha, hb, mul_zero, zero_mul, sub_self, zero_add]
    exact Real.sqrt_mul_self h.le
  rw [e]
  simp only [cross3, ha, hb, mul_zero, zero_mul, sub_self, zero_div, true_and]
  exact div_self h.ne'

/-- Flat triangles at height 0 whose corners are in anticlockwise order, seen from above. -/
theorem triangle_horizontal {c : Nat} (h0 : V c 0 2 = 0) (h1 : V c 1 2 = 0) (h2 : V c 2 2 = 0)
    (h : 0 < (V c 1 0 - V c 0 0) * (V c 2 1 - V c 0 1) - (V c 1 1 - V c 0 1) * (V c 2 0 - V c 0 0)) (x : List ℝ) :
    (vertexGeometry triangleFunctions V).point c x 2 = 0 ∧ (vertexGeometry triangleFunctions V).normal c x 0 = 0 ∧
    (vertexGeometry triangleFunctions V).normal c x 1 = 0 ∧ (vertexGeometry triangleFunctions V).normal c x 2 = 1 := by
  refine ⟨?_, normal_up ?_ ?_ ?_⟩
  · simp [vertexGeometry, triangleFunctions, List.range_succ, h0, h1, h2]
  · simp [triangleFunctions, List.range_succ, h0, h1, h2]
  · simp [triangleFunctions, List.range_succ, h0, h1, h2]
  · simp only [triangleFunctions, List.range_succ, List.range_zero, List.nil_append, List.map_cons, List.map_nil,
      List.cons_append, List.sum_cons, List.sum_nil]
    linarith

/-- **C83.** The screens are flat: all points have the third coordinate 0, and the normal of every cell is `(0, 0, 1)`. -/
theorem C83_screens (hs : screenTriangles (fun k => (k : ℝ)) lev = some s ∧ t = .triangle ∨
      screenQuadrilaterals (fun k => (k : ℝ)) lev = some s ∧ t = .quadrilateral)
    (hb : Built s t g pt cl) (hV : HasCorners s g pt V) : Horizontal (vertexGeometry (cellFunctions t) V) g 0 := by
  have key : ∀ c ∈ g.entityIter 2, ∀ x, (vertexGeometry (cellFunctions t) V).point c.localIndex x 2 = 0 ∧
      (vertexGeometry (cellFunctions t) V).normal c.localIndex x 0 = 0 ∧
      (vertexGeometry (cellFunctions t) V).normal c.localIndex x 1 = 0 ∧
      (vertexGeometry (cellFunctions t) V).normal c.localIndex x 2 = 1 := by
    intro c hc x
    have hn : (0 : ℝ) < (lev : ℝ) + 1 := by positivity
    obtain ⟨i, hi, -, hl⟩ := hb.corner_list hc
    rcases hs with ⟨hs, rfl⟩ | ⟨hs, rfl⟩
    · obtain ⟨a, b, d, he⟩ : ∃ a b d, c.sub 0 = [a, b, d] := List.length_eq_three.mp (by simpa [refCount] using hl)
      have ha := hV.corner hb hc (k := 0) (v := a) (by rw [he]; rfl)
      have hb1 := hV.corner hb hc (k := 1) (v := b) (by rw [he]; rfl)
      have hd := hV.corner hb hc (k := 2) (v := d) (by rw [he]; rfl)
      obtain ⟨p, q, hp, hq, hpq⟩ := (mem_screenTriangles _ hs).mp ⟨i, hi⟩
      have hpts := (screenTriangles_eq _ hs).2.1
      rw [he] at hpq
      simp only [List.map_cons, List.map_nil, lowerTri, upperTri, List.cons.injEq, and_true] at hpq
      rcases hpq with ⟨p1, p2, p3⟩ | ⟨p1, p2, p3⟩ <;>
      · rw [p1, screen_pos hpts (by omega) (by omega)] at ha
        rw [p2, screen_pos hpts (by omega) (by omega)] at hb1
        rw [p3, screen_pos hpts (by omega) (by omega)] at hd
        simp only [Option.getD_some, Prod.mk.injEq] at ha hb1 hd
        refine triangle_horizontal ha.2.2 hb1.2.2 hd.2.2 ?_ x
        rw [ha.1, ha.2.1, hb1.1, hb1.2.1, hd.1, hd.2.1]
        have : (0 : ℝ) < 1 / ((lev : ℝ) + 1) * (1 / ((lev : ℝ) + 1)) := by positivity
        convert this using 1
        push_cast
        field_simp
        ring
    · obtain ⟨a, b, d, e, he⟩ : ∃ a b d e, c.sub 0 = [a, b, d, e] := by
        have : (c.sub 0).length = 4 := by simpa [refCount] using hl
        match c.sub 0, this with
        | [a, b, d, e], _ => exact ⟨a, b, d, e, rfl⟩
      have ha := hV.corner hb hc (k := 0) (v := a) (by rw [he]; rfl)
      have hb1 := hV.corner hb hc (k := 1) (v := b) (by rw [he]; rfl)
      have hd := hV.corner hb hc (k := 2) (v := d) (by rw [he]; rfl)
      have he' := hV.corner hb hc (k := 3) (v := e) (by rw [he]; rfl)
      obtain ⟨p, q, hp, hq, hpq⟩ := (mem_screenQuadrilaterals _ hs).mp ⟨i, hi⟩
      have hpts := (screenQuadrilaterals_eq _ hs).2.1
      rw [he] at hpq
      simp only [List.map_cons, List.map_nil, squareQuad, List.cons.injEq, and_true] at hpq
      obtain ⟨p1, p2, p3, p4⟩ := hpq
      rw [p1, screen_pos hpts (by omega) (by omega)] at ha
      rw [p2, screen_pos hpts (by omega) (by omega)] at hb1
      rw [p3, screen_pos hpts (by omega) (by omega)] at hd
      rw [p4, screen_pos hpts (by omega) (by omega)] at he'
      simp only [Option.getD_some, Prod.mk.injEq] at ha hb1 hd he'
      refine ⟨?_, normal_up ?_ ?_ ?_⟩
      · simp [vertexGeometry, cellFunctions, quadrilateralFunctions, List.range_succ, ha.2.2, hb1.2.2, hd.2.2, he'.2.2]
      · simp [cellFunctions, quadrilateralFunctions, List.range_succ, ha.2.2, hb1.2.2, hd.2.2, he'.2.2]
      · simp [cellFunctions, quadrilateralFunctions, List.range_succ, ha.2.2, hb1.2.2, hd.2.2, he'.2.2]
      · have : (0 : ℝ) < 1 / ((lev : ℝ) + 1) * (1 / ((lev : ℝ) + 1)) := by positivity
        convert this using 1
        simp only [cellFunctions, quadrilateralFunctions, List.range_succ, List.range_zero, List.nil_append, List.map_cons,
          List.map_nil, List.cons_append, List.sum_cons, List.sum_nil, ha.1, ha.2.1, hb1.1, hb1.2.1, hd.1, hd.2.1, he'.1,
          he'.2.1]
        norm_num
        field_simp
        ring
  exact ⟨fun c hc x => (key c hc x).1, fun c hc x => (key c hc x).2⟩

/-- **C83.** On every screen the Laplace double layer and adjoint double layer matrices are exactly 0. -/
theorem C83_laplace {env : Env ℝ ℝ} {o : Options} {Q : Quadrature ℝ} {kernel : Kernel ℝ ℝ} {trial test : Space ℝ ℝ}
    {BT BR : Basis ℝ ℝ} {famT famR : CellType → ElementDofs} {kT kR : Nat → Nat} (hcast : env.cast = id)
    (hs : screenTriangles (fun k => (k : ℝ)) lev = some s ∧ t = .triangle ∨
      screenQuadrilaterals (fun k => (k : ℝ)) lev = some s ∧ t = .quadrilateral)
    (hb : Built s t g pt cl) (hV : HasCorners s g pt V)
    (hT : (famT t).Uniform t kT) (hR : (famR t).Uniform t kR)
    (hmT : FunctionSpace.new 0 1 g famT = .done test.fs) (hmR : FunctionSpace.new 0 1 g famR = .done trial.fs)
    (hgT : GeometryOk test (vertexGeometry (cellFunctions t) V))
    (hgR : GeometryOk trial (vertexGeometry (cellFunctions t) V)) (hbT : TabulateOk test famT BT)
    (hbR : TabulateOk trial famR BR) (hreg : RegularOk env o Q t) (hsing : SingularOk env o Q t t)
    (hK : kernel.Computes .valueDeriv laplaceGreen) (hbatch : 0 < o.batchSize) (out : Option (List ℝ)) :
    (Assemble env (Laplace.doubleLayer kernel o) trial test out ↔
      out = some (List.replicate (test.fs.globalSize * trial.fs.globalSize) 0)) ∧
    (Assemble env (Laplace.adjointDoubleLayer kernel o) trial test out ↔
      out = some (List.replicate (test.fs.globalSize * trial.fs.globalSize) 0)) := by
  obtain ⟨hp, gT, gR⟩ := shape_pair (V := V) (.inr hs) hb hT hR hmT hmR hgT hgR hbT hbR hreg hsing
  have hh := C83_screens hs hb hV
  exact ⟨C83_double_layer hp (.laplaceDoubleLayer hK) (.inl rfl) hbatch laplaceGreen_level (by rw [hcast]; rfl)
      (by rw [gT]; exact hh) (by rw [gR]; exact hh) out,
    C83_double_layer hp (.laplaceAdjoint hK) (.inr rfl) hbatch laplaceGreen_level (by rw [hcast]; rfl)
      (by rw [gT]; exact hh) (by rw [gR]; exact hh) out⟩

/-- **C83.** On every screen the Helmholtz double layer and adjoint double layer matrices are exactly 0, for every
wavenumber, and the hypersingular matrix is the curl-curl part minus the square of the wavenumber times the single layer
matrix. -/
theorem C83_helmholtz {env : Env ℝ ℂ} {o : Options} {Q : Quadrature ℝ} {kernel : ℝ → Kernel ℝ ℂ} {trial test : Space ℝ ℂ}
    {w : ℝ} {BT BR : Basis ℝ ℂ} {famT famR : CellType → ElementDofs} {kT kR : Nat → Nat} (hcast : env.cast = Complex.ofReal)
    (hs : screenTriangles (fun k => (k : ℝ)) lev = some s ∧ t = .triangle ∨
      screenQuadrilaterals (fun k => (k : ℝ)) lev = some s ∧ t = .quadrilateral)
    (hb : Built s t g pt cl) (hV : HasCorners s g pt V)
    (hT : (famT t).Uniform t kT) (hR : (famR t).Uniform t kR)
    (hmT : FunctionSpace.new 0 1 g famT = .done test.fs) (hmR : FunctionSpace.new 0 1 g famR = .done trial.fs)
    (hgT : GeometryOk test (vertexGeometry (cellFunctions t) V))
    (hgR : GeometryOk trial (vertexGeometry (cellFunctions t) V)) (hbT : TabulateOk test famT BT)
    (hbR : TabulateOk trial famR BR) (hreg : RegularOk env o Q t) (hsing : SingularOk env o Q t t)
    (hK : (kernel w).Computes .value (helmholtzGreen w)) (hK' : (kernel w).Computes .valueDeriv (helmholtzGreen w))
    (hbatch : 0 < o.batchSize) :
    (∀ out, Assemble env (Helmholtz.doubleLayer kernel w o) trial test out ↔
      out = some (List.replicate (test.fs.globalSize * trial.fs.globalSize) 0)) ∧
    (∀ out, Assemble env (Helmholtz.adjointDoubleLayer kernel w o) trial test out ↔
      out = some (List.replicate (test.fs.globalSize * trial.fs.globalSize) 0)) ∧
    ∃ H S : List ℂ, (∀ out, Assemble env (Helmholtz.hypersingular env.cast kernel w o) trial test out ↔ out = some H) ∧
      (∀ out, Assemble env (Helmholtz.singleLayer kernel w o) trial test out ↔ out = some S) ∧
      ∀ i j, i < test.fs.globalSize → j < trial.fs.globalSize →
        H.getD (i + test.fs.globalSize * j) 0 =
          doubleSum test.fs trial.fs (cellPairValue env.cast curlCurlF (helmholtzGreen w)
            (vertexGeometry (cellFunctions t) V) (vertexGeometry (cellFunctions t) V) BT BR Q test.fs trial.fs) i j -
            (w : ℂ) ^ 2 * S.getD (i + test.fs.globalSize * j) 0 := by
  obtain ⟨hp, gT, gR⟩ := shape_pair (V := V) (.inr hs) hb hT hR hmT hmR hgT hgR hbT hbR hreg hsing
  have hh := C83_screens hs hb hV
  have hhT : Horizontal (vertexGeometry (cellFunctions t) V) test.fs.grid 0 := by rw [gT]; exact hh
  have hhR : Horizontal (vertexGeometry (cellFunctions t) V) trial.fs.grid 0 := by rw [gR]; exact hh
  have h0 : env.cast 0 = 0 := by rw [hcast]; exact Complex.ofReal_zero
  refine ⟨C83_double_layer hp (.helmholtzDoubleLayer hK') (.inl rfl) hbatch (helmholtzGreen_level w) h0 hhT hhR,
    C83_double_layer hp (.helmholtzAdjoint hK') (.inr rfl) hbatch (helmholtzGreen_level w) h0 hhT hhR, ?_⟩
  obtain ⟨H, S, h1, h2, h3⟩ := C83_hypersingular hp hK hK' hbatch (by rw [hcast]; exact Complex.ofReal_one) h0 hhT hhR
  refine ⟨H, S, h1, h2, fun i j hi hj => ?_⟩
  rw [h3 i j hi hj, hcast]
  push_cast
  ring

end

namespace Examples

/-- C83: the Laplace double layer matrices of P1 elements on the screens of all sizes. -/
example (lev : Nat) (hl : 0 < lev) : ∃ (V : Nat → Nat → Nat → ℝ) (fs : FunctionSpace),
    fs.globalSize = (lev + 1) * (lev + 1) ∧ ∀ n out,
      Assemble (pairEnv []) (Laplace.doubleLayer (kernelOf laplaceGreen) (latticeOptions n))
        (Examples.spaceOf fs p1 (vertexGeometry triangleFunctions V) realP1)
        (Examples.spaceOf fs p1 (vertexGeometry triangleFunctions V) realP1) out ↔
      out = some (List.replicate (fs.globalSize * fs.globalSize) 0) := by
  obtain ⟨s, hs⟩ := screenTriangles_some (fun k => (k : ℝ)) hl
  obtain ⟨-, -, -, ⟨g, pt, cl, hb⟩, -⟩ := C47_conforming (1 / 2 : ℝ) Real.sqrt _ (.inr (.inl ⟨hs, rfl⟩))
  obtain ⟨V, hV⟩ := hb.exists_corners
  have hu := p1_uniform .triangle (by decide)
  obtain ⟨fs, h1, h2⟩ := C46_screen_triangles _ hs hb hu
  exact ⟨V, fs, by simpa using h2, fun n out => (C83_laplace
    (test := Examples.spaceOf fs p1 (vertexGeometry triangleFunctions V) realP1)
    (trial := Examples.spaceOf fs p1 (vertexGeometry triangleFunctions V) realP1) rfl (.inl ⟨hs, rfl⟩) hb hV hu hu h1 h1
    (spaceOf_geometry fs p1 _ realP1) (spaceOf_geometry fs p1 _ realP1) (spaceOf_tabulate fs p1 _ realP1)
    (spaceOf_tabulate fs p1 _ realP1) (pair_regular [] n) (pair_singular (by simp) n) (kernelOf_computes laplaceGreen _)
    (by show 0 < 128; decide) out).1⟩

end Examples
end Bempp
