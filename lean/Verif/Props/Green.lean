import Verif.Spec.Green
import Verif.Props.Motion
import Verif.Props.Symmetry
import Verif.Props.Linear
/-
The Green's functions satisfy what the theorems ask of the kernels. C53 for them. C54.
-/
namespace Bempp
open Examples

theorem pointDiff_comm (x y : List ℝ) (i : Nat) : pointDiff y x i = - pointDiff x y i := by
  unfold pointDiff; ring

theorem pointDist_comm (x y : List ℝ) : pointDist y x = pointDist x y := by
  unfold pointDist; rw [pointDiff_comm x y 0, pointDiff_comm x y 1, pointDiff_comm x y 2]; simp only [neg_sq]

theorem laplaceGreen_symmetric : SymmetricKernel laplaceGreen := by
  intro x y; simp only [laplaceGreen, pointDist_comm]

theorem laplaceGreen_odd : OddGradient laplaceGreen := by
  intro x y k h1 h3
  obtain ⟨j, rfl⟩ : ∃ j, k = j + 1 := ⟨k - 1, by omega⟩
  simp only [laplaceGreen, pointDist_comm x y, pointDiff_comm x y]
  ring

theorem helmholtzGreen_symmetric (w : ℝ) : SymmetricKernel (helmholtzGreen w) := by
  intro x y; simp only [helmholtzGreen, pointDist_comm]

theorem helmholtzGreen_odd (w : ℝ) : OddGradient (helmholtzGreen w) := by
  intro x y k h1 h3
  obtain ⟨j, rfl⟩ : ∃ j, k = j + 1 := ⟨k - 1, by omega⟩
  simp only [helmholtzGreen, pointDist_comm x y, pointDiff_comm x y, Complex.ofReal_neg]
  ring

/-- The Helmholtz Green's function with wavenumber 0 is the Laplace Green's function. -/
theorem helmholtzGreen_zero : helmholtzGreen 0 = laplaceGreenC := by
  funext x y i
  cases i <;> simp [helmholtzGreen, laplaceGreenC, laplaceGreen]

section
variable {s : ℝ} {A : Nat → Nat → ℝ} {b : Nat → ℝ}

theorem pointDiff_moved (x y : List ℝ) (i : Nat) (hi : i < 3) :
    pointDiff (moved s A b x) (moved s A b y) i = s * matVec A (pointDiff x y) i := by
  rcases (by omega : i = 0 ∨ i = 1 ∨ i = 2) with rfl | rfl | rfl <;>
  · simp only [pointDiff, moved, matVec, List.range_succ, List.range_zero, List.nil_append, List.cons_append,
      List.map_cons, List.map_nil, List.getD_cons_zero, List.getD_cons_succ]
    ring

theorem pointDist_moved (hs : 0 < s) (hA : Orthonormal3 A) (x y : List ℝ) :
    pointDist (moved s A b x) (moved s A b y) = s * pointDist x y := by
  unfold pointDist
  rw [pointDiff_moved x y 0 (by omega), pointDiff_moved x y 1 (by omega), pointDiff_moved x y 2 (by omega)]
  have h := dot_matVec hA (pointDiff x y) (pointDiff x y)
  rw [show (s * matVec A (pointDiff x y) 0) ^ 2 + (s * matVec A (pointDiff x y) 1) ^ 2 +
    (s * matVec A (pointDiff x y) 2) ^ 2 = s ^ 2 * (pointDiff x y 0 ^ 2 + pointDiff x y 1 ^ 2 + pointDiff x y 2 ^ 2) by
      linear_combination s ^ 2 * h, Real.sqrt_mul (sq_nonneg s), Real.sqrt_sq hs.le]

/-- The Laplace Green's function is homogeneous of degree -1. -/
theorem laplaceGreen_similar (hs : 0 < s) (hA : Orthonormal3 A) :
    SimilarKernel (RingHom.id ℝ) s A b (1 / s) laplaceGreen laplaceGreen where
  value := by
    intro x y _ _
    simp only [laplaceGreen, pointDist_moved hs hA]
    rw [div_mul_div_comm]; congr 1 <;> ring
  gradient := by
    intro x y _ _ i hi
    simp only [laplaceGreen, pointDist_moved hs hA, pointDiff_moved _ _ _ hi, matVec, RingHom.id_apply]
    rcases eq_or_ne (pointDist x y) 0 with h | h
    · simp [h]
    · have := Real.pi_pos.ne'
      field_simp

theorem laplaceGreenC_similar (hs : 0 < s) (hA : Orthonormal3 A) :
    SimilarKernel Complex.ofRealHom s A b (1 / (s : ℂ)) laplaceGreenC laplaceGreenC where
  value := by
    intro x y hx hy
    have := (laplaceGreen_similar (b := b) hs hA).value x y hx hy
    simp only [laplaceGreenC, this]
    push_cast; rfl
  gradient := by
    intro x y hx hy i hi
    have := congrArg (Complex.ofReal) ((laplaceGreen_similar (b := b) hs hA).gradient x y hx hy i hi)
    simp only [matVec, RingHom.id_apply] at this
    push_cast at this
    simp only [laplaceGreenC, matVec, Complex.ofRealHom_eq_coe, this]

/-- The Helmholtz Green's function is homogeneous of degree -1 if the wavenumber is divided by the scale. -/
theorem helmholtzGreen_similar (hs : 0 < s) (hA : Orthonormal3 A) (w' : ℝ) :
    SimilarKernel Complex.ofRealHom s A b (1 / (s : ℂ)) (helmholtzGreen (s * w')) (helmholtzGreen w') where
  value := by
    intro x y _ _
    simp only [helmholtzGreen, pointDist_moved hs hA, Complex.ofReal_mul]
    rw [div_mul_div_comm, one_mul]
    congr 1
    · congr 1; ring
    · ring
  gradient := by
    intro x y _ _ i hi
    simp only [helmholtzGreen, pointDist_moved hs hA, pointDiff_moved _ _ _ hi, matVec, Complex.ofRealHom_eq_coe,
      Complex.ofReal_mul, Complex.ofReal_add]
    have hs0 : (s : ℂ) ≠ 0 := by exact_mod_cast hs.ne'
    rw [show Complex.I * (w' : ℂ) * (s * pointDist x y) = Complex.I * (s * w') * pointDist x y by ring]
    generalize Complex.exp _ = E
    rcases eq_or_ne (pointDist x y : ℂ) 0 with h | h
    · simp [h]
    · have : (Real.pi : ℂ) ≠ 0 := by exact_mod_cast Real.pi_pos.ne'
      field_simp
end

section
variable {s : ℝ} {A : Nat → Nat → ℝ} {b : Nat → ℝ} {o : Options} {famT famR : CellType → ElementDofs}
  {GT GR GT' GR' : Geometry ℝ} {Q : Quadrature ℝ} {t : CellType} {numT numR : Nat → Nat → Nat} {e : Nat}

/-- **C53** for the Laplace operators in exact real arithmetic: if a pair of surfaces is moved rigidly and scaled by
`s`, the matrices are multiplied by `s^3` (single layer), `s^2` (double layer, adjoint double layer) and `s`
(hypersingular). -/
theorem C53_laplace {env : Env ℝ ℝ} {asm asm' : Assembler ℝ ℝ} {trial test trial' test' : Space ℝ ℝ} {BT BR : Basis ℝ ℝ}
    (h : SpacePair env o trial test famT famR GT GR BT BR Q t)
    (h' : SpacePair env o trial' test' famT famR GT' GR' BT BR Q t) (hφ : env.cast = id)
    (ho : ScaledOperator id o s laplaceGreen laplaceGreen asm asm' (e + 1)) (hb : 0 < o.batchSize)
    (hn : RenumberedPair test.fs trial.fs test'.fs trial'.fs numT numR) (hs : 0 < s) (hA : Orthonormal3 A)
    (gT : ∀ c ∈ test.fs.grid.entityIter 2, SimilarCell s A b GT c.localIndex GT' (numT 2 c.localIndex))
    (gR : ∀ c ∈ trial.fs.grid.entityIter 2, SimilarCell s A b GR c.localIndex GR' (numR 2 c.localIndex)) :
    ∃ (M M' : List ℝ) (pT pR : Nat → Nat),
      (∀ out, Assemble env asm trial test out ↔ out = some M) ∧
      (∀ out, Assemble env asm' trial' test' out ↔ out = some M') ∧
      SameDofs test.fs test'.fs (numT 2) pT ∧ SameDofs trial.fs trial'.fs (numR 2) pR ∧
      ∀ i j, i < test.fs.globalSize → j < trial.fs.globalSize →
        M'[pT i + test.fs.globalSize * pR j]? = (M[i + test.fs.globalSize * j]?).map fun x => s ^ e * x := by
  obtain ⟨M, M', p, q, h1, h2, h3, h4, h5⟩ := C53_similarity (φ := RingHom.id ℝ) h h' hφ ho hb hn hs.ne' hA
    (laplaceGreen_similar hs hA) gT gR
  refine ⟨M, M', p, q, h1, h2, h3, h4, fun i j hi hj => ?_⟩
  rw [h5 i j hi hj, show (1 / s * (RingHom.id ℝ) s ^ (e + 1)) = s ^ e by
    rw [RingHom.id_apply, pow_succ]; field_simp]

/-- **C53** for the Helmholtz operators in exact complex arithmetic: the wavenumber on the scaled surfaces is divided by
`s`. -/
theorem C53_helmholtz {env : Env ℝ ℂ} {asm asm' : Assembler ℝ ℂ} {trial test trial' test' : Space ℝ ℂ} {BT BR : Basis ℝ ℂ}
    {w : ℝ} (h : SpacePair env o trial test famT famR GT GR BT BR Q t)
    (h' : SpacePair env o trial' test' famT famR GT' GR' BT BR Q t) (hφ : env.cast = Complex.ofReal)
    (ho : ScaledOperator Complex.ofReal o s (helmholtzGreen w) (helmholtzGreen (w / s)) asm asm' (e + 1))
    (hb : 0 < o.batchSize)
    (hn : RenumberedPair test.fs trial.fs test'.fs trial'.fs numT numR) (hs : 0 < s) (hA : Orthonormal3 A)
    (gT : ∀ c ∈ test.fs.grid.entityIter 2, SimilarCell s A b GT c.localIndex GT' (numT 2 c.localIndex))
    (gR : ∀ c ∈ trial.fs.grid.entityIter 2, SimilarCell s A b GR c.localIndex GR' (numR 2 c.localIndex)) :
    ∃ (M M' : List ℂ) (pT pR : Nat → Nat),
      (∀ out, Assemble env asm trial test out ↔ out = some M) ∧
      (∀ out, Assemble env asm' trial' test' out ↔ out = some M') ∧
      SameDofs test.fs test'.fs (numT 2) pT ∧ SameDofs trial.fs trial'.fs (numR 2) pR ∧
      ∀ i j, i < test.fs.globalSize → j < trial.fs.globalSize →
        M'[pT i + test.fs.globalSize * pR j]? = (M[i + test.fs.globalSize * j]?).map fun x => (s : ℂ) ^ e * x := by
  have hk := helmholtzGreen_similar (b := b) hs hA (w / s)
  rw [mul_div_cancel₀ _ hs.ne'] at hk
  obtain ⟨M, M', p, q, h1, h2, h3, h4, h5⟩ := C53_similarity (φ := Complex.ofRealHom) h h' hφ ho hb hn hs.ne' hA
    hk gT gR
  refine ⟨M, M', p, q, h1, h2, h3, h4, fun i j hi hj => ?_⟩
  rw [h5 i j hi hj, show (1 / (s : ℂ) * Complex.ofRealHom s ^ (e + 1)) = (s : ℂ) ^ e by
    have hs0 : (s : ℂ) ≠ 0 := by exact_mod_cast hs.ne'
    rw [Complex.ofRealHom_eq_coe, pow_succ]; field_simp]
end

/-! ### C54 -/

/-- A Laplace operator and the Helmholtz operator of the same kind with wavenumber 0, with the same options; both
kernels evaluate `K`. -/
inductive ZeroWavenumber [Add T] [Sub T] [Mul T] [Div T] [Neg T] [Zero R] [Mul R] [Neg R] (cast : R → T) (o : Options)
    (K : MathKernel R T) : Assembler R T → Assembler R T → Prop
  | singleLayer {k : Kernel R T} {k' : R → Kernel R T} : k.Computes .value K → (k' 0).Computes .value K →
      ZeroWavenumber cast o K (Laplace.singleLayer k o) (Helmholtz.singleLayer k' 0 o)
  | doubleLayer {k : Kernel R T} {k' : R → Kernel R T} : k.Computes .valueDeriv K → (k' 0).Computes .valueDeriv K →
      ZeroWavenumber cast o K (Laplace.doubleLayer k o) (Helmholtz.doubleLayer k' 0 o)
  | adjoint {k : Kernel R T} {k' : R → Kernel R T} : k.Computes .valueDeriv K → (k' 0).Computes .valueDeriv K →
      ZeroWavenumber cast o K (Laplace.adjointDoubleLayer k o) (Helmholtz.adjointDoubleLayer k' 0 o)
  | hypersingular {k : Kernel R T} {k' : R → Kernel R T} : k.Computes .valueDeriv K → (k' 0).Computes .valueDeriv K →
      ZeroWavenumber cast o K (Laplace.hypersingular k o) (Helmholtz.hypersingular cast k' 0 o)

/-- **C54.** The Helmholtz operators with wavenumber 0 have the matrices of the Laplace operators. (The kernel of both is
`laplaceGreenC` by `helmholtzGreen_zero`.) -/
theorem C54_wavenumber_zero [Field R] [Field T] {env : Env R T} {asm asm' : Assembler R T} {trial test : Space R T}
    {o : Options} {famT famR : CellType → ElementDofs} {K : MathKernel R T} {GT GR : Geometry R} {BT BR : Basis R T}
    {Q : Quadrature R} {t : CellType} (φ : R →+* T)
    (h : SpacePair env o trial test famT famR GT GR BT BR Q t) (hφ : env.cast = φ)
    (ho : ZeroWavenumber φ o K asm asm') (hb : 0 < o.batchSize) :
    ∃ M : List T, (∀ out, Assemble env asm trial test out ↔ out = some M) ∧
      (∀ out, Assemble env asm' trial test out ↔ out = some M) := by
  have key : ∃ F, OperatorWith env.cast o K asm F ∧ OperatorWith env.cast o K asm' F := by
    rw [hφ]
    cases ho with
    | singleLayer h1 h2 => exact ⟨_, .laplaceSingleLayer h1, .helmholtzSingleLayer h2⟩
    | doubleLayer h1 h2 => exact ⟨_, .laplaceDoubleLayer h1, .helmholtzDoubleLayer h2⟩
    | adjoint h1 h2 => exact ⟨_, .laplaceAdjoint h1, .helmholtzAdjoint h2⟩
    | @hypersingular k k' h1 h2 =>
      refine ⟨_, .laplaceHypersingular h1, ?_⟩
      have := OperatorWith.helmholtzHypersingular (cast := φ) (o := o) h2
      have e : helmholtzHypF (T := T) φ 0 = curlCurlF := by
        funext K U V TG RG
        simp [helmholtzHypF]
      rwa [e] at this
  obtain ⟨F, k1, k2⟩ := key
  obtain ⟨M, m1, m2, m3⟩ := C14_operators h k1 hb
  obtain ⟨N, n1, n2, n3⟩ := C14_operators h k2 hb
  have : M = N := matrix_ext m2 n2 fun i j hi hj => by rw [m3 i j hi hj, n3 i j hi hj]
  exact ⟨M, m1, by rw [this]; exact n1⟩

/-- C54: the hypotheses can be met. -/
example : ∃ M : List Rat,
    (∀ out, Assemble exEnv (Laplace.hypersingular (kernelOf squareKernel) smallOptions)
      (Examples.spaceOf octFs p1 octGeometry p1Basis) (Examples.spaceOf octFs p1 octGeometry p1Basis) out ↔ out = some M) ∧
    ∀ out, Assemble exEnv (Helmholtz.hypersingular (RingHom.id Rat) (fun _ => kernelOf squareKernel) 0 smallOptions)
      (Examples.spaceOf octFs p1 octGeometry p1Basis) (Examples.spaceOf octFs p1 octGeometry p1Basis) out ↔ out = some M :=
  C54_wavenumber_zero (RingHom.id Rat) (octSpacePair octFs_space.1 octFs_space.2) rfl
    (.hypersingular (k' := fun _ => kernelOf squareKernel) (kernelOf_computes squareKernel _)
      (kernelOf_computes squareKernel _)) (by decide)

/-! ### C53: the hypotheses can be met, in real arithmetic -/

namespace Examples

/-- The octahedron with its true integration element and unit normals, in real arithmetic. -/
noncomputable def realOct : Geometry ℝ :=
  { point := fun c x i => (octVertex (octCell c 0) i : ℝ) +
      x.getD 0 0 * ((octVertex (octCell c 1) i : ℝ) - (octVertex (octCell c 0) i : ℝ)) +
      x.getD 1 0 * ((octVertex (octCell c 2) i : ℝ) - (octVertex (octCell c 0) i : ℝ))
    normal := fun c _ i => ((octVertex (octCell c 0) i + octVertex (octCell c 1) i + octVertex (octCell c 2) i : Rat) : ℝ) /
      Real.sqrt 3
    jacobian := fun c _ j => ((octVertex (octCell c (j / 3 + 1)) (j % 3) - octVertex (octCell c 0) (j % 3) : Rat) : ℝ)
    jdet := fun _ _ => Real.sqrt 3 }

/-- The degree 1 basis functions. -/
noncomputable def realP1 : Basis ℝ ℝ := fun _ a i x =>
  match a, i with
  | 0, 0 => 1 - x.getD 0 0 - x.getD 1 0
  | 1, 0 => x.getD 0 0
  | 2, 0 => x.getD 1 0
  | 0, 1 => -1
  | 0, 2 => -1
  | 1, 1 => 1
  | 2, 2 => 1
  | _, _ => 0

noncomputable def realRules : Quadrature ℝ :=
  { regular := fun _ => [([1/3, 1/3], 1/4), ([1/2, 1/4], 1/4)]
    singular := fun _ _ con =>
      [([1/3, 1/3], [1/4, 1/2], con.connectivityDimension + 1),
        ([1/4, 1/2], [1/3, 1/3], con.connectivityDimension + 1)] }

open Classical in
noncomputable def realEnv : Env ℝ ℝ :=
  envOf id realRules (fun x => decide (1/10000000000 < |x|)) (fun shape rows cols data => some (csrOf shape rows cols data))

theorem realEnv_regular : RegularOk realEnv smallOptions realRules .triangle where
  degree := by simp only [realRules, List.length_cons, List.length_nil]; decide
  rule := rfl
  points := by
    intro p hp
    simp only [realRules, List.mem_cons, List.not_mem_nil, or_false] at hp
    rcases hp with rfl | rfl <;> rfl

theorem realEnv_singular : SingularOk realEnv smallOptions realRules .triangle .triangle where
  degree := ⟨4, by decide, fun _ _ => rfl⟩
  points := by
    intro con _ p hp
    simp only [realRules, List.mem_cons, List.not_mem_nil, or_false] at hp
    rcases hp with rfl | rfl <;> exact ⟨rfl, rfl⟩

theorem realPair {fs : FunctionSpace} (h : SerialSpace fs p1) (G : Geometry ℝ)
    (hg : fs.grid = octahedron ∨ fs.grid = octahedronTurned) :
    SpacePair realEnv smallOptions (Examples.spaceOf fs p1 G realP1) (Examples.spaceOf fs p1 G realP1) p1 p1
      G G realP1 realP1 realRules .triangle where
  testSpace := h
  trialSpace := h
  testType := by show fs.grid.entityTypes 2 = _; rcases hg with hg | hg <;> rw [hg] <;> decide
  trialType := by show fs.grid.entityTypes 2 = _; rcases hg with hg | hg <;> rw [hg] <;> decide
  testSurface := by show Surface fs.grid; rcases hg with hg | hg <;> rw [hg] <;> exact ⟨rfl, rfl⟩
  trialSurface := by show Surface fs.grid; rcases hg with hg | hg <;> rw [hg] <;> exact ⟨rfl, rfl⟩
  testGeometry := spaceOf_geometry fs p1 G realP1
  trialGeometry := spaceOf_geometry fs p1 G realP1
  testBasis := spaceOf_tabulate fs p1 G realP1
  trialBasis := spaceOf_tabulate fs p1 G realP1
  rule := realEnv_regular
  same := fun _ => ⟨rfl, rfl, by
      show fs.grid.Vertices
      rcases hg with hg | hg <;> rw [hg]
      · exact octahedron_vertices
      · exact octahedronTurned_vertices,
    by
      show ∃ ev, fs.grid.Edges ev ∧ fs.grid.Conforming ev
      rcases hg with hg | hg <;> rw [hg]
      · exact ⟨_, octahedron_edges, octahedron_conforming⟩
      · exact ⟨_, mkGrid_edges _ _ _ _ (by decide), octahedronTurned_conforming⟩, realEnv_singular⟩

/-- A quarter turn around the third axis. -/
def realTurn (i j : Nat) : ℝ := (quarterTurn i j : ℝ)

theorem realTurn_orthonormal : Orthonormal3 realTurn := by
  intro j k hj hk
  have := quarterTurn_orthonormal j k hj hk
  simp only [realTurn]
  have := congrArg (fun q : Rat => (q : ℝ)) this
  push_cast at this
  rw [this]
  split <;> simp

/-- The octahedron turned, scaled by `s` and shifted, with the new numbers. -/
noncomputable def realScaled (s : ℝ) : Geometry ℝ :=
  { point := fun c x i => s * matVec realTurn (realOct.point (7 - c) x) i + 1
    normal := fun c x i => matVec realTurn (realOct.normal (7 - c) x) i
    jacobian := fun c x k => s * matVec realTurn (fun j => realOct.jacobian (7 - c) x (3 * (k / 3) + j)) (k % 3)
    jdet := fun c x => s * s * realOct.jdet (7 - c) x }

/-- C53: the Laplace single layer matrix on an octahedron scaled by `s` is `s^3` times that on the octahedron. -/
example (s : ℝ) (hs : 0 < s) : ∃ fs fs', SerialSpace fs p1 ∧ SerialSpace fs' p1 ∧ fs.grid = octahedron ∧
    fs'.grid = octahedronTurned ∧ ∃ (M M' : List ℝ) (p q : Nat → Nat),
      (∀ out, Assemble realEnv (Laplace.singleLayer (kernelOf laplaceGreen) smallOptions)
        (Examples.spaceOf fs p1 realOct realP1) (Examples.spaceOf fs p1 realOct realP1) out ↔ out = some M) ∧
      (∀ out, Assemble realEnv (Laplace.singleLayer (kernelOf laplaceGreen) smallOptions)
        (Examples.spaceOf fs' p1 (realScaled s) realP1) (Examples.spaceOf fs' p1 (realScaled s) realP1) out ↔
          out = some M') ∧
      ∀ i j, i < fs.globalSize → j < fs.globalSize →
        M'[p i + fs.globalSize * q j]? = (M[i + fs.globalSize * j]?).map fun x => s ^ 3 * x := by
  obtain ⟨fs, h, hg⟩ := octSpace
  obtain ⟨fs', h', hg'⟩ := octTurnedSpace
  have hgeo : ∀ c ∈ fs.grid.entityIter 2,
      SimilarCell s realTurn (fun _ => 1) realOct c.localIndex (realScaled s) (octNum 2 c.localIndex) := by
    rw [hg]
    have : ∀ c ∈ octahedron.entityIter 2, 7 - (7 - c.localIndex) = c.localIndex := by decide
    intro c hc
    constructor
    · intro x i _; simp only [realScaled, octNum, this c hc]
    · intro x i _; simp only [realScaled, octNum, this c hc]
    · intro x i j hi hj
      simp only [realScaled, octNum, this c hc]
      rw [show (3 * j + i) / 3 = j by omega, show (3 * j + i) % 3 = i by omega]
    · intro x; simp only [realScaled, octNum, this c hc]
  obtain ⟨M, M', p, q, h1, h2, _, _, h3⟩ := C53_laplace (s := s) (A := realTurn)
    (b := fun _ => 1) (realPair h realOct (.inl hg)) (realPair h' (realScaled s) (.inr hg')) rfl
    (.laplaceSingleLayer (kernelOf_computes laplaceGreen _) (kernelOf_computes laplaceGreen _))
    (by decide) (octRenumberedPair hg hg') hs realTurn_orthonormal hgeo hgeo
  exact ⟨fs, fs', h, h', hg, hg', M, M', p, q, h1, h2, h3⟩

end Examples
end Bempp
