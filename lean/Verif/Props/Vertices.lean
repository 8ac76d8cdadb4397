import Verif.Spec.Vertices
import Verif.Props.Green
import Mathlib.LinearAlgebra.Matrix.Adjugate
import Mathlib.LinearAlgebra.Matrix.Determinant.Basic
/-
C75: moving, scaling and mirroring the vertices of a surface.
-/
namespace Bempp
open Examples

/-! ### Orthogonal matrices -/

section
variable {A : Nat → Nat → ℝ}

def mat3 (A : Nat → Nat → ℝ) : Matrix (Fin 3) (Fin 3) ℝ := Matrix.of fun i j => A i j

theorem mat3_det : (mat3 A).det = detA A := by
  rw [Matrix.det_fin_three]
  simp only [mat3, Matrix.of_apply, detA]
  norm_num
  ring

theorem mat3_orth (hA : Orthonormal3 A) : (mat3 A).transpose * mat3 A = 1 := by
  ext j k
  have h := hA j k j.2 k.2
  rw [Matrix.mul_apply, Fin.sum_univ_three, Matrix.one_apply]
  simp only [mat3, Matrix.transpose_apply, Matrix.of_apply, Fin.ext_iff]
  exact h

theorem detA_sq (hA : Orthonormal3 A) : detA A * detA A = 1 := by
  have := congrArg Matrix.det (mat3_orth hA)
  rwa [Matrix.det_mul, Matrix.det_transpose, Matrix.det_one, mat3_det] at this

theorem mat3_adjugate (hA : Orthonormal3 A) : (mat3 A).adjugate = detA A • (mat3 A).transpose := by
  have h : mat3 A * (mat3 A).transpose = 1 := mul_eq_one_comm.mp (mat3_orth hA)
  calc (mat3 A).adjugate = (mat3 A).adjugate * (mat3 A * (mat3 A).transpose) := by rw [h, mul_one]
    _ = ((mat3 A).adjugate * mat3 A) * (mat3 A).transpose := by rw [mul_assoc]
    _ = _ := by rw [Matrix.adjugate_mul, mat3_det, smul_mul_assoc, one_mul]

/-- An orthogonal matrix maps the cross product to the cross product, up to the sign of the determinant. -/
theorem cross3_matVec (hA : Orthonormal3 A) (u v : Nat → ℝ) (i : Nat) (hi : i < 3) :
    cross3 (matVec A u) (matVec A v) i = detA A * matVec A (cross3 u v) i := by
  have h := mat3_adjugate hA
  rw [Matrix.adjugate_fin_three] at h
  have e : ∀ j i : Fin 3, _ := fun j i => congrFun (congrFun h j) i
  have e00 := e 0 0; have e01 := e 0 1; have e02 := e 0 2
  have e10 := e 1 0; have e11 := e 1 1; have e12 := e 1 2
  have e20 := e 2 0; have e21 := e 2 1; have e22 := e 2 2
  clear e h
  simp [mat3] at e00 e01 e02 e10 e11 e12 e20 e21 e22
  rcases (by omega : i = 0 ∨ i = 1 ∨ i = 2) with rfl | rfl | rfl <;> simp only [cross3, matVec]
  · linear_combination (u 1 * v 2 - u 2 * v 1) * e00 + (u 2 * v 0 - u 0 * v 2) * e10 + (u 0 * v 1 - u 1 * v 0) * e20
  · linear_combination (u 1 * v 2 - u 2 * v 1) * e01 + (u 2 * v 0 - u 0 * v 2) * e11 + (u 0 * v 1 - u 1 * v 0) * e21
  · linear_combination (u 1 * v 2 - u 2 * v 1) * e02 + (u 2 * v 0 - u 0 * v 2) * e12 + (u 0 * v 1 - u 1 * v 0) * e22

/-! ### Moved vertices give a moved surface -/

theorem weighted_moved (s : ℝ) (b : Nat → ℝ) (l : List Nat) (f : Nat → ℝ) (W : Nat → Nat → ℝ) (i : Nat) :
    (l.map fun k => f k * (s * matVec A (W k) i + b i)).sum =
      s * matVec A (fun j => (l.map fun k => f k * W k j).sum) i + (l.map f).sum * b i := by
  induction l with
  | nil => simp [matVec]
  | cons k l ih =>
    rw [List.map_cons, List.sum_cons, ih]
    simp only [List.map_cons, List.sum_cons, matVec]
    ring

/-- `A` times the sign of its determinant: the rotation part. -/
theorem Orthonormal3.rotation (hA : Orthonormal3 A) : Orthonormal3 (fun i j => detA A * A i j) := by
  intro j k hj hk
  have := hA j k hj hk
  have h2 := detA_sq hA
  rw [← this]
  linear_combination (A 0 j * A 0 k + A 1 j * A 1 k + A 2 j * A 2 k) * h2

theorem norm3_moved (hA : Orthonormal3 A) {s : ℝ} (hs : 0 < s) {u v u' v' : Nat → ℝ}
    (hu : ∀ i, i < 3 → u' i = s * matVec A u i) (hv : ∀ i, i < 3 → v' i = s * matVec A v i) :
    (∀ i, i < 3 → cross3 u' v' i = s * s * (detA A * matVec A (cross3 u v) i)) ∧
      norm3 (cross3 u' v') = s * s * norm3 (cross3 u v) := by
  have h1 : ∀ i, i < 3 → cross3 u' v' i = s * s * (detA A * matVec A (cross3 u v) i) := by
    intro i hi
    rw [← cross3_matVec hA u v i hi]
    rcases (by omega : i = 0 ∨ i = 1 ∨ i = 2) with rfl | rfl | rfl <;> simp only [cross3] <;>
      rw [hu _ (by omega), hu _ (by omega), hv _ (by omega), hv _ (by omega)] <;> ring
  refine ⟨h1, ?_⟩
  unfold norm3
  rw [h1 0 (by omega), h1 1 (by omega), h1 2 (by omega)]
  have hd := dot_matVec hA (cross3 u v) (cross3 u v)
  have h2 := detA_sq hA
  rw [show s * s * (detA A * matVec A (cross3 u v) 0) * (s * s * (detA A * matVec A (cross3 u v) 0)) +
      s * s * (detA A * matVec A (cross3 u v) 1) * (s * s * (detA A * matVec A (cross3 u v) 1)) +
      s * s * (detA A * matVec A (cross3 u v) 2) * (s * s * (detA A * matVec A (cross3 u v) 2)) =
      (s * s) ^ 2 * (cross3 u v 0 * cross3 u v 0 + cross3 u v 1 * cross3 u v 1 + cross3 u v 2 * cross3 u v 2) by
    linear_combination (s * s) ^ 2 * hd + (s * s) ^ 2 * (matVec A (cross3 u v) 0 * matVec A (cross3 u v) 0 +
      matVec A (cross3 u v) 1 * matVec A (cross3 u v) 1 + matVec A (cross3 u v) 2 * matVec A (cross3 u v) 2) * h2,
    Real.sqrt_mul (sq_nonneg _), Real.sqrt_sq (mul_pos hs hs).le]

/-- The surface with moved vertices is the image of the surface, as C53 asks; a reflection is written as the rotation
`-A` combined with the scaling by `-s`. -/
theorem similarCell_vertices {N : ShapeFunctions} (hN : N.SumToOne) {V V' : Nat → Nat → Nat → ℝ} {s : ℝ} {b : Nat → ℝ}
    {c c' : Nat} (hs : 0 < s) (hA : Orthonormal3 A)
    (hV : ∀ k i, k < N.n → i < 3 → V' c' k i = s * matVec A (V c k) i + b i) :
    SimilarCell (detA A * s) (fun i j => detA A * A i j) b (vertexGeometry N V) c (vertexGeometry N V') c' := by
  have h2 := detA_sq hA
  have hm : ∀ u i, detA A * s * matVec (fun i j => detA A * A i j) u i = s * matVec A u i := by
    intro u i
    simp only [matVec]
    linear_combination s * (A i 0 * u 0 + A i 1 * u 1 + A i 2 * u 2) * h2
  have hsum : ∀ (f : Nat → ℝ) i, i < 3 → ((List.range N.n).map fun k => f k * V' c' k i).sum =
      s * matVec A (fun j => ((List.range N.n).map fun k => f k * V c k j).sum) i +
        ((List.range N.n).map f).sum * b i := by
    intro f i hi
    rw [← weighted_moved, List.map_congr_left]
    intro k hk
    rw [hV k i (List.mem_range.mp hk) hi]
  have ht : ∀ j x i, i < 3 → ((List.range N.n).map fun k => N.deriv j k x * V' c' k i).sum =
      s * matVec A (fun i => ((List.range N.n).map fun k => N.deriv j k x * V c k i).sum) i := by
    intro j x i hi
    rw [hsum _ i hi, hN.deriv j x, zero_mul, add_zero]
  constructor
  · intro x i hi
    rw [hm]
    simp only [vertexGeometry]
    rw [hsum (fun k => N.value k x) i hi, hN.value x, one_mul]
  · intro x i hi
    obtain ⟨e1, e2⟩ := norm3_moved hA hs (ht 0 x) (ht 1 x)
    simp only [vertexGeometry]
    rw [e1 i hi, e2, mul_div_mul_left _ _ (mul_pos hs hs).ne']
    simp only [matVec]
    ring
  · intro x i j hi _
    rw [hm]
    simp only [vertexGeometry]
    rw [show (3 * j + i) / 3 = j by omega, show (3 * j + i) % 3 = i by omega, ht j x i hi]
    simp only [matVec]
    rw [show (3 * j + 0) / 3 = j by omega, show (3 * j + 1) / 3 = j by omega, show (3 * j + 2) / 3 = j by omega,
      show (3 * j + 0) % 3 = 0 by omega, show (3 * j + 1) % 3 = 1 by omega, show (3 * j + 2) % 3 = 2 by omega]
  · intro x
    obtain ⟨_, e2⟩ := norm3_moved hA hs (ht 0 x) (ht 1 x)
    simp only [vertexGeometry]
    rw [e2]
    linear_combination -s * s * norm3 (cross3 (fun i => ((List.range N.n).map fun k => N.deriv 0 k x * V c k i).sum)
      (fun i => ((List.range N.n).map fun k => N.deriv 1 k x * V c k i).sum)) * h2

/-- The signs do not change the map. -/
theorem moved_rotation (hA : Orthonormal3 A) (s : ℝ) (b : Nat → ℝ) (x : List ℝ) :
    moved (detA A * s) (fun i j => detA A * A i j) b x = moved s A b x := by
  have h2 := detA_sq hA
  unfold moved
  apply List.map_congr_left
  intro i _
  simp only [matVec]
  linear_combination s * (A i 0 * x.getD 0 0 + A i 1 * x.getD 1 0 + A i 2 * x.getD 2 0) * h2

theorem SimilarKernel.rotation {T : Type} [Field T] {φ : ℝ →+* T} {s : ℝ} {b : Nat → ℝ} {κ : T} {K K' : MathKernel ℝ T}
    (hA : Orthonormal3 A) (h : SimilarKernel φ s A b κ K K') :
    SimilarKernel φ (detA A * s) (fun i j => detA A * A i j) b κ K K' where
  value := by
    intro x y hx hy
    rw [moved_rotation hA, moved_rotation hA, h.value x y hx hy]
  gradient := by
    intro x y hx hy i hi
    have := h.gradient x y hx hy i hi
    rw [moved_rotation hA, moved_rotation hA]
    simp only [matVec, map_mul] at this ⊢
    linear_combination φ (detA A) * this

theorem ScaledOperator.rotation {T : Type} [Field T] {cast : ℝ → T} {o : Options} {s : ℝ} {K K' : MathKernel ℝ T}
    {asm asm' : Assembler ℝ T} {e : Nat} (hA : Orthonormal3 A) (h : ScaledOperator cast o s K K' asm asm' e) :
    ScaledOperator cast o (detA A * s) K K' asm asm' e := by
  have h2 := detA_sq hA
  cases h with
  | laplaceSingleLayer h1 h2 => exact .laplaceSingleLayer h1 h2
  | laplaceDoubleLayer h1 h2 => exact .laplaceDoubleLayer h1 h2
  | laplaceAdjoint h1 h2 => exact .laplaceAdjoint h1 h2
  | laplaceHypersingular h1 h2 => exact .laplaceHypersingular h1 h2
  | @helmholtzSingleLayer k k' w w' h1 h2 hw => exact .helmholtzSingleLayer h1 h2 (by
      rw [hw]; linear_combination -s ^ 2 * w' ^ 2 * detA_sq hA)
  | @helmholtzDoubleLayer k k' w w' h1 h2 hw => exact .helmholtzDoubleLayer h1 h2 (by
      rw [hw]; linear_combination -s ^ 2 * w' ^ 2 * detA_sq hA)
  | @helmholtzAdjoint k k' w w' h1 h2 hw => exact .helmholtzAdjoint h1 h2 (by
      rw [hw]; linear_combination -s ^ 2 * w' ^ 2 * detA_sq hA)
  | @helmholtzHypersingular k k' w w' h1 h2 hw => exact .helmholtzHypersingular h1 h2 (by
      rw [hw]; linear_combination -s ^ 2 * w' ^ 2 * detA_sq hA)

end

/-! ### C75 -/

section
variable {s : ℝ} {A : Nat → Nat → ℝ} {b : Nat → ℝ} {o : Options} {famT famR : CellType → ElementDofs}
  {NT NR : ShapeFunctions} {VT VR VT' VR' : Nat → Nat → Nat → ℝ} {Q : Quadrature ℝ} {t : CellType}
  {numT numR : Nat → Nat → Nat} {e : Nat}

/-- **C75** for the Laplace operators in exact real arithmetic: if all vertices are mapped by `x ↦ s A x + b` with `s`
positive and an orthogonal `A`, the matrices are multiplied by `s^3` (single layer), `± s^2` (double layer, adjoint
double layer) and `s` (hypersingular), where the sign is the determinant of `A`: mirroring the vertices of a surface
turns its normals around. -/
theorem C75_laplace {env : Env ℝ ℝ} {asm asm' : Assembler ℝ ℝ} {trial test trial' test' : Space ℝ ℝ} {BT BR : Basis ℝ ℝ}
    (h : SpacePair env o trial test famT famR (vertexGeometry NT VT) (vertexGeometry NR VR) BT BR Q t)
    (h' : SpacePair env o trial' test' famT famR (vertexGeometry NT VT') (vertexGeometry NR VR') BT BR Q t)
    (hφ : env.cast = id) (ho : ScaledOperator id o s laplaceGreen laplaceGreen asm asm' (e + 1)) (hb : 0 < o.batchSize)
    (hn : RenumberedPair test.fs trial.fs test'.fs trial'.fs numT numR) (hs : 0 < s) (hA : Orthonormal3 A)
    (hT : NT.SumToOne) (hR : NR.SumToOne) (gT : MovedVertices s A b test.fs.grid (numT 2) NT.n VT VT')
    (gR : MovedVertices s A b trial.fs.grid (numR 2) NR.n VR VR') :
    ∃ (M M' : List ℝ) (pT pR : Nat → Nat),
      (∀ out, Assemble env asm trial test out ↔ out = some M) ∧
      (∀ out, Assemble env asm' trial' test' out ↔ out = some M') ∧
      SameDofs test.fs test'.fs (numT 2) pT ∧ SameDofs trial.fs trial'.fs (numR 2) pR ∧
      ∀ i j, i < test.fs.globalSize → j < trial.fs.globalSize →
        M'[pT i + test.fs.globalSize * pR j]? =
          (M[i + test.fs.globalSize * j]?).map fun x => detA A ^ (e + 1) * s ^ e * x := by
  have h2 := detA_sq hA
  obtain ⟨M, M', p, q, h1, h2, h3, h4, h5⟩ := C53_similarity (φ := RingHom.id ℝ) h h' hφ (ho.rotation hA) hb hn
    (mul_ne_zero (left_ne_zero_of_mul_eq_one h2) hs.ne') hA.rotation
    ((laplaceGreen_similar (b := b) hs hA).rotation hA)
    (fun c hc => similarCell_vertices hT hs hA fun k i hk hi => gT c hc k i hk hi)
    (fun c hc => similarCell_vertices hR hs hA fun k i hk hi => gR c hc k i hk hi)
  refine ⟨M, M', p, q, h1, h2, h3, h4, fun i j hi hj => ?_⟩
  rw [h5 i j hi hj, show (1 / s * (RingHom.id ℝ) (detA A * s) ^ (e + 1)) = detA A ^ (e + 1) * s ^ e by
    rw [RingHom.id_apply, mul_pow, pow_succ s]; field_simp]

/-- **C75** for the Helmholtz operators in exact complex arithmetic: the wavenumber on the second surfaces is divided by
`s`. -/
theorem C75_helmholtz {env : Env ℝ ℂ} {asm asm' : Assembler ℝ ℂ} {trial test trial' test' : Space ℝ ℂ}
    {BT BR : Basis ℝ ℂ} {w : ℝ}
    (h : SpacePair env o trial test famT famR (vertexGeometry NT VT) (vertexGeometry NR VR) BT BR Q t)
    (h' : SpacePair env o trial' test' famT famR (vertexGeometry NT VT') (vertexGeometry NR VR') BT BR Q t)
    (hφ : env.cast = Complex.ofReal)
    (ho : ScaledOperator Complex.ofReal o s (helmholtzGreen w) (helmholtzGreen (w / s)) asm asm' (e + 1))
    (hb : 0 < o.batchSize)
    (hn : RenumberedPair test.fs trial.fs test'.fs trial'.fs numT numR) (hs : 0 < s) (hA : Orthonormal3 A)
    (hT : NT.SumToOne) (hR : NR.SumToOne) (gT : MovedVertices s A b test.fs.grid (numT 2) NT.n VT VT')
    (gR : MovedVertices s A b trial.fs.grid (numR 2) NR.n VR VR') :
    ∃ (M M' : List ℂ) (pT pR : Nat → Nat),
      (∀ out, Assemble env asm trial test out ↔ out = some M) ∧
      (∀ out, Assemble env asm' trial' test' out ↔ out = some M') ∧
      SameDofs test.fs test'.fs (numT 2) pT ∧ SameDofs trial.fs trial'.fs (numR 2) pR ∧
      ∀ i j, i < test.fs.globalSize → j < trial.fs.globalSize →
        M'[pT i + test.fs.globalSize * pR j]? =
          (M[i + test.fs.globalSize * j]?).map fun x => (detA A : ℂ) ^ (e + 1) * (s : ℂ) ^ e * x := by
  have h2 := detA_sq hA
  have hk := helmholtzGreen_similar (b := b) hs hA (w / s)
  rw [mul_div_cancel₀ _ hs.ne'] at hk
  obtain ⟨M, M', p, q, h1, h2, h3, h4, h5⟩ := C53_similarity (φ := Complex.ofRealHom) h h' hφ (ho.rotation hA) hb hn
    (mul_ne_zero (left_ne_zero_of_mul_eq_one h2) hs.ne') hA.rotation (hk.rotation hA)
    (fun c hc => similarCell_vertices hT hs hA fun k i hk hi => gT c hc k i hk hi)
    (fun c hc => similarCell_vertices hR hs hA fun k i hk hi => gR c hc k i hk hi)
  refine ⟨M, M', p, q, h1, h2, h3, h4, fun i j hi hj => ?_⟩
  rw [h5 i j hi hj, show (1 / (s : ℂ) * Complex.ofRealHom (detA A * s) ^ (e + 1)) =
      (detA A : ℂ) ^ (e + 1) * (s : ℂ) ^ e by
    have hs0 : (s : ℂ) ≠ 0 := by exact_mod_cast hs.ne'
    rw [Complex.ofRealHom_eq_coe, Complex.ofReal_mul, mul_pow, pow_succ (s : ℂ)]; field_simp]

/-- The sign is 1 or -1. -/
theorem C75_sign (hA : Orthonormal3 A) : detA A = 1 ∨ detA A = -1 := mul_self_eq_one_iff.mp (detA_sq hA)

/-- Flat triangles and bilinear quadrilaterals are covered. -/
theorem C75_cells : triangleFunctions.SumToOne ∧ quadrilateralFunctions.SumToOne := by
  refine ⟨⟨fun x => ?_, fun j x => ?_⟩, ⟨fun x => ?_, fun j x => ?_⟩⟩
  · simp [triangleFunctions, List.range_succ]
  · simp only [triangleFunctions, List.range_succ, List.range_zero, List.nil_append, List.cons_append, List.map_cons,
      List.map_nil, List.sum_cons, List.sum_nil]
    rcases j with _ | j <;> norm_num
  · simp [quadrilateralFunctions, List.range_succ]; ring
  · simp only [quadrilateralFunctions, List.range_succ, List.range_zero, List.nil_append, List.cons_append,
      List.map_cons, List.map_nil, List.sum_cons, List.sum_nil]
    rcases j with _ | j <;> norm_num

end

/-! ### C75: the hypotheses can be met -/

namespace Examples

/-- The vertices of the cells of the octahedron. -/
noncomputable def octVertices (c k i : Nat) : ℝ := (octVertex (octCell c k) i : ℝ)

/-- Mirroring at the plane on which the first coordinate is 0. -/
def mirror (i j : Nat) : ℝ := if i = j then (if i = 0 then -1 else 1) else 0

theorem mirror_orthonormal : Orthonormal3 mirror := by
  intro j k hj hk
  rcases (by omega : j = 0 ∨ j = 1 ∨ j = 2) with rfl | rfl | rfl <;>
    rcases (by omega : k = 0 ∨ k = 1 ∨ k = 2) with rfl | rfl | rfl <;> norm_num [mirror]

theorem mirror_det : detA mirror = -1 := by norm_num [detA, mirror]

/-- The octahedron mirrored, scaled by `s` and shifted, with other numbers. -/
noncomputable def mirroredVertices (s : ℝ) (c k i : Nat) : ℝ := s * matVec mirror (octVertices (7 - c) k) i + 1

/-- C75: the Laplace double layer matrix on an octahedron mirrored and scaled by `s` is `-s^2` times that on the
octahedron. -/
example (s : ℝ) (hs : 0 < s) : ∃ fs fs', SerialSpace fs p1 ∧ SerialSpace fs' p1 ∧ fs.grid = octahedron ∧
    fs'.grid = octahedronTurned ∧ ∃ (M M' : List ℝ) (p q : Nat → Nat),
      (∀ out, Assemble realEnv (Laplace.doubleLayer (kernelOf laplaceGreen) smallOptions)
        (Examples.spaceOf fs p1 (vertexGeometry triangleFunctions octVertices) realP1)
        (Examples.spaceOf fs p1 (vertexGeometry triangleFunctions octVertices) realP1) out ↔ out = some M) ∧
      (∀ out, Assemble realEnv (Laplace.doubleLayer (kernelOf laplaceGreen) smallOptions)
        (Examples.spaceOf fs' p1 (vertexGeometry triangleFunctions (mirroredVertices s)) realP1)
        (Examples.spaceOf fs' p1 (vertexGeometry triangleFunctions (mirroredVertices s)) realP1) out ↔ out = some M') ∧
      ∀ i j, i < fs.globalSize → j < fs.globalSize →
        M'[p i + fs.globalSize * q j]? = (M[i + fs.globalSize * j]?).map fun x => -s ^ 2 * x := by
  obtain ⟨fs, h, hg⟩ := octSpace
  obtain ⟨fs', h', hg'⟩ := octTurnedSpace
  have hgeo : MovedVertices s mirror (fun _ => 1) fs.grid (octNum 2) 3 octVertices (mirroredVertices s) := by
    rw [hg]
    have : ∀ c ∈ octahedron.entityIter 2, 7 - (7 - c.localIndex) = c.localIndex := by decide
    intro c hc k i _ _
    simp only [mirroredVertices, octNum, this c hc]
  obtain ⟨M, M', p, q, h1, h2, _, _, h3⟩ := C75_laplace (s := s) (A := mirror) (b := fun _ => 1)
    (realPair h (vertexGeometry triangleFunctions octVertices) (.inl hg))
    (realPair h' (vertexGeometry triangleFunctions (mirroredVertices s)) (.inr hg')) rfl
    (.laplaceDoubleLayer (kernelOf_computes laplaceGreen _) (kernelOf_computes laplaceGreen _))
    (by decide) (octRenumberedPair hg hg') hs mirror_orthonormal C75_cells.1 C75_cells.1 hgeo hgeo
  refine ⟨fs, fs', h, h', hg, hg', M, M', p, q, h1, h2, fun i j hi hj => ?_⟩
  have := h3 i j hi hj
  rw [mirror_det, show (-1 : ℝ) ^ (2 + 1) * s ^ 2 = -s ^ 2 by ring] at this
  exact this

end Examples
end Bempp
