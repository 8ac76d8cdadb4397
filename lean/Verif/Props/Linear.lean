import Verif.Proofs.Values
import Mathlib.Algebra.Field.Basic
import Mathlib.Tactic.Ring
import Mathlib.Algebra.MvPolynomial.PDeriv
/-
C28, C29: assembly is linear in the integrand; the Laplace hypersingular operator annihilates constants.
-/
set_option linter.unusedSectionVars false

namespace Bempp
open Examples

variable {R T : Type}

theorem matrix_ext {n m : Nat} {M N : List T} (hM : M.length = n * m) (hN : N.length = n * m)
    (h : ∀ i j, i < n → j < m → M[i + n * j]? = N[i + n * j]?) : M = N := by
  apply List.ext_getElem?
  intro k
  by_cases hk : k < n * m
  · have hn : 0 < n := by
      rcases Nat.eq_zero_or_pos n with h0 | h0
      · rw [h0, Nat.zero_mul] at hk; omega
      · exact h0
    have := h (k % n) (k / n) (Nat.mod_lt _ hn) (by rw [Nat.div_lt_iff_lt_mul hn, Nat.mul_comm]; exact hk)
    rwa [Nat.mod_add_div] at this
  · rw [List.getElem?_eq_none (by omega), List.getElem?_eq_none (by omega)]

section
variable [AddCommMonoid T]

theorem doubleSum_add (test trial : FunctionSpace) (v w : Entity → Entity → Nat → Nat → T) (i j : Nat) :
    doubleSum test trial (fun c c' a b => v c c' a b + w c c' a b) i j =
      doubleSum test trial v i j + doubleSum test trial w i j := by
  unfold doubleSum
  simp only [← List.sum_map_add]
  congr! 12
  split <;> simp

theorem doubleSum_congr {test trial : FunctionSpace} {v w : Entity → Entity → Nat → Nat → T}
    (h : ∀ c ∈ test.grid.entityIter 2, ∀ c' ∈ trial.grid.entityIter 2, ∀ a b, v c c' a b = w c c' a b)
    (i j : Nat) : doubleSum test trial v i j = doubleSum test trial w i j := by
  unfold doubleSum
  congr 1
  apply List.map_congr_left
  intro c hc
  congr 1
  apply List.map_congr_left
  intro c' hc'
  simp only [h c hc c' hc']

end

theorem doubleSum_mul [NonUnitalNonAssocSemiring T] (test trial : FunctionSpace) (s : T)
    (v : Entity → Entity → Nat → Nat → T) (i j : Nat) :
    doubleSum test trial (fun c c' a b => s * v c c' a b) i j = s * doubleSum test trial v i j := by
  unfold doubleSum
  simp only [← List.sum_map_mul_left]
  congr! 12
  split <;> simp

/-! ### C14 for the operators -/

/-- C14 for each of the eight public operators: the entries of the matrix are the double sums of the quadrature values
of the formula of that operator. -/
theorem C14_operators [Zero R] [Mul R] [Neg R] [AddCommMonoid T] [Mul T] [Sub T] [Div T] [Neg T]
    {env : Env R T} {asm : Assembler R T} {trial test : Space R T} {o : Options}
    {famT famR : CellType → ElementDofs} {F : MathIntegrand T} {K : MathKernel R T} {GT GR : Geometry R}
    {BT BR : Basis R T} {Q : Quadrature R} {t : CellType}
    (h : SpacePair env o trial test famT famR GT GR BT BR Q t) (ho : OperatorWith env.cast o K asm F)
    (hb : 0 < o.batchSize) :
    ∃ M : List T, (∀ out, Assemble env asm trial test out ↔ out = some M) ∧
      M.length = test.fs.globalSize * trial.fs.globalSize ∧
      ∀ i j, i < test.fs.globalSize → j < trial.fs.globalSize → M[i + test.fs.globalSize * j]? =
        some (doubleSum test.fs trial.fs (cellPairValue env.cast F K GT GR BT BR Q test.fs trial.fs) i j) := by
  obtain ⟨hc, ho⟩ := ho.computes
  exact C14_galerkin (h.dense ho hc) (by rw [ho]; exact hb)

/-- The hypotheses can be met: the Helmholtz hypersingular operator with wavenumber 3 on the octahedron. -/
example : ∃ M : List Rat, ∀ out, Assemble exEnv
      (Helmholtz.hypersingular exEnv.cast (fun _ => kernelOf squareKernel) 3 smallOptions)
      (spaceOf octFs p1 octGeometry p1Basis) (spaceOf octFs p1 octGeometry p1Basis) out ↔ out = some M := by
  obtain ⟨M, h, _⟩ := C14_operators (octSpacePair octFs_space.1 octFs_space.2)
    (OperatorWith.helmholtzHypersingular (k := fun _ => kernelOf squareKernel) (w := 3)
      (kernelOf_computes squareKernel _)) (by decide)
  exact ⟨M, h⟩

/-! ### C29 -/

section
variable [Mul R] [NonUnitalSemiring T]
  (cast : R → T) (F F' : MathIntegrand T) (K : MathKernel R T) (GT GR : Geometry R) (BT BR : Basis R T)
  (Q : Quadrature R) (test trial : FunctionSpace) (c c' : Entity) (a b : Nat)

theorem cellPairValue_add :
    cellPairValue cast (fun K U V TG RG => F K U V TG RG + F' K U V TG RG) K GT GR BT BR Q test trial c c' a b
    = cellPairValue cast F K GT GR BT BR Q test trial c c' a b +
      cellPairValue cast F' K GT GR BT BR Q test trial c c' a b := by
  unfold cellPairValue
  split
  · rw [singularValue_eq, singularValue_eq, singularValue_eq, ← List.sum_map_add]
    simp only [singularTerm, add_mul]
  · rw [regularValue_eq, regularValue_eq, regularValue_eq]
    simp only [← List.sum_map_add, regularTerm, add_mul]

theorem cellPairValue_mul (s : T) :
    cellPairValue cast (fun K U V TG RG => s * F K U V TG RG) K GT GR BT BR Q test trial c c' a b
    = s * cellPairValue cast F K GT GR BT BR Q test trial c c' a b := by
  unfold cellPairValue
  split
  · rw [singularValue_eq, singularValue_eq, ← List.sum_map_mul_left]
    simp only [singularTerm, mul_assoc]
  · rw [regularValue_eq, regularValue_eq]
    simp only [← List.sum_map_mul_left, regularTerm, mul_assoc]

end

section
variable [Zero R] [Mul R] [NonUnitalSemiring T]
  {env : Env R T} {asm : Assembler R T} {trial test : Space R T}
  {famT famR : CellType → ElementDofs} {F F' : MathIntegrand T} {K : MathKernel R T} {GT GR : Geometry R}
  {BT BR : Basis R T} {Q : Quadrature R} {t : CellType} {f : Integrand T}

/-- C29: the matrix of the sum of two integrands is the sum of their matrices. -/
theorem C29_sum (h : DenseSetting env asm trial test famT famR F K GT GR BT BR Q t)
    (hb : 0 < asm.options.batchSize) (hf : f.Computes F' asm.derivSize (numDerivs asm.tableDerivs)) :
    ∃ M N : List T, (∀ out, Assemble env asm trial test out ↔ out = some M) ∧
      (∀ out, Assemble env { asm with integrand := f } trial test out ↔ out = some N) ∧
      M.length = test.fs.globalSize * trial.fs.globalSize ∧
      N.length = test.fs.globalSize * trial.fs.globalSize ∧
      ∀ out, Assemble env { asm with integrand := asm.integrand.sum f } trial test out ↔
        out = some (List.zipWith (· + ·) M N) := by
  have h' := h.withOperator (asm' := { asm with integrand := f }) rfl ⟨hf, h.operator.kernel, h.operator.comps⟩
  have hs := h.withOperator (asm' := { asm with integrand := asm.integrand.sum f }) rfl
    ⟨Integrand.sum_computes h.operator.integrand hf, h.operator.kernel, h.operator.comps⟩
  obtain ⟨M, m1, m2, m3⟩ := C14_galerkin h hb
  obtain ⟨N, n1, n2, n3⟩ := C14_galerkin h' hb
  obtain ⟨S, s1, s2, s3⟩ := C14_galerkin hs hb
  refine ⟨M, N, m1, n1, m2, n2, fun out => ?_⟩
  rw [s1]
  have : S = List.zipWith (· + ·) M N := by
    apply matrix_ext s2 (by rw [List.length_zipWith, m2, n2, Nat.min_self])
    intro i j hi hj
    rw [s3 i j hi hj, List.getElem?_zipWith, m3 i j hi hj, n3 i j hi hj]
    refine congrArg some (Eq.trans ?_ (doubleSum_add _ _ _ _ i j))
    congr 1
    funext c c' a b
    exact cellPairValue_add ..
  rw [this]

/-- C29: a scalar factor of the integrand is a factor of the matrix. -/
theorem C29_scalar (h : DenseSetting env asm trial test famT famR F K GT GR BT BR Q t)
    (hb : 0 < asm.options.batchSize) (s : T) :
    ∃ M : List T, (∀ out, Assemble env asm trial test out ↔ out = some M) ∧
      M.length = test.fs.globalSize * trial.fs.globalSize ∧
      ∀ out, Assemble env { asm with integrand := asm.integrand.timesScalar s } trial test out ↔
        out = some (M.map fun x => s * x) := by
  have hs := h.withOperator (asm' := { asm with integrand := asm.integrand.timesScalar s }) rfl
    ⟨Integrand.timesScalar_computes s h.operator.integrand, h.operator.kernel, h.operator.comps⟩
  obtain ⟨M, m1, m2, m3⟩ := C14_galerkin h hb
  obtain ⟨S, s1, s2, s3⟩ := C14_galerkin hs hb
  refine ⟨M, m1, m2, fun out => ?_⟩
  rw [s1]
  have : S = M.map fun x => s * x := by
    apply matrix_ext s2 (by rw [List.length_map, m2])
    intro i j hi hj
    rw [s3 i j hi hj, List.getElem?_map, m3 i j hi hj]
    refine congrArg some (Eq.trans ?_ (doubleSum_mul _ _ _ _ i j))
    congr 1
    funext c c' a b
    exact cellPairValue_mul ..
  rw [this]

end

/-- C29 for the Helmholtz hypersingular operator: its matrix is the matrix of the curl-curl term minus
`wavenumber²` times the matrix of the normal-normal term. -/
theorem C29_helmholtz_hypersingular [Field R] [Field T] {env : Env R T} {trial test : Space R T}
    {famT famR : CellType → ElementDofs} {kernel : R → Kernel R T} {w : R} {o : Options}
    {K : MathKernel R T} {GT GR : Geometry R}
    {BT BR : Basis R T} {Q : Quadrature R} {t : CellType} (cast : R →+* T)
    (h : SpacePair env o trial test famT famR GT GR BT BR Q t) (hk : (kernel w).Computes .valueDeriv K)
    (hb : 0 < o.batchSize) :
    ∃ A B : List T,
      (∀ out, Assemble env { Helmholtz.hypersingular cast kernel w o with
        integrand := hypersingularCurlCurl } trial test out ↔ out = some A) ∧
      (∀ out, Assemble env { Helmholtz.hypersingular cast kernel w o with
        integrand := hypersingularNormalNormal } trial test out ↔ out = some B) ∧
      A.length = test.fs.globalSize * trial.fs.globalSize ∧
      B.length = test.fs.globalSize * trial.fs.globalSize ∧
      ∀ out, Assemble env (Helmholtz.hypersingular cast kernel w o) trial test out ↔
        out = some (List.zipWith (fun x y => x - cast w ^ 2 * y) A B) := by
  have hcc : hypersingularCurlCurl.Computes (curlCurlF (T := T)) 4 (numDerivs 1) := by
    rw [numDerivs_one]; exact curlCurl_computes
  have hnn : hypersingularNormalNormal.Computes (normalNormalF (T := T)) 4 (numDerivs 1) := by
    rw [numDerivs_one]; exact normalNormal_computes
  have h1 := h.dense (asm := { Helmholtz.hypersingular cast kernel w o with
    integrand := hypersingularCurlCurl }) rfl ⟨hcc, hk, rfl⟩
  have h2 := h.dense (asm := { Helmholtz.hypersingular cast kernel w o with
    integrand := hypersingularNormalNormal }) rfl ⟨hnn, hk, rfl⟩
  obtain ⟨B, b1, b2, b3⟩ := C29_scalar h2 hb (cast (-(w * w)))
  obtain ⟨A, N, a1, n1, a2, n2, s1⟩ := C29_sum h1 hb
    (f := hypersingularNormalNormal.timesScalar (cast (-(w * w))))
    (Integrand.timesScalar_computes _ hnn)
  have hN : N = B.map fun x => cast (-(w * w)) * x := Option.some_inj.mp ((b3 _).mp ((n1 _).mpr rfl))
  refine ⟨A, B, a1, b1, a2, b2, fun out => (s1 out).trans ?_⟩
  rw [hN, List.zipWith_map_right]
  have : (fun x y : T => x + cast (-(w * w)) * y) = fun x y => x - cast w ^ 2 * y := by
    funext x y
    rw [map_neg, map_mul]
    ring
  rw [this]


/-! ### C28 -/

section
variable [AddCommMonoid T]

theorem sum_range_single (m k : Nat) (hk : k < m) (x : T) :
    ((List.range m).map fun j => if k = j then x else 0).sum = x := by
  induction m with
  | zero => omega
  | succ m ih =>
    rw [List.range_succ, List.map_append, List.sum_append]
    by_cases h : k < m
    · rw [ih h]
      simp [show k ≠ m by omega]
    · have e : k = m := by omega
      subst e
      have : ((List.range k).map fun j => if k = j then x else 0).sum = 0 := by
        apply List.sum_eq_zero
        intro y hy
        obtain ⟨j, hj, rfl⟩ := List.mem_map.mp hy
        rw [if_neg (by have := List.mem_range.mp hj; omega)]
      rw [this]
      simp

theorem sum_zipIdx (l : List Nat) (f : Nat → T) (k : Nat) :
    ((l.zipIdx k).map fun x => f x.2).sum = ((List.range' k l.length).map f).sum := by
  induction l generalizing k with
  | nil => rfl
  | cons a l ih => simp [List.range'_succ, ih]

theorem doubleSum_swap (test trial : FunctionSpace) (v : Entity → Entity → Nat → Nat → T) (i j : Nat) :
    doubleSum test trial v i j = doubleSum trial test (fun c c' a b => v c' c b a) j i := by
  unfold doubleSum
  rw [sum_swap]
  congr 1
  apply List.map_congr_left
  intro c _
  congr 1
  apply List.map_congr_left
  intro c' _
  rw [sum_swap]
  simp only [and_comm]

/-- The sum of a row of double sums. -/
theorem row_sum_zero [Mul T] {test trial : Space R T} {fam : CellType → ElementDofs} (hr : SerialSpace trial.fs fam)
    {v : Entity → Entity → Nat → Nat → T}
    (hv : ∀ c ∈ test.fs.grid.entityIter 2, ∀ c' ∈ trial.fs.grid.entityIter 2, ∀ a,
      ((List.range (fam c'.entityType).dim).map fun b => v c c' a b).sum = 0) (i : Nat) :
    ((List.range trial.fs.globalSize).map fun j => doubleSum test.fs trial.fs v i j).sum = 0 := by
  simp only [doubleSum_eq]
  rw [sum_swap]
  apply List.sum_eq_zero
  intro y hy
  obtain ⟨c, hc, rfl⟩ := List.mem_map.mp hy
  rw [sum_swap]
  apply List.sum_eq_zero
  intro y hy
  obtain ⟨c', hc', rfl⟩ := List.mem_map.mp hy
  unfold pairSum
  rw [sum_swap]
  apply List.sum_eq_zero
  intro y hy
  obtain ⟨ia, _, rfl⟩ := List.mem_map.mp hy
  rw [sum_swap]
  obtain ⟨rd, _, r2, r3, _, r4⟩ := hr.cell hc'
  rw [r2]
  have : ∀ x ∈ rd.zipIdx, ((List.range trial.fs.globalSize).map fun j =>
      if ia.1 = i ∧ x.1 = j then v c c' ia.2 x.2 else 0).sum = if ia.1 = i then v c c' ia.2 x.2 else 0 := by
    intro x hx
    have := r4 _ (List.fst_mem_of_mem_zipIdx hx)
    by_cases h : ia.1 = i
    · simp only [h, true_and, if_true]
      exact sum_range_single _ _ this _
    · simp [h]
  rw [List.map_congr_left this]
  by_cases h : ia.1 = i
  · simp only [h, if_true]
    rw [sum_zipIdx rd (fun b => v c c' ia.2 b) 0, ← List.range_eq_range', r3]
    exact hv c hc c' hc' ia.2
  · simp [h]

end

/-- The basis functions of cell type `t` are polynomials in the two reference coordinates; components 1 and
2 of the basis are their partial derivatives. -/
def PolynomialBasis [CommSemiring T] [Zero R] (cast : R → T) (B : Basis R T) (t : CellType)
    (φ : Nat → MvPolynomial (Fin 2) T) : Prop :=
  ∀ a x, B t a 0 x = (φ a).eval (fun k : Fin 2 => cast (x.getD k 0)) ∧
    ∀ k : Fin 2, B t a (k + 1) x = (MvPolynomial.pderiv k (φ a)).eval (fun k : Fin 2 => cast (x.getD k 0))

section
variable [Field T] {env : Env R T} {kernel : Kernel R T} {o : Options} {trial test : Space R T}
  {famT famR : CellType → ElementDofs} {K : MathKernel R T} {GT GR : Geometry R}
  {BT BR : Basis R T} {Q : Quadrature R} {t : CellType}

theorem curl_sum_zero (U : Nat → T) (V : Nat → Nat → T) (TG RG : PointData T) (w w' : T) (n : Nat)
    (Ks : Nat → T)
    (h1 : ((List.range n).map fun b => V b 1).sum = 0) (h2 : ((List.range n).map fun b => V b 2).sum = 0) :
    ((List.range n).map fun b => curlCurlF Ks U (V b) TG RG * w * w').sum = 0 := by
  have : (fun b => curlCurlF Ks U (V b) TG RG * w * w') = fun b =>
      (Ks 0 * (surfaceCurl TG U 0 * RG.jacobian 3 + surfaceCurl TG U 1 * RG.jacobian 4
        + surfaceCurl TG U 2 * RG.jacobian 5) / TG.jdet / RG.jdet * w * w') * V b 1 +
      (-(Ks 0 * (surfaceCurl TG U 0 * RG.jacobian 0 + surfaceCurl TG U 1 * RG.jacobian 1
        + surfaceCurl TG U 2 * RG.jacobian 2) / TG.jdet / RG.jdet * w * w')) * V b 2 := by
    funext b
    unfold curlCurlF
    have e : ∀ i, surfaceCurl RG (V b) i = RG.jacobian (3 + i) * V b 1 - RG.jacobian i * V b 2 :=
      fun i => rfl
    rw [e 0, e 1, e 2]
    ring
  rw [this, List.sum_map_add, List.sum_map_mul_left, List.sum_map_mul_left, h1, h2]
  simp

/-- The derivatives of the basis functions add up to zero. -/
def DerivativesSumZero (B : Basis R T) (t : CellType) (dim : Nat) : Prop :=
  ∀ x, ((List.range dim).map fun b => B t b 1 x).sum = 0 ∧ ((List.range dim).map fun b => B t b 2 x).sum = 0

/-- If polynomial basis functions add up to one then their derivatives add up to zero. -/
theorem PolynomialBasis.derivatives [Zero R] {cast : R → T} {B : Basis R T} {dim : Nat}
    {φ : Nat → MvPolynomial (Fin 2) T} (h : PolynomialBasis cast B t φ)
    (hφ : ((List.range dim).map φ).sum = 1) : DerivativesSumZero B t dim := by
  have key : ∀ (k : Fin 2) (x : List R), ((List.range dim).map fun b => B t b (k + 1) x).sum = 0 := by
    intro k x
    have e : (fun b => B t b (k + 1) x) = fun b =>
        (MvPolynomial.pderiv k (φ b)).eval (fun k : Fin 2 => cast (x.getD k 0)) := by
      funext b
      exact (h b x).2 k
    rw [e]
    have h2 := congrArg (fun p => (MvPolynomial.pderiv k p).eval (fun k : Fin 2 => cast (x.getD k 0))) hφ
    simp only [map_list_sum, List.map_map, Derivation.map_one_eq_zero, map_zero] at h2
    exact h2
  exact fun x => ⟨key 0 x, key 1 x⟩

variable [Zero R] [Mul R]

/-- The exact values of the Laplace hypersingular operator add up to zero in every row. -/
theorem curl_rows_zero {trial test : Space R T} (cast : R → T) (hr : SerialSpace trial.fs famR)
    (htype : trial.fs.grid.entityTypes 2 = [t]) (hs : DerivativesSumZero BR t (famR t).dim) (i : Nat) :
    ((List.range trial.fs.globalSize).map fun j =>
      doubleSum test.fs trial.fs (cellPairValue cast curlCurlF K GT GR BT BR Q test.fs trial.fs) i j).sum = 0 := by
  apply row_sum_zero hr
  intro c _ c' hc' a
  have ht : c'.entityType = t := by
    have := hr.wf.types c' hc'
    rw [htype] at this
    simpa using this
  unfold cellPairValue
  split
  · simp only [singularValue_eq]
    rw [sum_swap]
    apply List.sum_eq_zero
    intro y hy
    obtain ⟨p, _, rfl⟩ := List.mem_map.mp hy
    unfold singularTerm
    rw [ht]
    have := curl_sum_zero (fun i => BT c.entityType a i p.1) (fun b i => BR t b i p.2.1)
      (GT.data cast c.localIndex p.1) (GR.data cast c'.localIndex p.2.1)
      (cast (p.2.2 * (GT.jdet c.localIndex p.1 * GR.jdet c'.localIndex p.2.1))) 1 (famR t).dim
      (K (GT.coords c.localIndex p.1) (GR.coords c'.localIndex p.2.1)) (hs p.2.1).1 (hs p.2.1).2
    simpa only [mul_one] using this
  · simp only [regularValue_eq]
    rw [sum_swap]
    apply List.sum_eq_zero
    intro y hy
    obtain ⟨p, _, rfl⟩ := List.mem_map.mp hy
    rw [sum_swap]
    apply List.sum_eq_zero
    intro y hy
    obtain ⟨q, _, rfl⟩ := List.mem_map.mp hy
    unfold regularTerm
    rw [ht]
    exact curl_sum_zero (fun i => BT c.entityType a i p.1) (fun b i => BR t b i q.1)
      (GT.data cast c.localIndex p.1) (GR.data cast c'.localIndex q.1) _ _ (famR t).dim
      (K (GT.coords c.localIndex p.1) (GR.coords c'.localIndex q.1)) (hs q.1).1 (hs q.1).2

/-- C28, rows: if the derivatives of the trial basis functions add up to zero (as they do if the functions
add up to one, see `PolynomialBasis.derivatives`), every row of the Laplace hypersingular matrix adds up
to zero. -/
theorem C28_rows (h : SpacePair env o trial test famT famR GT GR BT BR Q t)
    (hk : kernel.Computes .valueDeriv K) (hb : 0 < o.batchSize) (hs : DerivativesSumZero BR t (famR t).dim) :
    ∃ M : List T, (∀ out, Assemble env (Laplace.hypersingular kernel o) trial test out ↔ out = some M) ∧
      M.length = test.fs.globalSize * trial.fs.globalSize ∧
      ∀ i, i < test.fs.globalSize →
        ((List.range trial.fs.globalSize).map fun j => M.getD (i + test.fs.globalSize * j) 0).sum = 0 := by
  obtain ⟨M, m1, m2, m3⟩ := C14_galerkin (h.dense rfl
    ⟨laplace_hypersingular_integrand (R := R) kernel o, hk, rfl⟩) hb
  refine ⟨M, m1, m2, fun i hi => ?_⟩
  have e : ∀ j ∈ List.range trial.fs.globalSize, M.getD (i + test.fs.globalSize * j) 0 =
      doubleSum test.fs trial.fs (cellPairValue env.cast curlCurlF K GT GR BT BR Q test.fs trial.fs) i j := by
    intro j hj
    rw [List.getD_eq_getElem?_getD, m3 i j hi (List.mem_range.mp hj)]
    rfl
  rw [List.map_congr_left e]
  exact curl_rows_zero env.cast h.trialSpace h.trialType hs i

/-- The surface curl products are symmetric. -/
theorem curlCurlF_swap (Ks U V : Nat → T) (TG RG : PointData T) :
    curlCurlF Ks U V TG RG = curlCurlF Ks V U RG TG := by
  unfold curlCurlF
  ring

theorem curl_sum_zero' (U : Nat → Nat → T) (V : Nat → T) (TG RG : PointData T) (w w' : T) (n : Nat)
    (Ks : Nat → T)
    (h1 : ((List.range n).map fun b => U b 1).sum = 0) (h2 : ((List.range n).map fun b => U b 2).sum = 0) :
    ((List.range n).map fun b => curlCurlF Ks (U b) V TG RG * w * w').sum = 0 := by
  have := curl_sum_zero V U RG TG w w' n Ks h1 h2
  rw [← this]
  congr 1
  apply List.map_congr_left
  intro b _
  rw [curlCurlF_swap]

/-- The exact values of the Laplace hypersingular operator add up to zero in every column. -/
theorem curl_columns_zero {trial test : Space R T} (cast : R → T) (hr : SerialSpace test.fs famT)
    (htype : test.fs.grid.entityTypes 2 = [t]) (hs : DerivativesSumZero BT t (famT t).dim) (j : Nat) :
    ((List.range test.fs.globalSize).map fun i =>
      doubleSum test.fs trial.fs (cellPairValue cast curlCurlF K GT GR BT BR Q test.fs trial.fs) i j).sum = 0 := by
  simp only [doubleSum_swap test.fs]
  apply row_sum_zero hr
  intro c _ c' hc' a
  have ht : c'.entityType = t := by
    have := hr.wf.types c' hc'
    rw [htype] at this
    simpa using this
  unfold cellPairValue
  split
  · simp only [singularValue_eq]
    rw [sum_swap]
    apply List.sum_eq_zero
    intro y hy
    obtain ⟨p, _, rfl⟩ := List.mem_map.mp hy
    unfold singularTerm
    rw [ht]
    have := curl_sum_zero' (fun b i => BT t b i p.1) (fun i => BR c.entityType a i p.2.1)
      (GT.data cast c'.localIndex p.1) (GR.data cast c.localIndex p.2.1)
      (cast (p.2.2 * (GT.jdet c'.localIndex p.1 * GR.jdet c.localIndex p.2.1))) 1 (famT t).dim
      (K (GT.coords c'.localIndex p.1) (GR.coords c.localIndex p.2.1)) (hs p.1).1 (hs p.1).2
    simpa only [mul_one] using this
  · simp only [regularValue_eq]
    rw [sum_swap]
    apply List.sum_eq_zero
    intro y hy
    obtain ⟨p, _, rfl⟩ := List.mem_map.mp hy
    rw [sum_swap]
    apply List.sum_eq_zero
    intro y hy
    obtain ⟨q, _, rfl⟩ := List.mem_map.mp hy
    unfold regularTerm
    rw [ht]
    exact curl_sum_zero' (fun b i => BT t b i p.1) (fun i => BR c.entityType a i q.1)
      (GT.data cast c'.localIndex p.1) (GR.data cast c.localIndex q.1) _ _ (famT t).dim
      (K (GT.coords c'.localIndex p.1) (GR.coords c.localIndex q.1)) (hs p.1).1 (hs p.1).2

/-- C28, columns. -/
theorem C28_columns (h : SpacePair env o trial test famT famR GT GR BT BR Q t)
    (hk : kernel.Computes .valueDeriv K) (hb : 0 < o.batchSize) (hs : DerivativesSumZero BT t (famT t).dim) :
    ∃ M : List T, (∀ out, Assemble env (Laplace.hypersingular kernel o) trial test out ↔ out = some M) ∧
      M.length = test.fs.globalSize * trial.fs.globalSize ∧
      ∀ j, j < trial.fs.globalSize →
        ((List.range test.fs.globalSize).map fun i => M.getD (i + test.fs.globalSize * j) 0).sum = 0 := by
  obtain ⟨M, m1, m2, m3⟩ := C14_galerkin (h.dense rfl
    ⟨laplace_hypersingular_integrand (R := R) kernel o, hk, rfl⟩) hb
  refine ⟨M, m1, m2, fun j hj => ?_⟩
  have e : ∀ i ∈ List.range test.fs.globalSize, M.getD (i + test.fs.globalSize * j) 0 =
      doubleSum test.fs trial.fs (cellPairValue env.cast curlCurlF K GT GR BT BR Q test.fs trial.fs) i j := by
    intro i hi
    rw [List.getD_eq_getElem?_getD, m3 i j (List.mem_range.mp hi) hj]
    rfl
  rw [List.map_congr_left e]
  exact curl_columns_zero env.cast h.testSpace h.testType hs j

/-- C28: if the basis functions of the element of both spaces are polynomials that add up to one, every row
and every column of the Laplace hypersingular matrix adds up to zero, whatever the kernel. -/
theorem C28_constants {φ ψ : Nat → MvPolynomial (Fin 2) T}
    (h : SpacePair env o trial test famT famR GT GR BT BR Q t) (hk : kernel.Computes .valueDeriv K)
    (hb : 0 < o.batchSize)
    (hT : PolynomialBasis env.cast BT t φ) (hT' : ((List.range (famT t).dim).map φ).sum = 1)
    (hR : PolynomialBasis env.cast BR t ψ) (hR' : ((List.range (famR t).dim).map ψ).sum = 1) :
    ∃ M : List T, (∀ out, Assemble env (Laplace.hypersingular kernel o) trial test out ↔ out = some M) ∧
      M.length = test.fs.globalSize * trial.fs.globalSize ∧
      (∀ i, i < test.fs.globalSize →
        ((List.range trial.fs.globalSize).map fun j => M.getD (i + test.fs.globalSize * j) 0).sum = 0) ∧
      ∀ j, j < trial.fs.globalSize →
        ((List.range test.fs.globalSize).map fun i => M.getD (i + test.fs.globalSize * j) 0).sum = 0 := by
  obtain ⟨M, m1, m2, m3⟩ := C28_rows h hk hb (hR.derivatives hR')
  obtain ⟨N, n1, _, n3⟩ := C28_columns h hk hb (hT.derivatives hT')
  have e : N = M := by simpa using (m1 (some N)).mp ((n1 (some N)).mpr rfl)
  subst e
  exact ⟨N, m1, m2, m3, n3⟩

end

/-! ### The hypotheses can be met -/

/-- The degree 1 basis functions are polynomials that add up to one. -/
theorem p1Basis_polynomial (t : CellType) : PolynomialBasis id p1Basis t fun a =>
    match a with
    | 0 => 1 - MvPolynomial.X 0 - MvPolynomial.X 1
    | 1 => MvPolynomial.X 0
    | 2 => MvPolynomial.X 1
    | _ => 0 := by
  intro a x
  have e : ∀ k : Fin 2, (k : Nat) + 1 = if k = 0 then 1 else 2 := by decide
  match a with
  | 0 =>
    refine ⟨by simp [p1Basis], fun k => ?_⟩
    rw [e]
    fin_cases k <;> simp [p1Basis, MvPolynomial.pderiv_X]
  | 1 =>
    refine ⟨by simp [p1Basis], fun k => ?_⟩
    rw [e]
    fin_cases k <;> simp [p1Basis, MvPolynomial.pderiv_X]
  | 2 =>
    refine ⟨by simp [p1Basis], fun k => ?_⟩
    rw [e]
    fin_cases k <;> simp [p1Basis, MvPolynomial.pderiv_X]
  | a + 3 =>
    refine ⟨by simp [p1Basis], fun k => ?_⟩
    rw [e]
    fin_cases k <;> simp [p1Basis]

/-- The rows of the Laplace hypersingular matrix on the octahedron. -/
example : ∃ M : List Rat, (∀ out, Assemble exEnv (Laplace.hypersingular (kernelOf squareKernel) smallOptions)
      (spaceOf octFs p1 octGeometry p1Basis) (spaceOf octFs p1 octGeometry p1Basis) out ↔ out = some M) ∧
      ∀ i, i < 6 → ((List.range 6).map fun j => M.getD (i + 6 * j) 0).sum = 0 := by
  have hs : octFs.globalSize = 6 := by decide +kernel
  obtain ⟨M, h1, _, h3⟩ := C28_rows (octSpacePair octFs_space.1 octFs_space.2) (kernelOf_computes squareKernel _) (by decide)
    ((p1Basis_polynomial .triangle).derivatives (dim := 3) (by
      simp [List.range_succ]))
  change ∀ i, i < octFs.globalSize → ((List.range octFs.globalSize).map fun j =>
    M.getD (i + octFs.globalSize * j) 0).sum = 0 at h3
  rw [hs] at h3
  exact ⟨M, h1, h3⟩

/-- The Helmholtz hypersingular operator with wavenumber 3 on the octahedron (C29). -/
example : ∃ M : List Rat, ∀ out, Assemble exEnv
      (Helmholtz.hypersingular (RingHom.id Rat) (fun _ => kernelOf squareKernel) 3 smallOptions)
      (spaceOf octFs p1 octGeometry p1Basis) (spaceOf octFs p1 octGeometry p1Basis) out ↔ out = some M := by
  obtain ⟨A, B, _, _, _, _, h⟩ := C29_helmholtz_hypersingular (kernel := fun _ => kernelOf squareKernel)
    (w := 3) (RingHom.id Rat) (octSpacePair octFs_space.1 octFs_space.2) (kernelOf_computes squareKernel _) (by decide)
  exact ⟨_, h⟩

end Bempp
