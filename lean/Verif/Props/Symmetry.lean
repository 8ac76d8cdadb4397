import Verif.Props.Linear
/-
C26, C27: transposition.
-/
set_option linter.unusedSectionVars false

namespace Bempp
open Examples

variable {R T : Type}

/-- `con'` is `con` seen from the other cell. -/
def Connectivity.Mirror (con con' : Connectivity) : Prop :=
  con'.connectivityDimension = con.connectivityDimension ∧
    con'.localIndices.Perm (con.localIndices.map fun p => (p.2, p.1))

/-- The singular rules are symmetric: exchanging the two cells mirrors the rule. -/
def Quadrature.Symmetric (Q : Quadrature R) : Prop :=
  ∀ tt rt con con', con.Mirror con' → (Q.singular rt tt con').Perm
    ((Q.singular tt rt con).map fun p => (p.2.1, p.1, p.2.2))

/-- The shared vertices of `c'` and `c` are those of `c` and `c'` mirrored. -/
theorem sharedVertices_mirror (c c' : Entity) :
    (sharedVertices c' c).Perm ((sharedVertices c c').map fun p => (p.2, p.1)) := by
  unfold sharedVertices
  rw [List.map_flatMap]
  have : ∀ (l m : List (Nat × Nat)),
      (l.flatMap fun r => (m.filter fun t => t.1 = r.1).map fun t => (t.2, r.2)).Perm
      (m.flatMap fun r => ((l.filter fun t => t.1 = r.1).map fun t => (t.2, r.2)).map
        fun p => (p.2, p.1)) := by
    intro l m
    induction l with
    | nil => simp
    | cons x l ih =>
      rw [List.flatMap_cons]
      refine (ih.append_left _).trans ?_
      clear ih
      induction m with
      | nil => simp
      | cons y m ihm =>
        by_cases h : y.1 = x.1
        · rw [List.filter_cons_of_pos (by simpa using h), List.flatMap_cons, List.flatMap_cons,
            List.filter_cons_of_pos (by simpa using h.symm)]
          simp only [List.map_cons, List.cons_append, List.map_map] at ihm ⊢
          refine List.Perm.cons _ ?_
          refine List.Perm.trans ?_ (ihm.append_left _)
          rw [← List.append_assoc, ← List.append_assoc]
          exact List.perm_append_comm.append_right _
        · rw [List.filter_cons_of_neg (by simpa using h), List.flatMap_cons, List.flatMap_cons,
            List.filter_cons_of_neg (by simpa using fun e => h e.symm)]
          refine List.Perm.trans ?_ (ihm.append_left _)
          rw [← List.append_assoc, ← List.append_assoc]
          exact List.perm_append_comm.append_right _
  exact this _ _

theorem connectivity_mirror (c c' : Entity) : (connectivity c c').Mirror (connectivity c' c) := by
  have hp := sharedVertices_mirror c c'
  refine ⟨?_, hp⟩
  unfold connectivity
  have := hp.length_eq
  rw [List.length_map] at this
  simp only [this, eq_comm]

theorem Entity.touches_comm (c c' : Entity) : c.Touches c' ↔ c'.Touches c := by
  unfold Entity.Touches
  constructor
  · rintro ⟨v, h1, h2⟩; exact ⟨v, h2, h1⟩
  · rintro ⟨v, h1, h2⟩; exact ⟨v, h2, h1⟩

/-- `F'`, `K'` is the transpose of `F`, `K`: the roles of test and trial are exchanged. -/
def Transposes (F : MathIntegrand T) (K : MathKernel R T) (F' : MathIntegrand T) (K' : MathKernel R T) : Prop :=
  ∀ x y U V TG RG, F (K x y) U V TG RG = F' (K' y x) V U RG TG

section
variable [Zero R] [CommSemigroup R] [NonUnitalCommSemiring T]
  {env : Env R T} {asm asm' : Assembler R T} {trial test : Space R T}
  {famT famR : CellType → ElementDofs} {F F' : MathIntegrand T} {K K' : MathKernel R T} {GT GR : Geometry R}
  {BT BR : Basis R T} {Q : Quadrature R} {t : CellType}

theorem cellPairValue_transpose (hF : Transposes F K F' K') (hQ : Q.Symmetric) (cast : R → T)
    (test trial : FunctionSpace) (c c' : Entity) (a b : Nat) :
    cellPairValue cast F K GT GR BT BR Q test trial c c' a b =
      cellPairValue cast F' K' GR GT BR BT Q trial test c' c b a := by
  unfold cellPairValue
  have hiff : (trial.grid.addr = test.grid.addr ∧ c'.Touches c) ↔
      (test.grid.addr = trial.grid.addr ∧ c.Touches c') := by rw [eq_comm, c.touches_comm c']
  by_cases hn : test.grid.addr = trial.grid.addr ∧ c.Touches c'
  · rw [if_pos hn, if_pos (hiff.mpr hn)]
    rw [singularValue_eq, singularValue_eq,
      ((hQ c.entityType c'.entityType _ _ (connectivity_mirror c c')).map _).sum_eq, List.map_map]
    congr 1
    apply List.map_congr_left
    intro p _
    simp only [Function.comp, singularTerm]
    rw [hF, mul_comm (GT.jdet c.localIndex p.1)]
  · rw [if_neg hn, if_neg (fun h => hn (hiff.mp h)), regularValue_eq, regularValue_eq, sum_swap]
    congr 1
    apply List.map_congr_left
    intro q _
    congr 1
    apply List.map_congr_left
    intro p _
    simp only [regularTerm]
    rw [hF, mul_assoc, mul_assoc, mul_comm (cast _)]

/-- The matrix of a transposed operator with exchanged spaces is the transpose. -/
theorem transpose_matrix (h : DenseSetting env asm trial test famT famR F K GT GR BT BR Q t)
    (hb : 0 < asm.options.batchSize) (ho : asm'.options = asm.options) (hc : asm'.Computes F' K')
    (hF : Transposes F K F' K') (hQ : Q.Symmetric) :
    ∃ M N : List T, (∀ out, Assemble env asm trial test out ↔ out = some M) ∧
      (∀ out, Assemble env asm' test trial out ↔ out = some N) ∧
      M.length = test.fs.globalSize * trial.fs.globalSize ∧
      N.length = test.fs.globalSize * trial.fs.globalSize ∧
      ∀ i j, i < test.fs.globalSize → j < trial.fs.globalSize →
        M[i + test.fs.globalSize * j]? = N[j + trial.fs.globalSize * i]? := by
  obtain ⟨M, m1, m2, m3⟩ := C14_galerkin h hb
  obtain ⟨N, n1, n2, n3⟩ := C14_galerkin (h.exchange.withOperator ho hc) (by rw [ho]; exact hb)
  refine ⟨M, N, m1, n1, m2, by rw [n2, Nat.mul_comm], fun i j hi hj => ?_⟩
  rw [m3 i j hi hj, n3 j i hj hi, doubleSum_swap]
  congr 2
  funext c c' a b
  exact cellPairValue_transpose hF hQ ..

end

section
variable [Zero R] [CommSemigroup R] [CommRing T]
  {env : Env R T} {trial test : Space R T}
  {famT famR : CellType → ElementDofs} {K : MathKernel R T} {GT GR : Geometry R}
  {BT BR : Basis R T} {Q : Quadrature R} {t : CellType} {o : Options}

/-- The gradient of the kernel (components 1, 2, 3) is odd under exchange of the points. -/
def OddGradient (K : MathKernel R T) : Prop := ∀ x y k, 1 ≤ k → k ≤ 3 → K x y k = - K y x k

theorem dl_transposes (hK : OddGradient K) : Transposes dlF K adlF K := by
  intro x y U V TG RG
  unfold dlF adlF
  rw [hK x y 1, hK x y 2, hK x y 3] <;> first | omega | ring

/-- C26, Laplace: the matrix of the adjoint double layer operator is the transpose of the matrix of the
double layer operator with test and trial space exchanged. -/
theorem C26_laplace {kernel : Kernel R T}
    (h : SpacePair env o trial test famT famR GT GR BT BR Q t) (hk : kernel.Computes .valueDeriv K)
    (hb : 0 < o.batchSize) (hK : OddGradient K) (hQ : Q.Symmetric) :
    ∃ M N : List T, (∀ out, Assemble env (Laplace.doubleLayer kernel o) trial test out ↔ out = some M) ∧
      (∀ out, Assemble env (Laplace.adjointDoubleLayer kernel o) test trial out ↔ out = some N) ∧
      M.length = test.fs.globalSize * trial.fs.globalSize ∧
      N.length = test.fs.globalSize * trial.fs.globalSize ∧
      ∀ i j, i < test.fs.globalSize → j < trial.fs.globalSize →
        M[i + test.fs.globalSize * j]? = N[j + trial.fs.globalSize * i]? :=
  transpose_matrix (h.dense rfl ⟨laplace_doubleLayer_integrand (R := R) kernel o, hk, rfl⟩) hb rfl
    ⟨laplace_adjoint_integrand (R := R) kernel o, hk, rfl⟩ (dl_transposes hK) hQ

/-- C26, Helmholtz. -/
theorem C26_helmholtz {kernel : R → Kernel R T} {w : R}
    (h : SpacePair env o trial test famT famR GT GR BT BR Q t) (hk : (kernel w).Computes .valueDeriv K)
    (hb : 0 < o.batchSize) (hK : OddGradient K) (hQ : Q.Symmetric) :
    ∃ M N : List T, (∀ out, Assemble env (Helmholtz.doubleLayer kernel w o) trial test out ↔ out = some M) ∧
      (∀ out, Assemble env (Helmholtz.adjointDoubleLayer kernel w o) test trial out ↔ out = some N) ∧
      M.length = test.fs.globalSize * trial.fs.globalSize ∧
      N.length = test.fs.globalSize * trial.fs.globalSize ∧
      ∀ i j, i < test.fs.globalSize → j < trial.fs.globalSize →
        M[i + test.fs.globalSize * j]? = N[j + trial.fs.globalSize * i]? :=
  transpose_matrix (h.dense rfl ⟨helmholtz_doubleLayer_integrand kernel w o, hk, rfl⟩) hb rfl
    ⟨helmholtz_adjoint_integrand kernel w o, hk, rfl⟩ (dl_transposes hK) hQ

/-- The kernel is symmetric in its points. -/
def SymmetricKernel (K : MathKernel R T) : Prop := ∀ x y, K x y 0 = K y x 0

theorem sl_transposes (hK : SymmetricKernel K) : Transposes slF K slF K := by
  intro x y U V TG RG
  unfold slF
  rw [hK x y]
  ring

variable {sp : Space R T} {fam : CellType → ElementDofs} {G : Geometry R} {B : Basis R T}

theorem symmetric_matrix {asm : Assembler R T} {F : MathIntegrand T}
    (h : DenseSetting env asm sp sp fam fam F K G G B B Q t)
    (hb : 0 < asm.options.batchSize) (hF : Transposes F K F K) (hQ : Q.Symmetric) :
    ∃ M : List T, (∀ out, Assemble env asm sp sp out ↔ out = some M) ∧
      M.length = sp.fs.globalSize * sp.fs.globalSize ∧
      ∀ i j, i < sp.fs.globalSize → j < sp.fs.globalSize →
        M[i + sp.fs.globalSize * j]? = M[j + sp.fs.globalSize * i]? := by
  obtain ⟨M, N, h1, h2, h3, _, h5⟩ := transpose_matrix h hb rfl h.operator hF hQ
  have : N = M := Option.some_inj.mp ((h1 _).mp ((h2 _).mpr rfl))
  subst this
  exact ⟨N, h1, h3, h5⟩

/-- C27, Laplace: the single layer matrix is symmetric. -/
theorem C27_laplace {kernel : Kernel R T}
    (h : SpacePair env o sp sp fam fam G G B B Q t) (hk : kernel.Computes .value K)
    (hb : 0 < o.batchSize) (hK : SymmetricKernel K) (hQ : Q.Symmetric) :
    ∃ M : List T, (∀ out, Assemble env (Laplace.singleLayer kernel o) sp sp out ↔ out = some M) ∧
      M.length = sp.fs.globalSize * sp.fs.globalSize ∧
      ∀ i j, i < sp.fs.globalSize → j < sp.fs.globalSize →
        M[i + sp.fs.globalSize * j]? = M[j + sp.fs.globalSize * i]? :=
  symmetric_matrix (h.dense rfl ⟨laplace_singleLayer_integrand (R := R) kernel o, hk, rfl⟩) hb
    (sl_transposes hK) hQ

/-- C27, Helmholtz. -/
theorem C27_helmholtz {kernel : R → Kernel R T} {w : R}
    (h : SpacePair env o sp sp fam fam G G B B Q t) (hk : (kernel w).Computes .value K)
    (hb : 0 < o.batchSize) (hK : SymmetricKernel K) (hQ : Q.Symmetric) :
    ∃ M : List T, (∀ out, Assemble env (Helmholtz.singleLayer kernel w o) sp sp out ↔ out = some M) ∧
      M.length = sp.fs.globalSize * sp.fs.globalSize ∧
      ∀ i j, i < sp.fs.globalSize → j < sp.fs.globalSize →
        M[i + sp.fs.globalSize * j]? = M[j + sp.fs.globalSize * i]? :=
  symmetric_matrix (h.dense rfl ⟨helmholtz_singleLayer_integrand kernel w o, hk, rfl⟩) hb
    (sl_transposes hK) hQ

end

section
variable [Field R] [Field T] {env : Env R T} {sp : Space R T} {fam : CellType → ElementDofs}
  {K : MathKernel R T} {G : Geometry R} {B : Basis R T} {Q : Quadrature R} {t : CellType} {o : Options}

/-- C41, Laplace: the hypersingular matrix is symmetric. -/
theorem C41_laplace {kernel : Kernel R T}
    (h : SpacePair env o sp sp fam fam G G B B Q t) (hk : kernel.Computes .valueDeriv K)
    (hb : 0 < o.batchSize) (hK : SymmetricKernel K) (hQ : Q.Symmetric) :
    ∃ M : List T, (∀ out, Assemble env (Laplace.hypersingular kernel o) sp sp out ↔ out = some M) ∧
      M.length = sp.fs.globalSize * sp.fs.globalSize ∧
      ∀ i j, i < sp.fs.globalSize → j < sp.fs.globalSize →
        M[i + sp.fs.globalSize * j]? = M[j + sp.fs.globalSize * i]? := by
  refine symmetric_matrix (h.dense rfl ⟨laplace_hypersingular_integrand (R := R) kernel o, hk, rfl⟩) hb ?_ hQ
  intro x y U V TG RG
  rw [curlCurlF_swap]
  unfold curlCurlF
  rw [hK x y]

/-- C41, Helmholtz. -/
theorem C41_helmholtz {kernel : R → Kernel R T} {w : R} {cast : R → T}
    (h : SpacePair env o sp sp fam fam G G B B Q t) (hk : (kernel w).Computes .valueDeriv K)
    (hb : 0 < o.batchSize) (hK : SymmetricKernel K) (hQ : Q.Symmetric) :
    ∃ M : List T, (∀ out, Assemble env (Helmholtz.hypersingular cast kernel w o) sp sp out ↔ out = some M) ∧
      M.length = sp.fs.globalSize * sp.fs.globalSize ∧
      ∀ i j, i < sp.fs.globalSize → j < sp.fs.globalSize →
        M[i + sp.fs.globalSize * j]? = M[j + sp.fs.globalSize * i]? := by
  refine symmetric_matrix (h.dense rfl ⟨helmholtz_hypersingular_integrand kernel w o, hk, rfl⟩) hb ?_ hQ
  intro x y U V TG RG
  unfold helmholtzHypF
  rw [curlCurlF_swap]
  unfold curlCurlF normalNormalF
  rw [hK x y]
  ring

end

/-! ### The hypotheses can be met -/

theorem smallRules_symmetric : smallRules.Symmetric := by
  intro tt rt con con' h
  unfold smallRules
  simp only [h.1, List.map_cons, List.map_nil]
  exact List.Perm.swap _ _ _

theorem squareKernel_odd : OddGradient squareKernel := by
  intro x y k h1 h2
  obtain ⟨j, rfl⟩ : ∃ j, k = j + 1 := ⟨k - 1, by omega⟩
  unfold squareKernel
  ring

theorem squareKernel_symmetric : SymmetricKernel squareKernel := by
  intro x y
  unfold squareKernel
  ring

/-- Double layer and adjoint double layer on the octahedron. -/
example : ∃ M N : List Rat,
    (∀ out, Assemble exEnv (Laplace.doubleLayer (kernelOf squareKernel) smallOptions)
      (spaceOf octFs p1 octGeometry p1Basis) (spaceOf octFs p1 octGeometry p1Basis) out ↔ out = some M) ∧
    (∀ out, Assemble exEnv (Laplace.adjointDoubleLayer (kernelOf squareKernel) smallOptions)
      (spaceOf octFs p1 octGeometry p1Basis) (spaceOf octFs p1 octGeometry p1Basis) out ↔ out = some N) := by
  obtain ⟨M, N, h1, h2, _⟩ := C26_laplace
    (octSpacePair octFs_space.1 octFs_space.2) (kernelOf_computes squareKernel _) (by decide)
    squareKernel_odd smallRules_symmetric
  exact ⟨M, N, h1, h2⟩

/-- The single layer matrix on the octahedron. -/
example : ∃ M : List Rat, (∀ out, Assemble exEnv (Laplace.singleLayer (kernelOf squareKernel) smallOptions)
      (spaceOf octFs p1 octGeometry p1Basis) (spaceOf octFs p1 octGeometry p1Basis) out ↔ out = some M) ∧
    M[1]? = M[octFs.globalSize]? := by
  have hs : octFs.globalSize = 6 := by decide +kernel
  obtain ⟨M, h1, _, h3⟩ := C27_laplace (octSpacePair octFs_space.1 octFs_space.2)
    (kernelOf_computes squareKernel _) (by decide)
    squareKernel_symmetric smallRules_symmetric
  change ∀ i j, i < octFs.globalSize → j < octFs.globalSize →
    M[i + octFs.globalSize * j]? = M[j + octFs.globalSize * i]? at h3
  have := h3 1 0 (by omega) (by omega)
  rw [Nat.mul_zero, Nat.mul_one, Nat.add_zero, Nat.zero_add] at this
  exact ⟨M, h1, this⟩

end Bempp
