import Verif.Proofs.Motion
/-
C52, C53: renumbered, moved and scaled surfaces.
-/
set_option linter.unusedSectionVars false

namespace Bempp
open Examples

variable {R T : Type}

/-- **C52.** The matrix of every operator depends on the numbers of the vertices, edges and cells of the grids only
through a renumbering of its rows and columns: on a renumbered copy of the surfaces the entry for the renumbered DOFs is
the same. -/
theorem C52_renumbering [Zero R] [Mul R] [Neg R] [AddCommMonoid T] [Mul T] [One T] [Sub T] [Div T] [Neg T]
    {env : Env R T} {asm : Assembler R T} {trial test trial' test' : Space R T} {o : Options}
    {famT famR : CellType → ElementDofs} {F : MathIntegrand T} {K : MathKernel R T} {GT GR GT' GR' : Geometry R}
    {BT BR : Basis R T} {Q : Quadrature R} {t : CellType} {numT numR : Nat → Nat → Nat}
    (h : SpacePair env o trial test famT famR GT GR BT BR Q t)
    (h' : SpacePair env o trial' test' famT famR GT' GR' BT BR Q t)
    (ho : OperatorWith env.cast o K asm F) (hb : 0 < o.batchSize)
    (hn : RenumberedPair test.fs trial.fs test'.fs trial'.fs numT numR)
    (gT : ∀ c ∈ test.fs.grid.entityIter 2, SameGeometry GT c.localIndex GT' (numT 2 c.localIndex))
    (gR : ∀ c ∈ trial.fs.grid.entityIter 2, SameGeometry GR c.localIndex GR' (numR 2 c.localIndex)) :
    ∃ (M M' : List T) (pT pR : Nat → Nat),
      (∀ out, Assemble env asm trial test out ↔ out = some M) ∧
      (∀ out, Assemble env asm trial' test' out ↔ out = some M') ∧
      SameDofs test.fs test'.fs (numT 2) pT ∧ SameDofs trial.fs trial'.fs (numR 2) pR ∧
      ∀ i j, i < test.fs.globalSize → j < trial.fs.globalSize →
        M'[pT i + test.fs.globalSize * pR j]? = M[i + test.fs.globalSize * j]? := by
  obtain ⟨hc, e⟩ := ho.computes
  obtain ⟨M, M', pT, pR, h1, h2, h3, h4, h5⟩ := matrix_transport (fun x => x) rfl (fun _ _ => rfl) (h.dense e hc)
    (h'.dense e hc) (by rw [e]; exact hb) (by rw [e]; exact hb) hn
    (by
      intro c hc c' hc' tt rt a b p q
      have g0 := gT c hc
      have g1 := gR c' hc'
      unfold regularTerm Geometry.coords Geometry.data
      rw [g0.point, g0.normal, g0.jacobian, g0.jdet, g1.point, g1.normal, g1.jacobian, g1.jdet])
    (by
      intro c hc c' hc' tt rt a b p
      have g0 := gT c hc
      have g1 := gR c' hc'
      unfold singularTerm Geometry.coords Geometry.data
      rw [g0.point, g0.normal, g0.jacobian, g0.jdet, g1.point, g1.normal, g1.jacobian, g1.jdet])
  refine ⟨M, M', pT, pR, h1, h2, h3, h4, ?_⟩
  intro i j hi hj
  rw [h5 i j hi hj, Option.map_id']

/-! ### Similarities -/

section
variable [Field R] [Field T]

theorem dot_matVec {A : Nat → Nat → T} (hA : Orthonormal3 A) (u v : Nat → T) :
    matVec A u 0 * matVec A v 0 + matVec A u 1 * matVec A v 1 + matVec A u 2 * matVec A v 2 =
      u 0 * v 0 + u 1 * v 1 + u 2 * v 2 := by
  have h00 := hA 0 0 (by omega) (by omega)
  have h01 := hA 0 1 (by omega) (by omega)
  have h02 := hA 0 2 (by omega) (by omega)
  have h11 := hA 1 1 (by omega) (by omega)
  have h12 := hA 1 2 (by omega) (by omega)
  have h22 := hA 2 2 (by omega) (by omega)
  norm_num at h00 h01 h02 h11 h12 h22
  unfold matVec
  linear_combination u 0 * v 0 * h00 + (u 0 * v 1 + u 1 * v 0) * h01 + (u 0 * v 2 + u 2 * v 0) * h02 +
    u 1 * v 1 * h11 + (u 1 * v 2 + u 2 * v 1) * h12 + u 2 * v 2 * h22

/-- The data of a point of a cell and of its image. -/
structure SimilarData (s : T) (A : Nat → Nat → T) (D D' : PointData T) : Prop where
  normal : ∀ i, i < 3 → D'.normal i = matVec A D.normal i
  jacobian : ∀ i j, i < 3 → j < 2 → D'.jacobian (3 * j + i) = s * matVec A (fun k => D.jacobian (3 * j + k)) i
  jdet : D'.jdet = s * s * D.jdet

theorem SimilarData.surfaceCurl {s : T} {A : Nat → Nat → T} {D D' : PointData T} (h : SimilarData s A D D')
    (U : Nat → T) (i : Nat) (hi : i < 3) :
    Bempp.surfaceCurl D' U i = s * matVec A (Bempp.surfaceCurl D U) i := by
  have h0 := h.jacobian i 0 hi (by omega)
  have h1 := h.jacobian i 1 hi (by omega)
  simp only [Nat.mul_zero, Nat.zero_add, Nat.mul_one] at h0 h1
  unfold Bempp.surfaceCurl
  rw [h0, h1]
  unfold matVec
  ring

/-- The kernel components at a pair of points and at the pair of its images. -/
structure SimilarComps (s : T) (A : Nat → Nat → T) (κ : T) (k k' : Nat → T) : Prop where
  value : k' 0 = κ * k 0
  gradient : ∀ i, i < 3 → s * k' (i + 1) = κ * matVec A (fun j => k (j + 1)) i

variable {s : T} {A : Nat → Nat → T} {κ : T} {k k' : Nat → T} {TG RG TG' RG' : PointData T}

theorem slF_similar (hk : SimilarComps s A κ k k') (U V : Nat → T) :
    slF k' U V TG' RG' * s ^ 4 = κ * s ^ 4 * slF k U V TG RG := by
  unfold slF
  rw [hk.value]; ring

theorem dlF_similar (hA : Orthonormal3 A) (hk : SimilarComps s A κ k k') (hR : SimilarData s A RG RG') (U V : Nat → T) :
    dlF k' U V TG' RG' * s ^ 4 = κ * s ^ 3 * dlF k U V TG RG := by
  unfold dlF
  have h0 := hk.gradient 0 (by omega)
  have h1 := hk.gradient 1 (by omega)
  have h2 := hk.gradient 2 (by omega)
  have hd := dot_matVec hA (fun j => k (j + 1)) RG.normal
  rw [hR.normal 0 (by omega), hR.normal 1 (by omega), hR.normal 2 (by omega)]
  linear_combination U 0 * V 0 * s ^ 3 * (matVec A RG.normal 0 * h0 + matVec A RG.normal 1 * h1 +
    matVec A RG.normal 2 * h2 + κ * hd)

theorem adlF_similar (hA : Orthonormal3 A) (hk : SimilarComps s A κ k k') (hT : SimilarData s A TG TG') (U V : Nat → T) :
    adlF k' U V TG' RG' * s ^ 4 = κ * s ^ 3 * adlF k U V TG RG := by
  unfold adlF
  have h0 := hk.gradient 0 (by omega)
  have h1 := hk.gradient 1 (by omega)
  have h2 := hk.gradient 2 (by omega)
  have hd := dot_matVec hA (fun j => k (j + 1)) TG.normal
  rw [hT.normal 0 (by omega), hT.normal 1 (by omega), hT.normal 2 (by omega)]
  linear_combination -U 0 * V 0 * s ^ 3 * (matVec A TG.normal 0 * h0 + matVec A TG.normal 1 * h1 +
    matVec A TG.normal 2 * h2 + κ * hd)

theorem curlCurlF_similar (hs : s ≠ 0) (hA : Orthonormal3 A) (hk : SimilarComps s A κ k k')
    (hT : SimilarData s A TG TG') (hR : SimilarData s A RG RG') (U V : Nat → T) :
    curlCurlF k' U V TG' RG' * s ^ 4 = κ * s ^ 2 * curlCurlF k U V TG RG := by
  unfold curlCurlF
  have hd := dot_matVec hA (surfaceCurl TG U) (surfaceCurl RG V)
  rw [hT.surfaceCurl U 0 (by omega), hT.surfaceCurl U 1 (by omega), hT.surfaceCurl U 2 (by omega),
    hR.surfaceCurl V 0 (by omega), hR.surfaceCurl V 1 (by omega), hR.surfaceCurl V 2 (by omega), hT.jdet, hR.jdet,
    hk.value]
  have e : (s * matVec A (surfaceCurl TG U) 0 * (s * matVec A (surfaceCurl RG V) 0) +
      s * matVec A (surfaceCurl TG U) 1 * (s * matVec A (surfaceCurl RG V) 1) +
      s * matVec A (surfaceCurl TG U) 2 * (s * matVec A (surfaceCurl RG V) 2)) =
      s ^ 2 * (surfaceCurl TG U 0 * surfaceCurl RG V 0 + surfaceCurl TG U 1 * surfaceCurl RG V 1 +
        surfaceCurl TG U 2 * surfaceCurl RG V 2) := by
    linear_combination s ^ 2 * hd
  rw [e]
  generalize surfaceCurl TG U 0 * surfaceCurl RG V 0 + surfaceCurl TG U 1 * surfaceCurl RG V 1 +
    surfaceCurl TG U 2 * surfaceCurl RG V 2 = d
  rw [div_div, div_div, show s * s * TG.jdet * (s * s * RG.jdet) = s ^ 4 * (TG.jdet * RG.jdet) by ring]
  by_cases hj : TG.jdet * RG.jdet = 0
  · rw [hj]; simp
  · field_simp

theorem normalNormalF_similar (hA : Orthonormal3 A) (hk : SimilarComps s A κ k k')
    (hT : SimilarData s A TG TG') (hR : SimilarData s A RG RG') (U V : Nat → T) :
    normalNormalF k' U V TG' RG' * s ^ 4 = κ * s ^ 4 * normalNormalF k U V TG RG := by
  unfold normalNormalF
  have hd := dot_matVec hA RG.normal TG.normal
  rw [hT.normal 0 (by omega), hT.normal 1 (by omega), hT.normal 2 (by omega),
    hR.normal 0 (by omega), hR.normal 1 (by omega), hR.normal 2 (by omega), hk.value]
  linear_combination κ * k 0 * U 0 * V 0 * s ^ 4 * hd

end

section
variable [Field R] [Field T] {φ : R →+* T} {o : Options} {s : R} {A : Nat → Nat → R} {b : Nat → R} {κ : T}
  {K K' : MathKernel R T}

theorem Orthonormal3.map (φ : R →+* T) (h : Orthonormal3 A) : Orthonormal3 fun i j => φ (A i j) := by
  intro j k hj hk
  have := congrArg φ (h j k hj hk)
  simp only [map_add, map_mul] at this
  rw [this]
  split <;> simp

theorem matVec_map (φ : R →+* T) (v : Nat → R) (i : Nat) :
    φ (matVec A v i) = matVec (fun i j => φ (A i j)) (fun k => φ (v k)) i := by
  simp [matVec]

theorem SimilarCell.data {G G' : Geometry R} {c c' : Nat} (h : SimilarCell s A b G c G' c') (x : List R) :
    SimilarData (φ s) (fun i j => φ (A i j)) (G.data φ c x) (G'.data φ c' x) where
  normal := by
    intro i hi
    show φ _ = _
    rw [h.normal x i hi, matVec_map]
    rfl
  jacobian := by
    intro i j hi hj
    show φ _ = _
    rw [h.jacobian x i j hi hj, map_mul, matVec_map]
    rfl
  jdet := by
    show φ _ = _
    rw [h.jdet x, map_mul, map_mul]
    rfl

theorem SimilarCell.coords {G G' : Geometry R} {c c' : Nat} (h : SimilarCell s A b G c G' c') (x : List R) :
    G'.coords c' x = moved s A b (G.coords c x) := by
  unfold Geometry.coords moved
  apply List.map_congr_left
  intro i hi
  rw [h.point x i (List.mem_range.mp hi)]
  rfl

theorem SimilarKernel.comps (h : SimilarKernel φ s A b κ K K') {x y : List R} (hx : x.length = 3) (hy : y.length = 3) :
    SimilarComps (φ s) (fun i j => φ (A i j)) κ (K x y) (K' (moved s A b x) (moved s A b y)) :=
  ⟨h.value x y hx hy, h.gradient x y hx hy⟩

/-- What the integrands of two related operators do on related data. -/
def IntegrandScales (s : T) (A : Nat → Nat → T) (κ : T) (F F' : MathIntegrand T) (e : Nat) : Prop :=
  ∀ (k k' U V : Nat → T) (TG RG TG' RG' : PointData T), SimilarComps s A κ k k' → SimilarData s A TG TG' →
    SimilarData s A RG RG' → F' k' U V TG' RG' * s ^ 4 = κ * s ^ e * F k U V TG RG

theorem ScaledOperator.scales {asm asm' : Assembler R T} {e : Nat} (h : ScaledOperator φ o s K K' asm asm' e)
    (hs : s ≠ 0) (hA : Orthonormal3 A) : ∃ F F', asm.Computes F K ∧ asm'.Computes F' K' ∧ asm.options = o ∧
      asm'.options = o ∧ IntegrandScales (φ s) (fun i j => φ (A i j)) κ F F' e := by
  have hs' : φ s ≠ 0 := (map_ne_zero φ).mpr hs
  have hA' := hA.map φ
  have mk : ∀ {F F' : MathIntegrand T} {asm asm' : Assembler R T}, OperatorWith φ o K asm F →
      OperatorWith φ o K' asm' F' → IntegrandScales (φ s) (fun i j => φ (A i j)) κ F F' e →
      ∃ F F', asm.Computes F K ∧ asm'.Computes F' K' ∧ asm.options = o ∧
        asm'.options = o ∧ IntegrandScales (φ s) (fun i j => φ (A i j)) κ F F' e := by
    intro F F' asm asm' h1 h2 h3
    exact ⟨F, F', h1.computes.1, h2.computes.1, h1.computes.2, h2.computes.2, h3⟩
  cases h with
  | laplaceSingleLayer h1 h2 =>
    exact mk (.laplaceSingleLayer h1) (.laplaceSingleLayer h2) fun _ _ U V _ _ _ _ hk _ _ => slF_similar hk U V
  | laplaceDoubleLayer h1 h2 =>
    exact mk (.laplaceDoubleLayer h1) (.laplaceDoubleLayer h2) fun _ _ U V _ _ _ _ hk _ hR => dlF_similar hA' hk hR U V
  | laplaceAdjoint h1 h2 =>
    exact mk (.laplaceAdjoint h1) (.laplaceAdjoint h2) fun _ _ U V _ _ _ _ hk hT _ => adlF_similar hA' hk hT U V
  | laplaceHypersingular h1 h2 =>
    exact mk (.laplaceHypersingular h1) (.laplaceHypersingular h2) fun _ _ U V _ _ _ _ hk hT hR =>
      curlCurlF_similar hs' hA' hk hT hR U V
  | helmholtzSingleLayer h1 h2 _ =>
    exact mk (.helmholtzSingleLayer h1) (.helmholtzSingleLayer h2) fun _ _ U V _ _ _ _ hk _ _ => slF_similar hk U V
  | helmholtzDoubleLayer h1 h2 _ =>
    exact mk (.helmholtzDoubleLayer h1) (.helmholtzDoubleLayer h2) fun _ _ U V _ _ _ _ hk _ hR =>
      dlF_similar hA' hk hR U V
  | helmholtzAdjoint h1 h2 _ =>
    exact mk (.helmholtzAdjoint h1) (.helmholtzAdjoint h2) fun _ _ U V _ _ _ _ hk hT _ => adlF_similar hA' hk hT U V
  | @helmholtzHypersingular _ _ w w' h1 h2 hw =>
    refine mk (.helmholtzHypersingular h1) (.helmholtzHypersingular h2) fun k _ U V TG RG _ _ hk hT hR => ?_
    have e1 := curlCurlF_similar hs' hA' hk hT hR U V
    have e2 := normalNormalF_similar hA' hk hT hR U V
    unfold helmholtzHypF
    have hw' := congrArg φ hw
    simp only [map_neg, map_mul] at hw' ⊢
    linear_combination e1 - φ w' ^ 2 * e2 + κ * φ s ^ 2 * normalNormalF k U V TG RG * hw'

/-- **C53.** Let the second pair of surfaces be the image of the first one under `x ↦ s A x + b` with an orthogonal
`A` (possibly with other numbers of the entities), and let the kernels be related accordingly, with a factor `κ`; for
the Helmholtz operators the wavenumber is divided by `s`. Then the entries of the second matrix are `κ s^4` (single
layer), `κ s^3` (double layer and adjoint double layer) and `κ s^2` (hypersingular) times those of the first one. -/
theorem C53_similarity {env : Env R T} {asm asm' : Assembler R T} {trial test trial' test' : Space R T}
    {famT famR : CellType → ElementDofs} {GT GR GT' GR' : Geometry R}
    {BT BR : Basis R T} {Q : Quadrature R} {t : CellType} {numT numR : Nat → Nat → Nat} {e : Nat}
    (h : SpacePair env o trial test famT famR GT GR BT BR Q t)
    (h' : SpacePair env o trial' test' famT famR GT' GR' BT BR Q t) (hφ : env.cast = φ)
    (ho : ScaledOperator φ o s K K' asm asm' e) (hb : 0 < o.batchSize)
    (hn : RenumberedPair test.fs trial.fs test'.fs trial'.fs numT numR)
    (hs : s ≠ 0) (hA : Orthonormal3 A) (hK : SimilarKernel φ s A b κ K K')
    (gT : ∀ c ∈ test.fs.grid.entityIter 2, SimilarCell s A b GT c.localIndex GT' (numT 2 c.localIndex))
    (gR : ∀ c ∈ trial.fs.grid.entityIter 2, SimilarCell s A b GR c.localIndex GR' (numR 2 c.localIndex)) :
    ∃ (M M' : List T) (pT pR : Nat → Nat),
      (∀ out, Assemble env asm trial test out ↔ out = some M) ∧
      (∀ out, Assemble env asm' trial' test' out ↔ out = some M') ∧
      SameDofs test.fs test'.fs (numT 2) pT ∧ SameDofs trial.fs trial'.fs (numR 2) pR ∧
      ∀ i j, i < test.fs.globalSize → j < trial.fs.globalSize →
        M'[pT i + test.fs.globalSize * pR j]? =
          (M[i + test.fs.globalSize * j]?).map fun x => κ * φ s ^ e * x := by
  obtain ⟨F, F', c1, c2, e1, e2, hF⟩ := ho.scales (κ := κ) hs hA
  refine matrix_transport (fun x => κ * φ s ^ e * x) (mul_zero _) (fun x y => mul_add _ x y) (h.dense e1 c1)
    (h'.dense e2 c2) (by rw [e1]; exact hb) (by rw [e2]; exact hb) hn ?_ ?_
  · intro c hc c' hc' tt rt a d p q
    have g0 := gT c hc
    have g1 := gR c' hc'
    have := hF _ _ (fun i => BT tt a i p.1) (fun i => BR rt d i q.1) _ _ _ _
      (hK.comps (x := GT.coords c.localIndex p.1) (y := GR.coords c'.localIndex q.1) (by simp [Geometry.coords])
        (by simp [Geometry.coords])) (g0.data (φ := φ) p.1) (g1.data (φ := φ) q.1)
    unfold regularTerm
    rw [hφ, g0.coords, g1.coords, g0.jdet, g1.jdet]
    simp only [map_mul]
    linear_combination φ q.2 * φ (GR.jdet c'.localIndex q.1) * φ p.2 * φ (GT.jdet c.localIndex p.1) * this
  · intro c hc c' hc' tt rt a d p
    have g0 := gT c hc
    have g1 := gR c' hc'
    have := hF _ _ (fun i => BT tt a i p.1) (fun i => BR rt d i p.2.1) _ _ _ _
      (hK.comps (x := GT.coords c.localIndex p.1) (y := GR.coords c'.localIndex p.2.1) (by simp [Geometry.coords])
        (by simp [Geometry.coords])) (g0.data (φ := φ) p.1) (g1.data (φ := φ) p.2.1)
    unfold singularTerm
    rw [hφ, g0.coords, g1.coords, g0.jdet, g1.jdet]
    simp only [map_mul]
    linear_combination φ p.2.2 * φ (GR.jdet c'.localIndex p.2.1) * φ (GT.jdet c.localIndex p.1) * this

end
/-! ### The hypotheses can be met -/

namespace Examples

/-- The octahedron with other numbers: vertex `v` has number `(v + 2) % 6`, the cells are listed in reverse order. -/
def octahedronTurned : Grid :=
  mkGrid 9 6 [(.triangle, [1, 3, 0]), (.triangle, [1, 0, 5]), (.triangle, [1, 5, 4]), (.triangle, [1, 4, 3]),
    (.triangle, [2, 0, 3]), (.triangle, [2, 5, 0]), (.triangle, [2, 4, 5]), (.triangle, [2, 3, 4])] fun _ _ => .owned

theorem octahedronTurned_wf : octahedronTurned.WF where
  tdim := rfl
  index := le2 (by decide) (by decide) (by decide)
  entity := le2 (by intro e he; fin_cases he <;> rfl) (by intro e he; fin_cases he <;> rfl)
    (by intro e he; fin_cases he <;> rfl)
  types := by decide
  sub_lt := by
    intro c hc
    apply le2 <;> revert c <;> decide
  sub_nodup := by
    intro c hc
    apply le2 <;> revert c <;> decide
  sub_length := by
    intro c hc
    apply le2 <;> revert c <;> decide
  sub_self := by decide
  cell_types := by decide
  types_nodup := by decide
  types0 := rfl
  types1 := rfl
  covered := le2 (by decide) (by decide) (by decide)

theorem p1_octahedronTurned : FamilyOn octahedronTurned p1 (fun d _ => if d = 0 then 1 else 0) where
  elem := fun t ht => p1_wf t (by revert ht; revert t; decide)
  count := by
    intro c _ d _ i e _ l hl
    simp only [p1] at hl
    split at hl
    · cases hl; split <;> rfl
    · cases hl

theorem octahedronTurned_vertices : octahedronTurned.Vertices where
  nodup := by decide
  mem := by
    intro v hv i
    have h1 : ∀ v ∈ octahedronTurned.entityIter 0, ∀ i ∈ v.connected 2, ∃ c ∈ octahedronTurned.entityIter 2,
        c.localIndex = i ∧ v.localIndex ∈ c.sub 0 := by decide
    have h2 : ∀ v ∈ octahedronTurned.entityIter 0, ∀ c ∈ octahedronTurned.entityIter 2,
        v.localIndex ∈ c.sub 0 → c.localIndex ∈ v.connected 2 := by decide
    constructor
    · exact h1 v hv i
    · rintro ⟨c, hc, rfl, h⟩
      exact h2 v hv c hc h

/-- The vertices of the edges. -/
def turnedEdges : List (Nat × Nat) :=
  allEdges [(.triangle, [1, 3, 0]), (.triangle, [1, 0, 5]), (.triangle, [1, 5, 4]), (.triangle, [1, 4, 3]),
    (.triangle, [2, 0, 3]), (.triangle, [2, 5, 0]), (.triangle, [2, 4, 5]), (.triangle, [2, 3, 4])]

set_option maxRecDepth 100000 in
theorem octahedronTurned_conforming : octahedronTurned.Conforming fun e => turnedEdges.getD e (0, 0) where
  edge := by decide +kernel
  two := by
    have h : ∀ c ∈ octahedronTurned.entityIter 2, ∀ c' ∈ octahedronTurned.entityIter 2, c.localIndex ≠ c'.localIndex →
        ∀ u ∈ c.sub 0, ∀ v ∈ c.sub 0, ∀ w ∈ c.sub 0, u ∈ c'.sub 0 → v ∈ c'.sub 0 → w ∈ c'.sub 0 →
        u = v ∨ u = w ∨ v = w := by decide +kernel
    intro c hc c' hc' hn u v w hu hv hw
    exact h c hc c' hc' hn u hu v hv w hw

theorem octTurnedSpace : ∃ fs, SerialSpace fs p1 ∧ fs.grid = octahedronTurned := by
  have ho : ∀ d, d ≤ 2 → ∀ e ∈ octahedronTurned.entityIter d, e.ownership = .owned :=
    le2 (by decide) (by decide) (by decide)
  obtain ⟨sp, h, _⟩ := C18_serial_space octahedronTurned_wf p1_octahedronTurned ho
  have hy : (FunctionSpace.new 0 1 octahedronTurned p1).Yields sp := by rw [h]; exact .done sp
  obtain ⟨dm, _, _, _, _, hg, _, hel⟩ := new_local hy
  refine ⟨sp, ⟨?_, ?_, ?_, ?_, ?_⟩, hg⟩
  all_goals rw [hg]
  · exact octahedronTurned_wf
  · exact ⟨_, mkGrid_edges _ _ _ _ (by decide)⟩
  · refine ⟨_, .triangle, p1_octahedronTurned, by decide, ⟨0, [0], by decide, rfl, by decide⟩, ?_⟩
    intro d hd h e
    rcases (by omega : d = 0 ∨ d = 1) with rfl | rfl
    · exact absurd h (by decide)
    · rfl
  · exact ho
  · exact h

theorem octTurnedPair {fs : FunctionSpace} (h : SerialSpace fs p1) (hg : fs.grid = octahedronTurned) (G : Geometry Rat) :
    SpacePair exEnv smallOptions (spaceOf fs p1 G p1Basis) (spaceOf fs p1 G p1Basis) p1 p1
      G G p1Basis p1Basis smallRules .triangle where
  testSpace := h
  trialSpace := h
  testType := by show fs.grid.entityTypes 2 = _; rw [hg]; decide
  trialType := by show fs.grid.entityTypes 2 = _; rw [hg]; decide
  testSurface := by show Surface fs.grid; rw [hg]; exact ⟨rfl, rfl⟩
  trialSurface := by show Surface fs.grid; rw [hg]; exact ⟨rfl, rfl⟩
  testGeometry := spaceOf_geometry fs p1 G p1Basis
  trialGeometry := spaceOf_geometry fs p1 G p1Basis
  testBasis := spaceOf_tabulate fs p1 G p1Basis
  trialBasis := spaceOf_tabulate fs p1 G p1Basis
  rule := exEnv_regular
  same := fun _ => ⟨rfl, rfl, by show fs.grid.Vertices; rw [hg]; exact octahedronTurned_vertices,
    by
      show ∃ ev, fs.grid.Edges ev ∧ fs.grid.Conforming ev
      rw [hg]
      exact ⟨_, mkGrid_edges _ _ _ _ (by decide), octahedronTurned_conforming⟩, exEnv_singular⟩

/-- The new numbers. -/
def octNum : Nat → Nat → Nat
  | 0, v => (v + 2) % 6
  | 1, e =>
    let a := ((octEdge e).1 + 2) % 6
    let b := ((octEdge e).2 + 2) % 6
    turnedEdges.idxOf (min a b, max a b)
  | _, c => 7 - c

set_option maxRecDepth 100000 in
theorem octNum_renumbers : octahedron.Renumbering octahedronTurned octNum where
  types := by decide
  inj := le2
    (by
      have : octahedron.count 0 = 6 := by decide
      rw [this]; intro e e' h h'; simp only [octNum]; omega)
    (by
      have : octahedron.count 1 = 12 := by decide
      rw [this]
      have h : ∀ e : Fin 12, ∀ e' : Fin 12, octNum 1 e = octNum 1 e' → e = e' := by decide +kernel
      intro e e' he he' hn
      exact congrArg Fin.val (h ⟨e, he⟩ ⟨e', he'⟩ hn))
    (by
      have : octahedron.count 2 = 8 := by decide
      rw [this]; intro e e' h h'; simp only [octNum]; omega)
  onto := le2 (by decide) (by decide +kernel) (by decide)
  cell := by
    have h : ∀ c ∈ octahedron.entityIter 2, ∃ c0 ∈ octahedronTurned.entityIter 2, c0.localIndex = octNum 2 c.localIndex ∧
      c0.entityType = c.entityType ∧ c0.sub 0 = (c.sub 0).map (octNum 0) ∧ c0.sub 1 = (c.sub 1).map (octNum 1) ∧
        c0.sub 2 = (c.sub 2).map (octNum 2) := by decide +kernel
    intro c hc
    obtain ⟨c0, h0, h1, h2, h3, h4, h5⟩ := h c hc
    exact ⟨c0, h0, h1, h2, le2 h3 h4 h5⟩

theorem octRenumberedPair {fs fs' : FunctionSpace} (hg : fs.grid = octahedron) (hg' : fs'.grid = octahedronTurned) :
    RenumberedPair fs fs fs' fs' octNum octNum :=
  ⟨by rw [hg, hg']; exact octNum_renumbers, by rw [hg, hg']; exact octNum_renumbers, by simp, fun _ => rfl⟩

/-- The geometry of the octahedron with the new numbers. -/
def turnedGeometry : Geometry Rat :=
  { point := fun c => octGeometry.point (7 - c)
    normal := fun c => octGeometry.normal (7 - c)
    jacobian := fun c => octGeometry.jacobian (7 - c)
    jdet := fun c => octGeometry.jdet (7 - c) }

/-- C52: the double layer operator on the octahedron and on its renumbered copy. -/
example : ∃ fs fs', SerialSpace fs p1 ∧ SerialSpace fs' p1 ∧ fs.grid = octahedron ∧ fs'.grid = octahedronTurned ∧
    ∃ (M M' : List Rat) (p q : Nat → Nat),
      (∀ out, Assemble exEnv (Laplace.doubleLayer (kernelOf squareKernel) smallOptions)
        (spaceOf fs p1 octGeometry p1Basis) (spaceOf fs p1 octGeometry p1Basis) out ↔ out = some M) ∧
      (∀ out, Assemble exEnv (Laplace.doubleLayer (kernelOf squareKernel) smallOptions)
        (spaceOf fs' p1 turnedGeometry p1Basis) (spaceOf fs' p1 turnedGeometry p1Basis) out ↔ out = some M') ∧
      ∀ i j, i < fs.globalSize → j < fs.globalSize →
        M'[p i + fs.globalSize * q j]? = M[i + fs.globalSize * j]? := by
  obtain ⟨fs, h, hg⟩ := octSpace
  obtain ⟨fs', h', hg'⟩ := octTurnedSpace
  have hgeo : ∀ c ∈ fs.grid.entityIter 2, SameGeometry octGeometry c.localIndex turnedGeometry (octNum 2 c.localIndex) := by
    rw [hg]
    have : ∀ c ∈ octahedron.entityIter 2, 7 - (7 - c.localIndex) = c.localIndex := by decide
    intro c hc
    constructor <;> simp only [turnedGeometry, octNum, this c hc]
  obtain ⟨M, M', p, q, h1, h2, _, _, h3⟩ := C52_renumbering (octSpacePair h hg) (octTurnedPair h' hg' turnedGeometry)
    (.laplaceDoubleLayer (kernelOf_computes squareKernel _)) (by decide) (octRenumberedPair hg hg') hgeo hgeo
  exact ⟨fs, fs', h, h', hg, hg', M, M', p, q, h1, h2, h3⟩

/-- A quarter turn around the third axis. -/
def quarterTurn (i j : Nat) : Rat :=
  match i, j with
  | 0, 1 => -1
  | 1, 0 => 1
  | 2, 2 => 1
  | _, _ => 0

theorem quarterTurn_orthonormal : Orthonormal3 quarterTurn := by
  intro j k hj hk
  have h : ∀ j : Fin 3, ∀ k : Fin 3, quarterTurn 0 j * quarterTurn 0 k + quarterTurn 1 j * quarterTurn 1 k +
      quarterTurn 2 j * quarterTurn 2 k = if j.1 = k.1 then 1 else 0 := by decide +kernel
  exact h ⟨j, hj⟩ ⟨k, hk⟩

/-- The kernel of the examples is multiplied by `s^2`. -/
theorem squareKernel_similar (s : Rat) (A : Nat → Nat → Rat) (hA : Orthonormal3 A) (b : Nat → Rat) :
    SimilarKernel (RingHom.id Rat) s A b (s * s) squareKernel squareKernel where
  value := by
    intro x y _ _
    have hd := dot_matVec hA (fun k => x.getD k 0 - y.getD k 0) (fun k => x.getD k 0 - y.getD k 0)
    simp only [matVec] at hd
    simp only [squareKernel, moved, matVec, List.range_succ, List.range_zero, List.nil_append, List.cons_append,
      List.map_cons, List.map_nil, List.getD_cons_zero, List.getD_cons_succ]
    linear_combination s * s * hd
  gradient := by
    intro x y _ _ i hi
    rcases (by omega : i = 0 ∨ i = 1 ∨ i = 2) with rfl | rfl | rfl <;>
    · simp only [squareKernel, moved, matVec, List.range_succ, List.range_zero, List.nil_append, List.cons_append,
        List.map_cons, List.map_nil, List.getD_cons_zero, List.getD_cons_succ, RingHom.id_apply]
      ring

/-- The octahedron turned, scaled by 2 and shifted, with the new numbers. -/
def scaledGeometry : Geometry Rat :=
  { point := fun c x i => 2 * matVec quarterTurn (octGeometry.point (7 - c) x) i + 1
    normal := fun c x i => matVec quarterTurn (octGeometry.normal (7 - c) x) i
    jacobian := fun c x k => 2 * matVec quarterTurn (fun j => octGeometry.jacobian (7 - c) x (3 * (k / 3) + j)) (k % 3)
    jdet := fun c x => 2 * 2 * octGeometry.jdet (7 - c) x }

/-- C53: the Helmholtz hypersingular operator with wavenumber 6 on the octahedron and with wavenumber 3 on a turned
octahedron of twice the size: with this kernel, which is multiplied by 4, the entries are multiplied by 16. -/
example : ∃ fs fs', SerialSpace fs p1 ∧ SerialSpace fs' p1 ∧ fs.grid = octahedron ∧ fs'.grid = octahedronTurned ∧
    ∃ (M M' : List Rat) (p q : Nat → Nat),
      (∀ out, Assemble exEnv (Helmholtz.hypersingular exEnv.cast (fun _ => kernelOf squareKernel) 6 smallOptions)
        (spaceOf fs p1 octGeometry p1Basis) (spaceOf fs p1 octGeometry p1Basis) out ↔ out = some M) ∧
      (∀ out, Assemble exEnv (Helmholtz.hypersingular exEnv.cast (fun _ => kernelOf squareKernel) 3 smallOptions)
        (spaceOf fs' p1 scaledGeometry p1Basis) (spaceOf fs' p1 scaledGeometry p1Basis) out ↔ out = some M') ∧
      ∀ i j, i < fs.globalSize → j < fs.globalSize →
        M'[p i + fs.globalSize * q j]? = (M[i + fs.globalSize * j]?).map fun x => 2 * 2 * 2 ^ 2 * x := by
  obtain ⟨fs, h, hg⟩ := octSpace
  obtain ⟨fs', h', hg'⟩ := octTurnedSpace
  have hgeo : ∀ c ∈ fs.grid.entityIter 2,
      SimilarCell 2 quarterTurn (fun _ => 1) octGeometry c.localIndex scaledGeometry (octNum 2 c.localIndex) := by
    rw [hg]
    have : ∀ c ∈ octahedron.entityIter 2, 7 - (7 - c.localIndex) = c.localIndex := by decide
    intro c hc
    constructor
    · intro x i _; simp only [scaledGeometry, octNum, this c hc]
    · intro x i _; simp only [scaledGeometry, octNum, this c hc]
    · intro x i j hi hj
      simp only [scaledGeometry, octNum, this c hc]
      rw [show (3 * j + i) / 3 = j by omega, show (3 * j + i) % 3 = i by omega]
    · intro x; simp only [scaledGeometry, octNum, this c hc]
  obtain ⟨M, M', p, q, h1, h2, _, _, h3⟩ := C53_similarity (φ := RingHom.id Rat) (s := 2) (A := quarterTurn)
    (b := fun _ => 1) (octSpacePair h hg) (octTurnedPair h' hg' scaledGeometry) rfl
    (.helmholtzHypersingular (k := fun _ => kernelOf squareKernel) (k' := fun _ => kernelOf squareKernel) (w := 6)
      (w' := 3) (kernelOf_computes squareKernel _) (kernelOf_computes squareKernel _) (by norm_num))
    (by decide) (octRenumberedPair hg hg') (by norm_num) quarterTurn_orthonormal
    (squareKernel_similar 2 quarterTurn quarterTurn_orthonormal _) hgeo hgeo
  exact ⟨fs, fs', h, h', hg, hg', M, M', p, q, h1, h2, h3⟩

end Examples
end Bempp
