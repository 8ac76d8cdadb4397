import Verif.Proofs.Congruent
import Verif.Proofs.ScreenParts
import Verif.Props.Locality
import Verif.Props.Vertices
import Verif.Props.ShapeSurface
/-
C95: similar parts of surfaces; screens.
-/
set_option linter.unusedSectionVars false

namespace Bempp
open Examples

section
variable {R T : Type} [Field R] [Field T] {φ : R →+* T} {o : Options} {s : R} {A : Nat → Nat → R} {b : Nat → R} {κ : T}
  {K K' : MathKernel R T}

theorem ScaledOperator.second {asm asm' : Assembler R T} {e : Nat} (h : ScaledOperator φ o s K K' asm asm' e) :
    ∃ F', OperatorWith φ o K' asm' F' := by
  cases h with
  | laplaceSingleLayer h1 h2 => exact ⟨_, .laplaceSingleLayer h2⟩
  | laplaceDoubleLayer h1 h2 => exact ⟨_, .laplaceDoubleLayer h2⟩
  | laplaceAdjoint h1 h2 => exact ⟨_, .laplaceAdjoint h2⟩
  | laplaceHypersingular h1 h2 => exact ⟨_, .laplaceHypersingular h2⟩
  | helmholtzSingleLayer h1 h2 _ => exact ⟨_, .helmholtzSingleLayer h2⟩
  | helmholtzDoubleLayer h1 h2 _ => exact ⟨_, .helmholtzDoubleLayer h2⟩
  | helmholtzAdjoint h1 h2 _ => exact ⟨_, .helmholtzAdjoint h2⟩
  | helmholtzHypersingular h1 h2 _ => exact ⟨_, .helmholtzHypersingular h2⟩

/-- The surface whose cell `c` is cell `num c`. -/
def Geometry.renumber (G : Geometry R) (num : Nat → Nat) : Geometry R :=
  { point := fun c => G.point (num c)
    normal := fun c => G.normal (num c)
    jacobian := fun c => G.jacobian (num c)
    jdet := fun c => G.jdet (num c) }

/-- **C95.** If two grids are similar to parts of other grids, that is, the parts are their images under `x ↦ s A x + b`,
then the entries for DOFs inside of the parts are those for the small grids, up to a factor that depends only on `s` and the
operator. -/
theorem C95_similar_parts {env : Env R T} {asm asm' : Assembler R T} {trial test trial' test' : Space R T}
    {famT famR : CellType → ElementDofs} {GT GR GT' GR' : Geometry R}
    {BT BR : Basis R T} {Q : Quadrature R} {t : CellType} {numT numR : Nat → Nat → Nat} {e : Nat}
    (h : SpacePair env o trial test famT famR GT GR BT BR Q t)
    (h' : SpacePair env o trial' test' famT famR GT' GR' BT BR Q t) (hφ : env.cast = φ)
    (ho : ScaledOperator φ o s K K' asm asm' e) (hb : 0 < o.batchSize)
    (hp : PartPair test.fs trial.fs test'.fs trial'.fs numT numR)
    (hs : s ≠ 0) (hA : Orthonormal3 A) (hK : SimilarKernel φ s A b κ K K')
    (gT : ∀ c ∈ test.fs.grid.entityIter 2, SimilarCell s A b GT c.localIndex GT' (numT 2 c.localIndex))
    (gR : ∀ c ∈ trial.fs.grid.entityIter 2, SimilarCell s A b GR c.localIndex GR' (numR 2 c.localIndex)) :
    ∃ (M M' : List T) (pT pR : Nat → Nat),
      (∀ out, Assemble env asm trial test out ↔ out = some M) ∧
      (∀ out, Assemble env asm' trial' test' out ↔ out = some M') ∧
      PartDofs test.fs test'.fs (numT 2) pT ∧ PartDofs trial.fs trial'.fs (numR 2) pR ∧
      ∀ i j, i < test.fs.globalSize → j < trial.fs.globalSize → InsidePart test.fs test'.fs (numT 2) (pT i) →
        InsidePart trial.fs trial'.fs (numR 2) (pR j) →
        M'[pT i + test'.fs.globalSize * pR j]? =
          (M[i + test.fs.globalSize * j]?).map fun x => κ * φ s ^ e * x := by
  obtain ⟨F', ho'⟩ := ho.second
  let test1 : Space R T := ⟨test.fs, test.tabulate, fun _ pts => some (geoMapOf (GT'.renumber (numT 2)) pts)⟩
  let trial1 : Space R T := ⟨trial.fs, trial.tabulate, fun _ pts => some (geoMapOf (GR'.renumber (numR 2)) pts)⟩
  have h1 : SpacePair env o trial1 test1 famT famR (GT'.renumber (numT 2)) (GR'.renumber (numR 2)) BT BR Q t :=
    { testSpace := h.testSpace
      trialSpace := h.trialSpace
      testType := h.testType
      trialType := h.trialType
      testSurface := h.testSurface
      trialSurface := h.trialSurface
      testGeometry := fun _ _ pts _ => ⟨_, rfl, fun c _ _ => geoMapOf_evaluates _ pts c.localIndex⟩
      trialGeometry := fun _ _ pts _ => ⟨_, rfl, fun c _ _ => geoMapOf_evaluates _ pts c.localIndex⟩
      testBasis := h.testBasis
      trialBasis := h.trialBasis
      rule := h.rule
      same := fun ha => by
        obtain ⟨a1, -, a3⟩ := h.same ha
        obtain ⟨b1, b2⟩ := hp.same ha
        exact ⟨a1, by rw [(h'.same b1).2.1, b2], a3⟩ }
  have hid : RenumberedPair test.fs trial.fs test1.fs trial1.fs (fun _ e => e) fun _ e => e :=
    have idn : ∀ g : Grid, g.Renumbering g fun _ e => e := fun g =>
      ⟨fun _ ht => ht, fun _ _ _ _ _ _ he => he, fun _ _ e0 he0 => ⟨e0, he0, rfl⟩,
        fun c hc => ⟨c, hc, rfl, rfl, fun d _ => (List.map_id' _).symm⟩⟩
    ⟨idn _, idn _, Iff.rfl, fun _ => rfl⟩
  obtain ⟨M, M1, iT, iR, m, m1, sT, sR, eM⟩ := C53_similarity h h1 hφ ho hb hid hs hA hK
    (fun c hc => by have := gT c hc; exact ⟨this.point, this.normal, this.jacobian, this.jdet⟩)
    (fun c hc => by have := gR c hc; exact ⟨this.point, this.normal, this.jacobian, this.jdet⟩)
  obtain ⟨M2, M', pT, pR, m2, m', dT, dR, eP⟩ := C59_locality h1 h' (hφ ▸ ho') hb hp
    (fun c _ => ⟨rfl, rfl, rfl, rfl⟩) (fun c _ => ⟨rfl, rfl, rfl, rfl⟩)
  obtain rfl : M1 = M2 := Option.some.inj ((m2 _).mp ((m1 _).mpr rfl))
  -- with the same numbers of the cells the DOFs keep their numbers
  have fix : ∀ {sp : FunctionSpace} {fam : CellType → ElementDofs} {p : Nat → Nat}, SerialSpace sp fam →
      SameDofs sp sp (fun e => e) p → ∀ i, i < sp.globalSize → p i = i := by
    intro sp fam p hsp hd i hi
    obtain ⟨c, hc, cd, k, hcd, hk⟩ := hsp.dof_in_cell hi
    obtain ⟨cd', h1, h2⟩ := hd.cell c hc
    rw [hcd] at h1 h2
    obtain rfl := Option.some.inj h1
    have h3 := Option.some.inj h2
    have h4 : (cd.map p)[k]? = some i := by rw [← h3]; exact hk
    rw [List.getElem?_map, hk] at h4
    exact Option.some.inj h4
  refine ⟨M, M', pT, pR, m, m', dT, dR, fun i j hi hj inT inR => ?_⟩
  have e1 := eM i j hi hj
  rw [fix h.testSpace sT i hi, fix h.trialSpace sR j hj] at e1
  rw [eP i j hi hj inT inR, ← e1]

end

section
variable {s s' : Shape ℝ} {t : CellType} {g g' : Grid} {pt cl pt' cl' : Nat → Nat} {V V' : Nat → Nat → Nat → ℝ}
  {p q : Nat → Nat} {σ : ℝ} {A : Nat → Nat → ℝ} {b : Nat → ℝ}

/-- The vertices of the cells of the part. -/
theorem Built.moved_vertices {num : Nat → Nat → Nat} (hb : Built s t g pt cl) (hV : HasCorners s g pt V)
    (hV' : HasCorners s' g' pt' V') (hm : s.MovedInto s' (AffineMap3 σ A b) p q) (hp : g.PartIn g' num)
    (hpt : ∀ v, v < g.count 0 → num 0 v < g'.count 0 ∧ pt' (num 0 v) = p (pt v)) :
    MovedVertices σ A b g (num 2) (refCount t 0) V V' := by
  intro c hc k i hk hi
  obtain ⟨c0, hc0, e0, -, hs⟩ := hp.cell c hc
  have hl : (c.sub 0).length = refCount t 0 := by rw [hb.wf.sub_length c hc 0 (by omega), hb.cell_type hc]
  have hk' : (c.sub 0)[k]? = some ((c.sub 0)[k]'(by omega)) := List.getElem?_eq_getElem _
  generalize (c.sub 0)[k]'(by omega) = v at hk'
  have hv := hb.wf.sub_lt c hc 0 (by omega) v (List.mem_of_getElem? hk')
  have hpl : pt v < s.points.length :=
    List.mem_range.mp (hb.points.subset (List.mem_map_of_mem (List.mem_range.mpr hv)))
  obtain ⟨x, hx⟩ : ∃ x, s.at (pt v) = some x := ⟨_, by unfold Shape.at; rw [List.getElem?_eq_getElem hpl]; rfl⟩
  obtain ⟨a0, a1, a2⟩ := hV c hc k v x hk' hx
  obtain ⟨b0, b1, b2⟩ := hV' c0 hc0 k (num 0 v) (AffineMap3 σ A b x) (by rw [hs 0 (by omega), List.getElem?_map, hk']; rfl)
    (by rw [(hpt v hv).2]; exact hm.point _ _ hx)
  rw [← e0]
  have hi : i = 0 ∨ i = 1 ∨ i = 2 := by omega
  rcases hi with rfl | rfl | rfl
  · rw [b0, matVec, a0, a1, a2]; rfl
  · rw [b1, matVec, a0, a1, a2]; rfl
  · rw [b2, matVec, a0, a1, a2]; rfl

theorem cellFunctions_sum (t : CellType) : (cellFunctions t).SumToOne := by
  unfold cellFunctions
  split
  · exact C75_cells.2
  · exact C75_cells.1

theorem cellFunctions_n (ht : t = .triangle ∨ t = .quadrilateral) : (cellFunctions t).n = refCount t 0 := by
  rcases ht with rfl | rfl <;> rfl

/-- The part of a surface made from a shape that is the image of another shape. -/
theorem Built.similar {test trial test' trial' : FunctionSpace} (ht : t = .triangle ∨ t = .quadrilateral)
    (hb : Built s t g pt cl) (hb' : Built s' t g' pt' cl') (hV : HasCorners s g pt V) (hV' : HasCorners s' g' pt' V')
    (hm : s.MovedInto s' (AffineMap3 σ A b) p q) (hσ : 0 < σ) (hA : Orthonormal3 A)
    (g1 : test.grid = g) (g2 : trial.grid = g) (g3 : test'.grid = g') (g4 : trial'.grid = g') :
    ∃ num, PartPair test trial test' trial' num num ∧
      (∀ c ∈ g.entityIter 2, num 2 c.localIndex < g'.count 2 ∧ cl' (num 2 c.localIndex) = q (cl c.localIndex)) ∧
      ∀ c ∈ g.entityIter 2, SimilarCell (detA A * σ) (fun i j => detA A * A i j) b
        (vertexGeometry (cellFunctions t) V) c.localIndex (vertexGeometry (cellFunctions t) V') (num 2 c.localIndex) := by
  obtain ⟨num, hp, hpt, hcl⟩ := hb.part hb' hm
  refine ⟨num, ⟨by rw [g1, g3]; exact hp, by rw [g2, g4]; exact hp, fun _ => ⟨by rw [g3, g4], rfl⟩,
    fun h => absurd (by rw [g1, g2]) h⟩, fun c hc => hcl _ (hb.cell_lt hc), fun c hc => ?_⟩
  exact similarCell_vertices (cellFunctions_sum t) hσ hA fun k i hk hi =>
    hb.moved_vertices hV hV' hm hp hpt c hc k i (by rw [← cellFunctions_n ht]; exact hk) hi

variable {o : Options} {Q : Quadrature ℝ} {famT famR : CellType → ElementDofs} {e : Nat}

/-- **C95.** The Laplace operators on two surfaces made from shapes, if `x ↦ s A x + b` maps the one shape to a part of
the other one. The entries for DOFs inside of the part are those for the small shape, up to a factor. -/
theorem C95_laplace {env : Env ℝ ℝ} {asm asm' : Assembler ℝ ℝ} {trial test trial' test' : Space ℝ ℝ} {BT BR : Basis ℝ ℝ}
    (ht : t = .triangle ∨ t = .quadrilateral) (hb : Built s t g pt cl) (hb' : Built s' t g' pt' cl')
    (hV : HasCorners s g pt V) (hV' : HasCorners s' g' pt' V') (hm : s.MovedInto s' (AffineMap3 σ A b) p q)
    (hσ : 0 < σ) (hA : Orthonormal3 A) (hφ : env.cast = id)
    (h : SpacePair env o trial test famT famR (vertexGeometry (cellFunctions t) V) (vertexGeometry (cellFunctions t) V)
      BT BR Q t)
    (h' : SpacePair env o trial' test' famT famR (vertexGeometry (cellFunctions t) V')
      (vertexGeometry (cellFunctions t) V') BT BR Q t)
    (g1 : test.fs.grid = g) (g2 : trial.fs.grid = g) (g3 : test'.fs.grid = g') (g4 : trial'.fs.grid = g')
    (ho : ScaledOperator id o σ laplaceGreen laplaceGreen asm asm' (e + 1)) (hbatch : 0 < o.batchSize) :
    ∃ (M M' : List ℝ) (num pT pR : Nat → Nat),
      (∀ out, Assemble env asm trial test out ↔ out = some M) ∧
      (∀ out, Assemble env asm' trial' test' out ↔ out = some M') ∧
      (∀ c ∈ g.entityIter 2, num c.localIndex < g'.count 2 ∧ cl' (num c.localIndex) = q (cl c.localIndex)) ∧
      PartDofs test.fs test'.fs num pT ∧ PartDofs trial.fs trial'.fs num pR ∧
      ∀ i j, i < test.fs.globalSize → j < trial.fs.globalSize → InsidePart test.fs test'.fs num (pT i) →
        InsidePart trial.fs trial'.fs num (pR j) →
        M'[pT i + test'.fs.globalSize * pR j]? =
          (M[i + test.fs.globalSize * j]?).map fun x => detA A ^ (e + 1) * σ ^ e * x := by
  obtain ⟨num, hp, hcl, hg⟩ := hb.similar ht hb' hV hV' hm hσ hA g1 g2 g3 g4
  have h2 := detA_sq hA
  obtain ⟨M, M', pT, pR, m, m', dT, dR, hM⟩ := C95_similar_parts (φ := RingHom.id ℝ) h h' hφ (ho.rotation hA) hbatch hp
    (mul_ne_zero (left_ne_zero_of_mul_eq_one h2) hσ.ne') hA.rotation
    ((laplaceGreen_similar (b := b) hσ hA).rotation hA) (by rw [g1]; exact hg) (by rw [g2]; exact hg)
  refine ⟨M, M', num 2, pT, pR, m, m', hcl, dT, dR, fun i j hi hj iT iR => ?_⟩
  rw [hM i j hi hj iT iR, show (1 / σ * (RingHom.id ℝ) (detA A * σ) ^ (e + 1)) = detA A ^ (e + 1) * σ ^ e by
    rw [RingHom.id_apply, mul_pow, pow_succ σ]; field_simp]

/-- **C95** for the Helmholtz operators; the wavenumber is divided by `s`. -/
theorem C95_helmholtz {env : Env ℝ ℂ} {asm asm' : Assembler ℝ ℂ} {trial test trial' test' : Space ℝ ℂ} {BT BR : Basis ℝ ℂ}
    {w : ℝ}
    (ht : t = .triangle ∨ t = .quadrilateral) (hb : Built s t g pt cl) (hb' : Built s' t g' pt' cl')
    (hV : HasCorners s g pt V) (hV' : HasCorners s' g' pt' V') (hm : s.MovedInto s' (AffineMap3 σ A b) p q)
    (hσ : 0 < σ) (hA : Orthonormal3 A) (hφ : env.cast = Complex.ofReal)
    (h : SpacePair env o trial test famT famR (vertexGeometry (cellFunctions t) V) (vertexGeometry (cellFunctions t) V)
      BT BR Q t)
    (h' : SpacePair env o trial' test' famT famR (vertexGeometry (cellFunctions t) V')
      (vertexGeometry (cellFunctions t) V') BT BR Q t)
    (g1 : test.fs.grid = g) (g2 : trial.fs.grid = g) (g3 : test'.fs.grid = g') (g4 : trial'.fs.grid = g')
    (ho : ScaledOperator Complex.ofReal o σ (helmholtzGreen w) (helmholtzGreen (w / σ)) asm asm' (e + 1))
    (hbatch : 0 < o.batchSize) :
    ∃ (M M' : List ℂ) (num pT pR : Nat → Nat),
      (∀ out, Assemble env asm trial test out ↔ out = some M) ∧
      (∀ out, Assemble env asm' trial' test' out ↔ out = some M') ∧
      (∀ c ∈ g.entityIter 2, num c.localIndex < g'.count 2 ∧ cl' (num c.localIndex) = q (cl c.localIndex)) ∧
      PartDofs test.fs test'.fs num pT ∧ PartDofs trial.fs trial'.fs num pR ∧
      ∀ i j, i < test.fs.globalSize → j < trial.fs.globalSize → InsidePart test.fs test'.fs num (pT i) →
        InsidePart trial.fs trial'.fs num (pR j) →
        M'[pT i + test'.fs.globalSize * pR j]? =
          (M[i + test.fs.globalSize * j]?).map fun x => (detA A : ℂ) ^ (e + 1) * (σ : ℂ) ^ e * x := by
  obtain ⟨num, hp, hcl, hg⟩ := hb.similar ht hb' hV hV' hm hσ hA g1 g2 g3 g4
  have h2 := detA_sq hA
  have hk := helmholtzGreen_similar (b := b) hσ hA (w / σ)
  rw [mul_div_cancel₀ _ hσ.ne'] at hk
  obtain ⟨M, M', pT, pR, m, m', dT, dR, hM⟩ := C95_similar_parts (φ := Complex.ofRealHom) h h' hφ (ho.rotation hA) hbatch
    hp (mul_ne_zero (left_ne_zero_of_mul_eq_one h2) hσ.ne') hA.rotation (hk.rotation hA) (by rw [g1]; exact hg)
    (by rw [g2]; exact hg)
  refine ⟨M, M', num 2, pT, pR, m, m', hcl, dT, dR, fun i j hi hj iT iR => ?_⟩
  rw [hM i j hi hj iT iR, show (1 / (σ : ℂ) * Complex.ofRealHom (detA A * σ) ^ (e + 1)) =
      (detA A : ℂ) ^ (e + 1) * (σ : ℂ) ^ e by
    have hs0 : (σ : ℂ) ≠ 0 := by exact_mod_cast hσ.ne'
    rw [Complex.ofRealHom_eq_coe, Complex.ofReal_mul, mul_pow, pow_succ (σ : ℂ)]; field_simp]

end

section
variable {s s' : Shape ℝ} {t : CellType} {m n a b : Nat}

/-- **C95.** A square block of a screen is a smaller screen: it has the same points, scaled and translated, and the same
cells. -/
theorem C95_blocks (hs : ScreenShape m t s) (hs' : ScreenShape n t s') (ha : a + m ≤ n) (hb : b + m ≤ n) :
    s.MovedInto s' (toBlock m n a b) (fun v => (v / (m + 1) + b) * (n + 1) + (v % (m + 1) + a)) (blockCell t m n a b) := by
  rcases hs with ⟨h, rfl⟩ | ⟨h, rfl⟩ <;> rcases hs' with ⟨h', e⟩ | ⟨h', e⟩ <;> try cases e
  · exact triangles_block ha hb h h'
  · exact quadrilaterals_block ha hb h h'

theorem ScreenShape.library (h : ScreenShape n t s) : LibraryShape n t s := Or.inr h

theorem ScreenShape.cases (h : ScreenShape n t s) : t = .triangle ∨ t = .quadrilateral := by
  rcases h with ⟨-, rfl⟩ | ⟨-, rfl⟩ <;> simp

theorem identity_orthonormal : Orthonormal3 (R := ℝ) fun i j => if i = j then 1 else 0 := by
  intro j k hj hk
  interval_cases j <;> interval_cases k <;> simp

theorem identity_det : detA (fun i j => if i = j then 1 else 0) = 1 := by
  simp [detA]

/-- An operator with another kernel on a surface of another size. -/
theorem OperatorWith.scaled {R T : Type} [Field R] [Field T] {φ : R →+* T} {o : Options} {K K' : MathKernel R T}
    {asm' : Assembler R T} {F : MathIntegrand T} (s : R) (h : OperatorWith φ o K' asm' F) :
    ∃ asm e, ScaledOperator φ o s K K' asm asm' (e + 1) := by
  cases h with
  | laplaceSingleLayer h => exact ⟨_, _, .laplaceSingleLayer (kernelOf_computes K _) h⟩
  | laplaceDoubleLayer h => exact ⟨_, _, .laplaceDoubleLayer (kernelOf_computes K _) h⟩
  | laplaceAdjoint h => exact ⟨_, _, .laplaceAdjoint (kernelOf_computes K _) h⟩
  | laplaceHypersingular h => exact ⟨_, _, .laplaceHypersingular (kernelOf_computes K _) h⟩
  | @helmholtzSingleLayer k w h =>
    exact ⟨_, _, .helmholtzSingleLayer (k := fun _ => kernelOf K) (w := s * w) (kernelOf_computes K _) h rfl⟩
  | @helmholtzDoubleLayer k w h =>
    exact ⟨_, _, .helmholtzDoubleLayer (k := fun _ => kernelOf K) (w := s * w) (kernelOf_computes K _) h rfl⟩
  | @helmholtzAdjoint k w h =>
    exact ⟨_, _, .helmholtzAdjoint (k := fun _ => kernelOf K) (w := s * w) (kernelOf_computes K _) h rfl⟩
  | @helmholtzHypersingular k w h =>
    exact ⟨_, _, .helmholtzHypersingular (k := fun _ => kernelOf K) (w := s * w) (kernelOf_computes K _) h rfl⟩

variable {g g' : Grid} {pt cl pt' cl' : Nat → Nat} {V V' : Nat → Nat → Nat → ℝ} {o : Options} {Q : Quadrature ℝ}
  {famT famR : CellType → ElementDofs} {kT kR : Nat → Nat} {e : Nat}

/-- **C95.** Laplace operators on a screen and on a block of a larger screen: the entries for DOFs inside of the block are
those for the small screen times a power of the ratio of the sizes of the cells. -/
theorem C95_screens_laplace {env : Env ℝ ℝ} {asm asm' : Assembler ℝ ℝ} {trial test trial' test' : Space ℝ ℝ}
    {BT BR : Basis ℝ ℝ} (hcast : env.cast = id)
    (hs : ScreenShape m t s) (hs' : ScreenShape n t s') (ha : a + m ≤ n) (hb : b + m ≤ n)
    (hg : Built s t g pt cl) (hg' : Built s' t g' pt' cl') (hV : HasCorners s g pt V) (hV' : HasCorners s' g' pt' V')
    (hT : (famT t).Uniform t kT) (hR : (famR t).Uniform t kR)
    (hmT : FunctionSpace.new 0 1 g famT = .done test.fs) (hmR : FunctionSpace.new 0 1 g famR = .done trial.fs)
    (hmT' : FunctionSpace.new 0 1 g' famT = .done test'.fs) (hmR' : FunctionSpace.new 0 1 g' famR = .done trial'.fs)
    (hgT : GeometryOk test (vertexGeometry (cellFunctions t) V))
    (hgR : GeometryOk trial (vertexGeometry (cellFunctions t) V))
    (hgT' : GeometryOk test' (vertexGeometry (cellFunctions t) V'))
    (hgR' : GeometryOk trial' (vertexGeometry (cellFunctions t) V')) (hbT : TabulateOk test famT BT)
    (hbR : TabulateOk trial famR BR) (hbT' : TabulateOk test' famT BT) (hbR' : TabulateOk trial' famR BR)
    (hreg : RegularOk env o Q t) (hsing : SingularOk env o Q t t)
    (ho : ScaledOperator id o ((m + 1) / (n + 1) : ℝ) laplaceGreen laplaceGreen asm asm' (e + 1)) (hbatch : 0 < o.batchSize) :
    ∃ (M M' : List ℝ) (num pT pR : Nat → Nat),
      (∀ out, Assemble env asm trial test out ↔ out = some M) ∧
      (∀ out, Assemble env asm' trial' test' out ↔ out = some M') ∧
      (∀ c ∈ g.entityIter 2, num c.localIndex < g'.count 2 ∧
        cl' (num c.localIndex) = blockCell t m n a b (cl c.localIndex)) ∧
      PartDofs test.fs test'.fs num pT ∧ PartDofs trial.fs trial'.fs num pR ∧
      ∀ i j, i < test.fs.globalSize → j < trial.fs.globalSize → InsidePart test.fs test'.fs num (pT i) →
        InsidePart trial.fs trial'.fs num (pR j) →
        M'[pT i + test'.fs.globalSize * pR j]? =
          (M[i + test.fs.globalSize * j]?).map fun x => ((m + 1) / (n + 1) : ℝ) ^ e * x := by
  obtain ⟨h, g1, g2⟩ := shape_pair (V := V) hs.library hg hT hR hmT hmR hgT hgR hbT hbR hreg hsing
  obtain ⟨h', g3, g4⟩ := shape_pair (V := V') hs'.library hg' hT hR hmT' hmR' hgT' hgR' hbT' hbR' hreg hsing
  have := C95_laplace hs.cases hg hg' hV hV' (C95_blocks hs hs' ha hb) (by positivity) identity_orthonormal hcast h h'
    g1 g2 g3 g4 ho hbatch
  simpa only [identity_det, one_pow, one_mul] using this

/-- **C95** for the Helmholtz operators. -/
theorem C95_screens_helmholtz {env : Env ℝ ℂ} {asm asm' : Assembler ℝ ℂ} {trial test trial' test' : Space ℝ ℂ}
    {BT BR : Basis ℝ ℂ} {w : ℝ} (hcast : env.cast = Complex.ofReal)
    (hs : ScreenShape m t s) (hs' : ScreenShape n t s') (ha : a + m ≤ n) (hb : b + m ≤ n)
    (hg : Built s t g pt cl) (hg' : Built s' t g' pt' cl') (hV : HasCorners s g pt V) (hV' : HasCorners s' g' pt' V')
    (hT : (famT t).Uniform t kT) (hR : (famR t).Uniform t kR)
    (hmT : FunctionSpace.new 0 1 g famT = .done test.fs) (hmR : FunctionSpace.new 0 1 g famR = .done trial.fs)
    (hmT' : FunctionSpace.new 0 1 g' famT = .done test'.fs) (hmR' : FunctionSpace.new 0 1 g' famR = .done trial'.fs)
    (hgT : GeometryOk test (vertexGeometry (cellFunctions t) V))
    (hgR : GeometryOk trial (vertexGeometry (cellFunctions t) V))
    (hgT' : GeometryOk test' (vertexGeometry (cellFunctions t) V'))
    (hgR' : GeometryOk trial' (vertexGeometry (cellFunctions t) V')) (hbT : TabulateOk test famT BT)
    (hbR : TabulateOk trial famR BR) (hbT' : TabulateOk test' famT BT) (hbR' : TabulateOk trial' famR BR)
    (hreg : RegularOk env o Q t) (hsing : SingularOk env o Q t t)
    (ho : ScaledOperator Complex.ofReal o ((m + 1) / (n + 1)) (helmholtzGreen w)
      (helmholtzGreen (w / ((m + 1) / (n + 1)))) asm asm' (e + 1)) (hbatch : 0 < o.batchSize) :
    ∃ (M M' : List ℂ) (num pT pR : Nat → Nat),
      (∀ out, Assemble env asm trial test out ↔ out = some M) ∧
      (∀ out, Assemble env asm' trial' test' out ↔ out = some M') ∧
      (∀ c ∈ g.entityIter 2, num c.localIndex < g'.count 2 ∧
        cl' (num c.localIndex) = blockCell t m n a b (cl c.localIndex)) ∧
      PartDofs test.fs test'.fs num pT ∧ PartDofs trial.fs trial'.fs num pR ∧
      ∀ i j, i < test.fs.globalSize → j < trial.fs.globalSize → InsidePart test.fs test'.fs num (pT i) →
        InsidePart trial.fs trial'.fs num (pR j) →
        M'[pT i + test'.fs.globalSize * pR j]? =
          (M[i + test.fs.globalSize * j]?).map fun x => (((m + 1) / (n + 1) : ℝ) : ℂ) ^ e * x := by
  obtain ⟨h, g1, g2⟩ := shape_pair (V := V) hs.library hg hT hR hmT hmR hgT hgR hbT hbR hreg hsing
  obtain ⟨h', g3, g4⟩ := shape_pair (V := V') hs'.library hg' hT hR hmT' hmR' hgT' hgR' hbT' hbR' hreg hsing
  have := C95_helmholtz hs.cases hg hg' hV hV' (C95_blocks hs hs' ha hb) (by positivity) identity_orthonormal hcast h h'
    g1 g2 g3 g4 ho hbatch
  simpa only [identity_det, Complex.ofReal_one, one_pow, one_mul] using this

/-- **C95.** The matrices of the Laplace operators on a screen do not change if a block is shifted: whatever two blocks of
the same size are taken, entries for corresponding DOFs inside of the blocks are the same. Corresponding DOFs are given by
spaces on a screen of the size of the blocks. -/
theorem C95_shifts_laplace {env : Env ℝ ℝ} {asm : Assembler ℝ ℝ} {trial test : Space ℝ ℝ} {F : MathIntegrand ℝ}
    {BT BR : Basis ℝ ℝ} {a' b' : Nat} {fT fR : FunctionSpace} (hcast : env.cast = id)
    (hs : ScreenShape m t s) (hs' : ScreenShape n t s') (ha : a + m ≤ n) (hb : b + m ≤ n) (ha' : a' + m ≤ n)
    (hb' : b' + m ≤ n) (hg : Built s t g pt cl) (hg' : Built s' t g' pt' cl') (hV' : HasCorners s' g' pt' V')
    (hT : (famT t).Uniform t kT) (hR : (famR t).Uniform t kR)
    (hmT : FunctionSpace.new 0 1 g famT = .done fT) (hmR : FunctionSpace.new 0 1 g famR = .done fR)
    (hmT' : FunctionSpace.new 0 1 g' famT = .done test.fs) (hmR' : FunctionSpace.new 0 1 g' famR = .done trial.fs)
    (hgT' : GeometryOk test (vertexGeometry (cellFunctions t) V'))
    (hgR' : GeometryOk trial (vertexGeometry (cellFunctions t) V'))
    (hbT' : TabulateOk test famT BT) (hbR' : TabulateOk trial famR BR)
    (hreg : RegularOk env o Q t) (hsing : SingularOk env o Q t t)
    (ho : OperatorWith env.cast o laplaceGreen asm F) (hbatch : 0 < o.batchSize) :
    ∃ (M : List ℝ) (num pT pR num' pT' pR' : Nat → Nat),
      (∀ out, Assemble env asm trial test out ↔ out = some M) ∧
      (∀ c ∈ g.entityIter 2, num c.localIndex < g'.count 2 ∧ num' c.localIndex < g'.count 2 ∧
        cl' (num c.localIndex) = blockCell t m n a b (cl c.localIndex) ∧
        cl' (num' c.localIndex) = blockCell t m n a' b' (cl c.localIndex)) ∧
      PartDofs fT test.fs num pT ∧ PartDofs fR trial.fs num pR ∧
      PartDofs fT test.fs num' pT' ∧ PartDofs fR trial.fs num' pR' ∧
      ∀ i j, i < fT.globalSize → j < fR.globalSize → InsidePart fT test.fs num (pT i) →
        InsidePart fR trial.fs num (pR j) → InsidePart fT test.fs num' (pT' i) → InsidePart fR trial.fs num' (pR' j) →
        M[pT i + test.fs.globalSize * pR j]? = M[pT' i + test.fs.globalSize * pR' j]? := by
  obtain ⟨V, hV⟩ := hg.exists_corners
  have ho' : OperatorWith (RingHom.id ℝ) o laplaceGreen asm F := by rw [hcast] at ho; exact ho
  obtain ⟨asm0, e, hsc⟩ := ho'.scaled (K := laplaceGreen) (((m : ℝ) + 1) / (n + 1))
  have key := fun (a b : Nat) (ha : a + m ≤ n) (hb : b + m ≤ n) => C95_screens_laplace (env := env) (o := o) (Q := Q)
    (test := Examples.spaceOf fT famT (vertexGeometry (cellFunctions t) V) BT)
    (trial := Examples.spaceOf fR famR (vertexGeometry (cellFunctions t) V) BR) (test' := test) (trial' := trial) hcast
    hs hs' ha hb hg hg' hV hV' hT hR hmT hmR hmT' hmR' (spaceOf_geometry fT famT _ BT) (spaceOf_geometry fR famR _ BR)
    hgT' hgR' (spaceOf_tabulate fT famT _ BT) (spaceOf_tabulate fR famR _ BR) hbT' hbR' hreg hsing hsc hbatch
  obtain ⟨M0, M, num, pT, pR, m0, m1, c1, dT, dR, eq⟩ := key a b ha hb
  obtain ⟨M0', M', num', pT', pR', m0', m1', c1', dT', dR', eq'⟩ := key a' b' ha' hb'
  obtain rfl : M0 = M0' := Option.some.inj ((m0' _).mp ((m0 _).mpr rfl))
  obtain rfl : M = M' := Option.some.inj ((m1' _).mp ((m1 _).mpr rfl))
  exact ⟨M, num, pT, pR, num', pT', pR', m1, fun c hc => ⟨(c1 c hc).1, (c1' c hc).1, (c1 c hc).2, (c1' c hc).2⟩, dT, dR, dT', dR',
    fun i j hi hj i1 i2 i3 i4 => (eq i j hi hj i1 i2).trans (eq' i j hi hj i3 i4).symm⟩

/-- **C95** for the Helmholtz operators. -/
theorem C95_shifts_helmholtz {env : Env ℝ ℂ} {asm : Assembler ℝ ℂ} {trial test : Space ℝ ℂ} {F : MathIntegrand ℂ} {w : ℝ}
    {BT BR : Basis ℝ ℂ} {a' b' : Nat} {fT fR : FunctionSpace} (hcast : env.cast = Complex.ofReal)
    (hs : ScreenShape m t s) (hs' : ScreenShape n t s') (ha : a + m ≤ n) (hb : b + m ≤ n) (ha' : a' + m ≤ n)
    (hb' : b' + m ≤ n) (hg : Built s t g pt cl) (hg' : Built s' t g' pt' cl') (hV' : HasCorners s' g' pt' V')
    (hT : (famT t).Uniform t kT) (hR : (famR t).Uniform t kR)
    (hmT : FunctionSpace.new 0 1 g famT = .done fT) (hmR : FunctionSpace.new 0 1 g famR = .done fR)
    (hmT' : FunctionSpace.new 0 1 g' famT = .done test.fs) (hmR' : FunctionSpace.new 0 1 g' famR = .done trial.fs)
    (hgT' : GeometryOk test (vertexGeometry (cellFunctions t) V'))
    (hgR' : GeometryOk trial (vertexGeometry (cellFunctions t) V'))
    (hbT' : TabulateOk test famT BT) (hbR' : TabulateOk trial famR BR)
    (hreg : RegularOk env o Q t) (hsing : SingularOk env o Q t t)
    (ho : OperatorWith env.cast o (helmholtzGreen w) asm F) (hbatch : 0 < o.batchSize) :
    ∃ (M : List ℂ) (num pT pR num' pT' pR' : Nat → Nat),
      (∀ out, Assemble env asm trial test out ↔ out = some M) ∧
      (∀ c ∈ g.entityIter 2, num c.localIndex < g'.count 2 ∧ num' c.localIndex < g'.count 2 ∧
        cl' (num c.localIndex) = blockCell t m n a b (cl c.localIndex) ∧
        cl' (num' c.localIndex) = blockCell t m n a' b' (cl c.localIndex)) ∧
      PartDofs fT test.fs num pT ∧ PartDofs fR trial.fs num pR ∧
      PartDofs fT test.fs num' pT' ∧ PartDofs fR trial.fs num' pR' ∧
      ∀ i j, i < fT.globalSize → j < fR.globalSize → InsidePart fT test.fs num (pT i) →
        InsidePart fR trial.fs num (pR j) → InsidePart fT test.fs num' (pT' i) → InsidePart fR trial.fs num' (pR' j) →
        M[pT i + test.fs.globalSize * pR j]? = M[pT' i + test.fs.globalSize * pR' j]? := by
  obtain ⟨V, hV⟩ := hg.exists_corners
  have ho' : OperatorWith Complex.ofRealHom o (helmholtzGreen w) asm F := by rw [hcast] at ho; exact ho
  obtain ⟨asm0, e, hsc⟩ := ho'.scaled (K := helmholtzGreen (w * (((m : ℝ) + 1) / (n + 1)))) (((m : ℝ) + 1) / (n + 1))
  have hw : w = w * (((m : ℝ) + 1) / (n + 1)) / (((m : ℝ) + 1) / (n + 1)) := by
    have h1 : ((m : ℝ) + 1) ≠ 0 := by positivity
    have h2 : ((n : ℝ) + 1) ≠ 0 := by positivity
    field_simp
  rw [show helmholtzGreen w = helmholtzGreen (w * (((m : ℝ) + 1) / (n + 1)) / (((m : ℝ) + 1) / (n + 1))) from
    congrArg helmholtzGreen hw] at hsc
  have key := fun (a b : Nat) (ha : a + m ≤ n) (hb : b + m ≤ n) => C95_screens_helmholtz (env := env) (o := o) (Q := Q)
    (test := Examples.spaceOf fT famT (vertexGeometry (cellFunctions t) V) BT)
    (trial := Examples.spaceOf fR famR (vertexGeometry (cellFunctions t) V) BR) (test' := test) (trial' := trial) hcast
    hs hs' ha hb hg hg' hV hV' hT hR hmT hmR hmT' hmR' (spaceOf_geometry fT famT _ BT) (spaceOf_geometry fR famR _ BR)
    hgT' hgR' (spaceOf_tabulate fT famT _ BT) (spaceOf_tabulate fR famR _ BR) hbT' hbR' hreg hsing hsc hbatch
  obtain ⟨M0, M, num, pT, pR, m0, m1, c1, dT, dR, eq⟩ := key a b ha hb
  obtain ⟨M0', M', num', pT', pR', m0', m1', c1', dT', dR', eq'⟩ := key a' b' ha' hb'
  obtain rfl : M0 = M0' := Option.some.inj ((m0' _).mp ((m0 _).mpr rfl))
  obtain rfl : M = M' := Option.some.inj ((m1' _).mp ((m1 _).mpr rfl))
  exact ⟨M, num, pT, pR, num', pT', pR', m1, fun c hc => ⟨(c1 c hc).1, (c1' c hc).1, (c1 c hc).2, (c1' c hc).2⟩, dT, dR, dT', dR',
    fun i j hi hj i1 i2 i3 i4 => (eq i j hi hj i1 i2).trans (eq' i j hi hj i3 i4).symm⟩

end

/-- **C95.** If the element has DOFs only in the interior of cells (discontinuous elements), every DOF of the part is
inside, so that the whole matrix of the small surface is, up to the factor, a block of the matrix of the large one. -/
theorem C95_interior {s s' : Shape ℝ} {t : CellType} {g g' : Grid} {pt cl pt' cl' : Nat → Nat}
    {fam : CellType → ElementDofs} {k : Nat → Nat} {sp sp' : FunctionSpace} {num p : Nat → Nat}
    (hg : Built s t g pt cl) (hg' : Built s' t g' pt' cl') (hu : (fam t).Uniform t k) (h0 : k 0 = 0) (h1 : k 1 = 0)
    (hm : FunctionSpace.new 0 1 g fam = .done sp) (hm' : FunctionSpace.new 0 1 g' fam = .done sp')
    (hnum : ∀ c ∈ g.entityIter 2, num c.localIndex < g'.count 2) (hd : PartDofs sp sp' num p) {i : Nat}
    (hi : i < sp.globalSize) : InsidePart sp sp' num (p i) := by
  obtain ⟨f, e, sf, gf, -⟩ := hg.space hu
  obtain rfl : sp = f := by rw [hm] at e; exact Prog.done.inj e
  obtain ⟨f', e', sf', gf', -⟩ := hg'.space hu
  obtain rfl : sp' = f' := by rw [hm'] at e'; exact Prog.done.inj e'
  intro c' hc' cd' hcd' hmem
  obtain ⟨c, hc, cd, a, e1, e2⟩ := sf.dof_in_cell hi
  obtain ⟨cd2, f1, f2⟩ := hd.cell c hc
  rw [e1] at f1
  cases f1
  refine ⟨c, hc, ?_⟩
  rw [gf] at hc
  rw [gf'] at hc'
  obtain ⟨c0, hc0, i0⟩ := hg'.wf.cell_at (hnum c hc)
  rw [← i0] at f2
  obtain ⟨d, x, q1, q2, q3, q4⟩ := (C04_shared_dofs hg'.wf (hg'.family hu) (by rw [hm']; exact .done _) c0 c' hc0 hc').mp
    ⟨_, cd', p i, f2, hcd', List.mem_map_of_mem (List.mem_of_getElem? e2), hmem⟩
  rcases (by omega : d = 0 ∨ d = 1 ∨ d = 2) with rfl | rfl | rfl
  · omega
  · omega
  · rw [hg'.wf.sub_self c0 hc0, List.mem_singleton] at q2
    rw [hg'.wf.sub_self c' hc', List.mem_singleton] at q3
    rw [← q3, q2, i0]

/-- The corners of a cell of a screen are corners of its square. -/
theorem ScreenShape.corner {n : Nat} {t : CellType} {s : Shape ℝ} (hs : ScreenShape n t s) {k v : Nat} {c : Nat × List Nat}
    (hk : s.cells[k]? = some c) (hv : v ∈ c.2) : (screenSquare t n k).1 < n ∧ (screenSquare t n k).2 < n ∧
      ∃ i j, i ≤ 1 ∧ j ≤ 1 ∧ v = gridPoint n ((screenSquare t n k).1 + i) ((screenSquare t n k).2 + j) := by
  have hlt := (List.getElem?_eq_some_iff.mp hk).1
  rcases hs with ⟨h, rfl⟩ | ⟨h, rfl⟩
  · have e := screenTriangles_list _ h
    rw [e, List.length_map, List.length_range] at hlt
    rw [e, List.getElem?_map, List.getElem?_range hlt] at hk
    obtain rfl := Option.some.inj hk
    obtain ⟨x, y, hx, hy, e2⟩ := grid_split (n := n) (v := k / 2) (by omega)
    simp only [screenSquare, halfSquare] at hv ⊢
    rw [e2, grid_mod hx, grid_div hx] at hv ⊢
    refine ⟨hx, hy, ?_⟩
    split at hv <;> simp only [lowerTri, upperTri, List.mem_cons, List.not_mem_nil, or_false] at hv
    · rcases hv with rfl | rfl | rfl
      · exact ⟨0, 0, by omega, by omega, rfl⟩
      · exact ⟨1, 0, by omega, by omega, rfl⟩
      · exact ⟨1, 1, by omega, by omega, rfl⟩
    · rcases hv with rfl | rfl | rfl
      · exact ⟨0, 0, by omega, by omega, rfl⟩
      · exact ⟨1, 1, by omega, by omega, rfl⟩
      · exact ⟨0, 1, by omega, by omega, rfl⟩
  · have e := screenQuadrilaterals_list _ h
    rw [e, List.length_map, List.length_range] at hlt
    rw [e, List.getElem?_map, List.getElem?_range hlt] at hk
    obtain rfl := Option.some.inj hk
    obtain ⟨x, y, hx, hy, e2⟩ := grid_split hlt
    simp only [screenSquare] at hv ⊢
    rw [e2, grid_mod hx, grid_div hx] at hv ⊢
    refine ⟨hx, hy, ?_⟩
    simp only [squareQuad, List.mem_cons, List.not_mem_nil, or_false] at hv
    rcases hv with rfl | rfl | rfl | rfl
    · exact ⟨0, 0, by omega, by omega, rfl⟩
    · exact ⟨1, 0, by omega, by omega, rfl⟩
    · exact ⟨0, 1, by omega, by omega, rfl⟩
    · exact ⟨1, 1, by omega, by omega, rfl⟩

/-- The cells of a block of a screen. -/
theorem ScreenShape.block {m n a : Nat} (b : Nat) {t : CellType} {s s' : Shape ℝ} (hs : ScreenShape m t s)
    (hs' : ScreenShape n t s') (ha : a + m ≤ n) :
    (∀ k, k < s.cells.length → screenSquare t n (blockCell t m n a b k) =
      ((screenSquare t m k).1 + a, (screenSquare t m k).2 + b)) ∧
    ∀ k', k' < s'.cells.length → a ≤ (screenSquare t n k').1 → (screenSquare t n k').1 < a + m →
      b ≤ (screenSquare t n k').2 → (screenSquare t n k').2 < b + m → ∃ k, k < s.cells.length ∧ blockCell t m n a b k = k' := by
  rcases hs with ⟨h, rfl⟩ | ⟨h, rfl⟩
  · obtain h' : screenTriangles (fun k => (k : ℝ)) n = some s' := by simpa [ScreenShape] using hs'
    have e := screenTriangles_list _ h
    have e' := screenTriangles_list _ h'
    rw [e, e', List.length_map, List.length_map, List.length_range, List.length_range]
    refine ⟨fun k hk => ?_, fun k' hk' => ?_⟩
    · obtain ⟨x, y, hx, hy, e2⟩ := grid_split (n := m) (v := k / 2) (by omega)
      simp only [screenSquare, blockCell]
      rw [e2, grid_mod hx, grid_div hx, show (2 * ((y + b) * n + (x + a)) + k % 2) / 2 = (y + b) * n + (x + a) by omega,
        grid_mod (by omega), grid_div (by omega)]
    · obtain ⟨x, y, hx, hy, e2⟩ := grid_split (n := n) (v := k' / 2) (by omega)
      simp only [screenSquare, blockCell]
      rw [e2, grid_mod hx, grid_div hx]
      intro h1 h2 h3 h4
      have hlt : (y - b) * m + (x - a) < m * m := grid_lt (by omega) (by omega)
      refine ⟨2 * ((y - b) * m + (x - a)) + k' % 2, by omega, ?_⟩
      rw [show (2 * ((y - b) * m + (x - a)) + k' % 2) / 2 = (y - b) * m + (x - a) by omega,
        grid_mod (by omega), grid_div (by omega), show y - b + b = y by omega, show x - a + a = x by omega]
      omega
  · obtain h' : screenQuadrilaterals (fun k => (k : ℝ)) n = some s' := by simpa [ScreenShape] using hs'
    have e := screenQuadrilaterals_list _ h
    have e' := screenQuadrilaterals_list _ h'
    rw [e, e', List.length_map, List.length_map, List.length_range, List.length_range]
    refine ⟨fun k hk => ?_, fun k' hk' => ?_⟩
    · obtain ⟨x, y, hx, hy, rfl⟩ := grid_split hk
      simp only [screenSquare, blockCell]
      rw [grid_mod hx, grid_div hx, grid_mod (by omega), grid_div (by omega)]
    · obtain ⟨x, y, hx, hy, rfl⟩ := grid_split hk'
      simp only [screenSquare, blockCell]
      rw [grid_mod hx, grid_div hx]
      intro h1 h2 h3 h4
      refine ⟨(y - b) * m + (x - a), grid_lt (by omega) (by omega), ?_⟩
      rw [grid_mod (by omega), grid_div (by omega), show y - b + b = y by omega, show x - a + a = x by omega]

/-- **C95.** Continuous elements: the DOFs of all cells of a block that are not in its outermost rows and columns are
inside of the block. -/
theorem C95_inner {m n a b : Nat} {s s' : Shape ℝ} {t : CellType} {g g' : Grid} {pt cl pt' cl' : Nat → Nat}
    {fam : CellType → ElementDofs} {kd : Nat → Nat} {sp sp' : FunctionSpace} {num p : Nat → Nat}
    (hs : ScreenShape m t s) (hs' : ScreenShape n t s') (ha : a + m ≤ n)
    (hg : Built s t g pt cl) (hg' : Built s' t g' pt' cl') (hu : (fam t).Uniform t kd)
    (hm : FunctionSpace.new 0 1 g fam = .done sp) (hm' : FunctionSpace.new 0 1 g' fam = .done sp')
    (hnum : ∀ c ∈ g.entityIter 2, num c.localIndex < g'.count 2 ∧
      cl' (num c.localIndex) = blockCell t m n a b (cl c.localIndex))
    (hd : PartDofs sp sp' num p) {c : Entity} {cd : List Nat} {i : Nat} (hc : c ∈ g.entityIter 2)
    (hcd : sp.cellDofs c.localIndex = some cd) (hi : i ∈ cd)
    (h1 : 0 < (screenSquare t m (cl c.localIndex)).1) (h2 : (screenSquare t m (cl c.localIndex)).1 + 1 < m)
    (h3 : 0 < (screenSquare t m (cl c.localIndex)).2) (h4 : (screenSquare t m (cl c.localIndex)).2 + 1 < m) :
    InsidePart sp sp' num (p i) := by
  obtain ⟨f, e, sf, gf, -⟩ := hg.space hu
  obtain rfl : sp = f := by rw [hm] at e; exact Prog.done.inj e
  obtain ⟨f', e', sf', gf', -⟩ := hg'.space hu
  obtain rfl : sp' = f' := by rw [hm'] at e'; exact Prog.done.inj e'
  intro c' hc' cd' hcd' hmem
  obtain ⟨cd2, f1, f2⟩ := hd.cell c (by rw [gf]; exact hc)
  rw [hcd] at f1
  cases f1
  rw [gf'] at hc'
  rw [gf]
  obtain ⟨c0, hc0, i0⟩ := hg'.wf.cell_at (hnum c hc).1
  rw [← i0] at f2
  obtain ⟨d, x, q1, q2, q3, q4⟩ := (C04_shared_dofs hg'.wf (hg'.family hu) (by rw [hm']; exact .done _) c0 c' hc0 hc').mp
    ⟨_, cd', p i, f2, hcd', List.mem_map_of_mem hi, hmem⟩
  obtain ⟨v, hv, hv'⟩ : ∃ v, v ∈ c0.sub 0 ∧ v ∈ c'.sub 0 := by
    rcases (by omega : d = 0 ∨ d = 1 ∨ d = 2) with rfl | rfl | rfl
    · exact ⟨x, q2, q3⟩
    · obtain ⟨ev, ed⟩ := hg'.edges
      exact shared_vertex_of_edge ed hc0 hc' q2 q3
    · rw [hg'.wf.sub_self c0 hc0, List.mem_singleton] at q2
      rw [hg'.wf.sub_self c' hc', List.mem_singleton] at q3
      have : c' = c0 := by
        have a1 := hg'.wf.entity 2 (by omega) c' hc'
        have a2 := hg'.wf.entity 2 (by omega) c0 hc0
        rw [← q3, q2, a2] at a1
        exact (Option.some.inj a1).symm
      subst this
      have hl := hg'.wf.sub_length c' hc' 0 (by omega)
      have hpos : 0 < (c'.sub 0).length := by
        rw [hl]
        rcases hg'.wf.cell_types _ (hg'.wf.types c' hc') with e | e <;> rw [e] <;> decide
      exact ⟨(c'.sub 0)[0], List.getElem_mem hpos, List.getElem_mem hpos⟩
  obtain ⟨y0, hy0, e0⟩ := hg'.corners c0 hc0
  obtain ⟨y1, hy1, e1⟩ := hg'.corners c' hc'
  obtain ⟨-, -, i1, j1, hi1, hj1, w1⟩ := hs'.corner hy0 (v := pt' v) (by rw [e0]; exact List.mem_map_of_mem hv)
  obtain ⟨-, -, i2, j2, hi2, hj2, w2⟩ := hs'.corner hy1 (v := pt' v) (by rw [e1]; exact List.mem_map_of_mem hv')
  obtain ⟨sq, back⟩ := hs.block b hs' ha
  obtain ⟨y, hy, -⟩ := hg.corners c hc
  rw [i0, (hnum c hc).2, sq _ (List.getElem?_eq_some_iff.mp hy).1, w2] at w1
  have hlt := (List.getElem?_eq_some_iff.mp hy1).1
  obtain ⟨b1, b2, -⟩ := hs'.corner hy1 (v := pt' v) (by rw [e1]; exact List.mem_map_of_mem hv')
  obtain ⟨u1, u2⟩ := grid_inj (n := n + 1) (by omega) (by omega) w1
  simp only at u1 u2
  obtain ⟨k, hk, ek⟩ := back _ hlt (by omega) (by omega) (by omega) (by omega)
  obtain ⟨l, hl, el⟩ : ∃ l, l < g.count 2 ∧ cl l = k := by
    have := hg.cells.mem_iff.mpr (List.mem_range.mpr hk)
    simpa using this
  obtain ⟨c2, hc2, i2⟩ := hg.wf.cell_at hl
  refine ⟨c2, hc2, ?_⟩
  have hn := hnum c2 hc2
  have hnd : ((List.range (g'.count 2)).map cl').Nodup := hg'.cells.nodup_iff.mpr List.nodup_range
  refine List.inj_on_of_nodup_map hnd (List.mem_range.mpr ?_) (List.mem_range.mpr hn.1) ?_
  · exact hg'.wf.sub_lt c' hc' 2 (by omega) _ (by rw [hg'.wf.sub_self c' hc']; simp)
  · rw [hn.2, i2, el, ek]

/-! ### The hypotheses can be met -/

namespace Examples

theorem dp0_uniform : ∀ t ∈ [CellType.triangle, CellType.quadrilateral],
    (dp0 t).Uniform t fun d => if d = 2 then 1 else 0 := by
  intro t ht
  refine ⟨dp0_wf t ht, ?_, by decide⟩
  intro d hd i hi l hl
  simp only [dp0, hd, hi, and_self, if_true, Option.some.injEq] at hl
  subst hl
  split <;> rfl

/-- Piecewise constant functions. -/
noncomputable def realDp0 : Basis ℝ ℝ := fun _ _ i _ => if i = 0 then 1 else 0

/-- C95: the Laplace single layer matrix with piecewise constant functions on a screen of any size: two blocks of any
size. All entries for cells of the blocks are the same. -/
example {m n a b a' b' : Nat} (hm : 0 < m) (ha : a + m ≤ n) (hb : b + m ≤ n) (ha' : a' + m ≤ n) (hb' : b' + m ≤ n)
    (k : Nat) : ∃ (fs f0 : FunctionSpace) (V : Nat → Nat → Nat → ℝ) (M : List ℝ) (p p' : Nat → Nat),
    fs.globalSize = 2 * n * n ∧ f0.globalSize = 2 * m * m ∧
    (∀ out, Assemble latticeEnv (Laplace.singleLayer (kernelOf laplaceGreen) (latticeOptions k))
      (Examples.spaceOf fs dp0 (vertexGeometry triangleFunctions V) realDp0)
      (Examples.spaceOf fs dp0 (vertexGeometry triangleFunctions V) realDp0) out ↔ out = some M) ∧
    (∀ i j, i < f0.globalSize → j < f0.globalSize → p i = p j → i = j) ∧
    (∀ i j, i < f0.globalSize → j < f0.globalSize → p' i = p' j → i = j) ∧
    ∀ i j, i < f0.globalSize → j < f0.globalSize →
      M[p i + fs.globalSize * p j]? = M[p' i + fs.globalSize * p' j]? := by
  obtain ⟨s, hs⟩ := screenTriangles_some (fun k => (k : ℝ)) hm
  obtain ⟨s', hs'⟩ := screenTriangles_some (fun k => (k : ℝ)) (n := n) (by omega)
  have h0 : ScreenShape m .triangle s := .inl ⟨hs, rfl⟩
  have h1 : ScreenShape n .triangle s' := .inl ⟨hs', rfl⟩
  obtain ⟨-, -, -, ⟨g, pt, cl, hg⟩, -⟩ := C47_conforming _ _ _ h0.library
  obtain ⟨-, -, -, ⟨g', pt', cl', hg'⟩, -⟩ := C47_conforming _ _ _ h1.library
  obtain ⟨V, hV⟩ := hg'.exists_corners
  have hu := dp0_uniform .triangle (by decide)
  obtain ⟨f0, e0, z0⟩ := C46_screen_triangles _ hs hg hu
  obtain ⟨fs, e1, z1⟩ := C46_screen_triangles _ hs' hg' hu
  obtain ⟨M, num, pT, pR, num', pT', pR', m1, hc, dT, dR, dT', dR', eq⟩ := C95_shifts_laplace (env := latticeEnv)
    (o := latticeOptions k) (Q := latticeRules k) (V' := V)
    (test := Examples.spaceOf fs dp0 (vertexGeometry triangleFunctions V) realDp0)
    (trial := Examples.spaceOf fs dp0 (vertexGeometry triangleFunctions V) realDp0)
    (asm := Laplace.singleLayer (kernelOf laplaceGreen) (latticeOptions k)) rfl h0 h1 ha hb ha' hb' hg hg' hV hu hu e0 e0
    e1 e1 (spaceOf_geometry fs dp0 _ realDp0) (spaceOf_geometry fs dp0 _ realDp0) (spaceOf_tabulate fs dp0 _ realDp0)
    (spaceOf_tabulate fs dp0 _ realDp0) (lattice_regular k) (lattice_singular k)
    (.laplaceSingleLayer (kernelOf_computes laplaceGreen _)) (by show 0 < 128; decide)
  have in1 := fun i hi => C95_interior hg hg' hu rfl rfl e0 e1 (fun c h => (hc c h).1) dT (i := i) hi
  have in2 := fun i hi => C95_interior hg hg' hu rfl rfl e0 e1 (fun c h => (hc c h).2.1) dT' (i := i) hi
  have in3 := fun i hi => C95_interior hg hg' hu rfl rfl e0 e1 (fun c h => (hc c h).1) dR (i := i) hi
  have in4 := fun i hi => C95_interior hg hg' hu rfl rfl e0 e1 (fun c h => (hc c h).2.1) dR' (i := i) hi
  -- the two maps for test and trial functions are the same
  have same : ∀ {num p q : Nat → Nat}, PartDofs f0 fs num p → PartDofs f0 fs num q → ∀ i, i < f0.globalSize →
      p i = q i := by
    intro num p q hp hq i hi
    obtain ⟨f, e, sf, -⟩ := hg.space hu
    obtain rfl : f0 = f := by rw [e0] at e; exact Prog.done.inj e
    obtain ⟨c, hc, cd, a, e1, e2⟩ := sf.dof_in_cell hi
    obtain ⟨cd2, f1, f2⟩ := hp.cell c hc
    obtain ⟨cd3, f3, f4⟩ := hq.cell c hc
    rw [e1] at f1 f3
    cases f1
    cases f3
    rw [f2] at f4
    have := congrArg (fun l : List Nat => l[a]?) (Option.some.inj f4)
    simp only [List.getElem?_map, e2, Option.map_some] at this
    exact Option.some.inj this
  refine ⟨fs, f0, V, M, pT, pT', by rw [z1]; simp; ring, by rw [z0]; simp; ring, m1, dT.inj, dT'.inj, fun i j hi hj => ?_⟩
  have := eq i j hi hj (in1 i hi) (in3 j hj) (in2 i hi) (in4 j hj)
  rw [← same dT dR j hj, ← same dT' dR' j hj] at this
  exact this

/-- C95: the Laplace hypersingular matrix with continuous functions. The entries for DOFs of triangles in two blocks, not
in the outermost rows and columns, are the same; there are such triangles as soon as the blocks have three rows. -/
example {m n a b a' b' : Nat} (hm : 3 ≤ m) (ha : a + m ≤ n) (hb : b + m ≤ n) (ha' : a' + m ≤ n) (hb' : b' + m ≤ n)
    (k : Nat) : ∃ (g : Grid) (cl : Nat → Nat) (fs f0 : FunctionSpace) (V : Nat → Nat → Nat → ℝ) (M : List ℝ)
      (p p' q q' : Nat → Nat),
    fs.globalSize = (n + 1) * (n + 1) ∧ f0.globalSize = (m + 1) * (m + 1) ∧
    (∀ out, Assemble latticeEnv (Laplace.hypersingular (kernelOf laplaceGreen) (latticeOptions k))
      (Examples.spaceOf fs p1 (vertexGeometry triangleFunctions V) realP1)
      (Examples.spaceOf fs p1 (vertexGeometry triangleFunctions V) realP1) out ↔ out = some M) ∧
    (∃ c ∈ g.entityIter 2, screenSquare .triangle m (cl c.localIndex) = (1, 1)) ∧
    ∀ c ∈ g.entityIter 2, ∀ cd, f0.cellDofs c.localIndex = some cd → screenSquare .triangle m (cl c.localIndex) = (1, 1) →
      ∀ i ∈ cd, ∀ j ∈ cd, i < f0.globalSize → j < f0.globalSize →
        M[p i + fs.globalSize * q j]? = M[p' i + fs.globalSize * q' j]? := by
  obtain ⟨s, hs⟩ := screenTriangles_some (fun k => (k : ℝ)) (n := m) (by omega)
  obtain ⟨s', hs'⟩ := screenTriangles_some (fun k => (k : ℝ)) (n := n) (by omega)
  have h0 : ScreenShape m .triangle s := .inl ⟨hs, rfl⟩
  have h1 : ScreenShape n .triangle s' := .inl ⟨hs', rfl⟩
  obtain ⟨-, -, -, ⟨g, pt, cl, hg⟩, -⟩ := C47_conforming _ _ _ h0.library
  obtain ⟨-, -, -, ⟨g', pt', cl', hg'⟩, -⟩ := C47_conforming _ _ _ h1.library
  obtain ⟨V, hV⟩ := hg'.exists_corners
  have hu := p1_uniform .triangle (by decide)
  obtain ⟨f0, e0, z0⟩ := C46_screen_triangles _ hs hg hu
  obtain ⟨fs, e1, z1⟩ := C46_screen_triangles _ hs' hg' hu
  obtain ⟨M, num, pT, pR, num', pT', pR', m1, hc, dT, dR, dT', dR', eq⟩ := C95_shifts_laplace (env := latticeEnv)
    (o := latticeOptions k) (Q := latticeRules k) (V' := V)
    (test := Examples.spaceOf fs p1 (vertexGeometry triangleFunctions V) realP1)
    (trial := Examples.spaceOf fs p1 (vertexGeometry triangleFunctions V) realP1)
    (asm := Laplace.hypersingular (kernelOf laplaceGreen) (latticeOptions k)) rfl h0 h1 ha hb ha' hb' hg hg' hV hu hu e0 e0
    e1 e1 (spaceOf_geometry fs p1 _ realP1) (spaceOf_geometry fs p1 _ realP1) (spaceOf_tabulate fs p1 _ realP1)
    (spaceOf_tabulate fs p1 _ realP1) (lattice_regular k) (lattice_singular k)
    (.laplaceHypersingular (kernelOf_computes laplaceGreen _)) (by show 0 < 128; decide)
  refine ⟨g, cl, fs, f0, V, M, pT, pT', pR, pR', by rw [z1]; simp, by rw [z0]; simp, m1, ?_, ?_⟩
  · have hlen : s.cells.length = 2 * (m * m) := by rw [screenTriangles_list _ hs]; simp
    have hlt : 1 * m + 1 < m * m := grid_lt (by omega) (by omega)
    obtain ⟨l, hl, el⟩ : ∃ l, l < g.count 2 ∧ cl l = 2 * (1 * m + 1) := by
      have := hg.cells.mem_iff.mpr (List.mem_range.mpr (show 2 * (1 * m + 1) < s.cells.length by omega))
      simpa using this
    obtain ⟨c, hc, ec⟩ := hg.wf.cell_at hl
    refine ⟨c, hc, ?_⟩
    simp only [screenSquare]
    rw [ec, el, show 2 * (1 * m + 1) / 2 = 1 * m + 1 by omega, grid_mod (by omega), grid_div (by omega)]
  · intro c h cd hcd hsq i hi j hj li lj
    have hx : (screenSquare .triangle m (cl c.localIndex)).1 = 1 := by rw [hsq]
    have hy : (screenSquare .triangle m (cl c.localIndex)).2 = 1 := by rw [hsq]
    exact eq i j li lj
      (C95_inner h0 h1 ha hg hg' hu e0 e1 (fun c h => ⟨(hc c h).1, (hc c h).2.2.1⟩) dT h hcd hi
        (by omega) (by omega) (by omega) (by omega))
      (C95_inner h0 h1 ha hg hg' hu e0 e1 (fun c h => ⟨(hc c h).1, (hc c h).2.2.1⟩) dR h hcd hj
        (by omega) (by omega) (by omega) (by omega))
      (C95_inner h0 h1 ha' hg hg' hu e0 e1 (fun c h => ⟨(hc c h).2.1, (hc c h).2.2.2⟩) dT' h hcd hi
        (by omega) (by omega) (by omega) (by omega))
      (C95_inner h0 h1 ha' hg hg' hu e0 e1 (fun c h => ⟨(hc c h).2.1, (hc c h).2.2.2⟩) dR' h hcd hj
        (by omega) (by omega) (by omega) (by omega))

end Examples

end Bempp
