import Verif.Proofs.Nodal
import Verif.Props.Continuity
import Verif.Props.Curl
import Verif.Props.Helmholtz
/-
C103: Lagrange spaces of all degrees.
-/
namespace Bempp

variable {lev : Nat} {s : Shape ℝ} {t : CellType} {g : Grid} {pt cl : Nat → Nat} {V : Nat → Nat → Nat → ℝ}
  {fam : CellType → ElementDofs} {fs : FunctionSpace} {B : Basis ℝ ℝ} {p : Nat} {node : Nat → Nat × Nat}

/-- **C103.** In a Lagrange space of any degree, continuous or not, on any serial grid: on every cell the value of a function at
the point of a DOF is the coefficient of this DOF. -/
theorem C103_values (hs : SerialSpace fs fam) (hN : NodalBasis p t (fam t).dim B node) {c : Entity}
    (hc : c ∈ fs.grid.entityIter 2) (ht : c.entityType = t) {cd : List Nat} (hcd : fs.cellDofs c.localIndex = some cd)
    {a n : Nat} (ha : cd[a]? = some n) (u : Nat → ℝ) :
    fs.functionOn B u c 0 (pointList (nodePoint p (node a))) = u n := by
  obtain ⟨nd, -, fo, -⟩ := hs.family
  obtain ⟨cd', h1, h2, -, -⟩ := (C03_cell_dofs hs.wf fo hs.yields).2 c hc
  rw [hcd] at h1
  cases h1
  rw [ht] at h2
  have hal : a < cd.length := (List.getElem?_eq_some_iff.mp ha).1
  have := hN.combination (fun a => u (cd.getD a 0)) (a := a) (by omega)
  simp only [List.getD, ha, Option.getD_some] at this
  rw [← this, hs.functionOn_dofs hc, ht]
  unfold FunctionSpace.dofsOf
  rw [hcd, Option.getD_some, ← h2]
  congr 1
  apply List.ext_getElem (by simp)
  intro k hk hk'
  simp only [List.length_map, List.length_zipIdx] at hk
  simp [hk]

/-- **C103.** Different coefficients give different functions. -/
theorem C103_unique (hs : SerialSpace fs fam) (hN : NodalBasis p t (fam t).dim B node)
    (ht : t = .triangle ∨ t = .quadrilateral) (hc : ∀ c ∈ fs.grid.entityIter 2, c.entityType = t) (u v : Nat → ℝ)
    (h : ∀ c ∈ fs.grid.entityIter 2, ∀ z ∈ refCell t, fs.functionOn B u c 0 (pointList z) =
      fs.functionOn B v c 0 (pointList z)) : ∀ n, n < fs.globalSize → u n = v n := by
  intro n hn
  obtain ⟨c, hc', cd, a, hcd, ha⟩ := hs.dof_in_cell hn
  obtain ⟨nd, -, fo, -⟩ := hs.family
  obtain ⟨cd', h1, h2, -, -⟩ := (C03_cell_dofs hs.wf fo hs.yields).2 c hc'
  rw [hcd] at h1
  cases h1
  rw [hc c hc'] at h2
  have hal : a < cd.length := (List.getElem?_eq_some_iff.mp ha).1
  rw [← C103_values hs hN hc' (hc c hc') hcd ha u, ← C103_values hs hN hc' (hc c hc') hcd ha v]
  exact h c hc' _ (nodePoint_mem ht (hN.point a (by omega)))

/-- **C103.** The basis functions of every degree add up to 1 everywhere and their derivatives to 0; they and their first
derivatives are continuous on the cell; only the combination with coefficients 0 is 0, and only combinations with equal
coefficients are constant. -/
theorem C103_basis (ht : t = .triangle ∨ t = .quadrilateral) {dim : Nat} (hN : NodalBasis p t dim B node) :
    PartitionOfUnity B t dim ∧ ContinuousBasis B t dim ∧ IndependentBasis B t dim ∧ GradientBasis B t dim :=
  ⟨hN.unity, hN.continuous, hN.independent ht, hN.gradient ht⟩

/-- The point that a DOF on a vertex or on an edge has according to the two descriptions of the element. -/
theorem lagrange_point_of {el : ElementDofs} (hL : LagrangeElement p t el B) (hN : NodalBasis p t el.dim B node) {d i k a : Nat}
    (hd : d ≤ 1) (hi : i < refCount t d) {l : List Nat} (hl : el.entityDofs d i = some l) (ha : l[k]? = some a)
    (had : a < el.dim) {m : Nat × Nat} (hm : LagrangePoint p t d i k m) (hmp : NodalPoint p t m) : node a = m := by
  obtain ⟨m', h1, h2⟩ := hL.basis d (by omega) i hi l hl k a ha
  have e : m' = m := by
    match d, hd with
    | 0, _ => exact h1.trans hm.symm
    | 1, _ =>
      obtain ⟨a1, b1, e1, f1⟩ := h1
      obtain ⟨a2, b2, e2, f2⟩ := hm
      rw [e1] at e2
      obtain ⟨rfl, rfl⟩ : a1 = a2 ∧ b1 = b2 := by simpa using e2
      exact f1.trans f2.symm
  subst e
  have h3 := h2 (nodePoint p m')
  rw [hN.value a had] at h3
  simp only [pointList, nodePoint, List.getD_cons_zero, List.getD_cons_succ] at h3
  rw [lagrangeFunction_nodes hL.degree (hN.point a had) hmp, lagrangeFunction_nodes hL.degree hmp hmp, if_pos rfl] at h3
  by_contra hne
  rw [if_neg fun e => hne e.symm] at h3
  exact zero_ne_one h3

theorem lagrangePoint_nodal (hp : 0 < p) (ht : t = .triangle ∨ t = .quadrilateral) {d i k : Nat} (hd : d ≤ 1)
    (hi : i < refCount t d) (hk : d = 1 → k < p - 1) {m : Nat × Nat} (hm : LagrangePoint p t d i k m) :
    NodalPoint p t m := by
  match d, hd with
  | 0, _ =>
    simp only [LagrangePoint] at hm
    subst hm
    rcases ht with rfl | rfl
    · have : i < 3 := hi
      match i, this with
      | 0, _ => simp [NodalPoint, refCorner]
      | 1, _ => simp [NodalPoint, refCorner]
      | 2, _ => simp [NodalPoint, refCorner]
    · have : i < 4 := hi
      match i, this with
      | 0, _ => simp [NodalPoint, refCorner]
      | 1, _ => simp [NodalPoint, refCorner]
      | 2, _ => simp [NodalPoint, refCorner]
      | 3, _ => simp [NodalPoint, refCorner]
  | 1, _ =>
    have hk := hk rfl
    obtain ⟨a, b, he, rfl⟩ := hm
    have e1 : p - 1 - k + (k + 1) ≤ p := by omega
    have e2 : k + 1 ≤ p := by omega
    have e3 : p - 1 - k ≤ p := by omega
    rcases ht with rfl | rfl
    · have : i < 3 := hi
      match i, this with
      | 0, _ => obtain ⟨rfl, rfl⟩ : 1 = a ∧ 2 = b := by simpa [refEdges] using he
                simpa [NodalPoint, refCorner] using e1
      | 1, _ => obtain ⟨rfl, rfl⟩ : 0 = a ∧ 2 = b := by simpa [refEdges] using he
                simpa [NodalPoint, refCorner] using e2
      | 2, _ => obtain ⟨rfl, rfl⟩ : 0 = a ∧ 1 = b := by simpa [refEdges] using he
                simpa [NodalPoint, refCorner] using e2
    · have : i < 4 := hi
      match i, this with
      | 0, _ => obtain ⟨rfl, rfl⟩ : 0 = a ∧ 1 = b := by simpa [refEdges] using he
                simpa [NodalPoint, refCorner] using e2
      | 1, _ => obtain ⟨rfl, rfl⟩ : 0 = a ∧ 2 = b := by simpa [refEdges] using he
                simpa [NodalPoint, refCorner] using e2
      | 2, _ => obtain ⟨rfl, rfl⟩ : 1 = a ∧ 3 = b := by simpa [refEdges] using he
                simpa [NodalPoint, refCorner] using ⟨e1, e2⟩
      | 3, _ => obtain ⟨rfl, rfl⟩ : 2 = a ∧ 3 = b := by simpa [refEdges] using he
                simpa [NodalPoint, refCorner] using ⟨e2, e1⟩

/-- **C103.** In a continuous Lagrange space of any degree: DOF number `k` of a vertex or an edge is the value of the function
at point number `k` of this vertex or edge, seen from each cell that contains it. -/
theorem C103_entities (hs : SerialSpace fs fam) (hL : LagrangeElement p t (fam t) B)
    (hN : NodalBasis p t (fam t).dim B node) (htt : t = .triangle ∨ t = .quadrilateral) {c : Entity}
    (hc : c ∈ fs.grid.entityIter 2) (ht : c.entityType = t) {d i e : Nat} (hd : d ≤ 1) (hi : i < refCount t d) (he : (c.sub d)[i]? = some e) {ed : List Nat}
    (hed : fs.getLocalDofNumbers d e = some ed) {k n : Nat} (hn : ed[k]? = some n) {m : Nat × Nat}
    (hm : LagrangePoint p t d i k m) (u : Nat → ℝ) :
    fs.functionOn B u c 0 (pointList (nodePoint p m)) = u n := by
  obtain ⟨nd, -, fo, -⟩ := hs.family
  subst ht
  obtain ⟨l, hl⟩ := Option.isSome_iff_exists.mp (hL.uniform.wf.defined d (by omega) i hi)
  obtain ⟨a, ha, -⟩ := basisOn_entity (B := B) hs.wf fo hs.yields hc (by omega) he hl hed hn
  obtain ⟨cd, ed', n', h1, h2, -, h3, h4⟩ := C02_conformity hs.wf fo hs.yields c hc d i e (by omega) he l hl k a ha
  rw [hed] at h2
  cases h2
  rw [hn] at h4
  cases h4
  obtain ⟨cd', h1', hlen, -, -⟩ := (C03_cell_dofs hs.wf fo hs.yields).2 c hc
  rw [h1] at h1'
  cases h1'
  have had : a < (fam c.entityType).dim := hlen ▸ (List.getElem?_eq_some_iff.mp h3).1
  have hk : d = 1 → k < p - 1 := by
    rintro rfl
    have := hL.uniform.count 1 (by omega) i hi l hl
    have h5 := (List.getElem?_eq_some_iff.mp ha).1
    rw [this] at h5
    exact h5
  rw [← lagrange_point_of hL hN hd hi hl ha had hm (lagrangePoint_nodal hL.degree htt hd hi hk hm)]
  exact C103_values hs hN hc rfl h1 h3 u

/-- **C103.** The Galerkin matrix of the Laplace single layer operator is positive definite for Lagrange spaces of every degree,
continuous or not, on every sphere and every screen. -/
theorem C103_single (hs : LibraryShape lev t s) (hb : Built s t g pt cl) (hV : HasCorners s g pt V)
    (hf : (fam t).Uniform t ((StandardFamily.lagrange p).counts t) ∨
      (fam t).Uniform t ((StandardFamily.discontinuous p).counts t))
    (hN : NodalBasis p t (fam t).dim B node) (hm : FunctionSpace.new 0 1 g fam = .done fs) :
    ∃ m > 0, ∀ u, m * sumSq fs.globalSize u ≤
      bilinear (doubleSum fs fs (pairIntegral slF laplaceGreen (vertexGeometry (cellFunctions t) V)
        (vertexGeometry (cellFunctions t) V) B B t)) fs.globalSize u u := by
  rcases hf with hf | hf <;> exact C81_definite hs hb hV hf hm hN.continuous (hN.independent hs.type)

/-- **C103.** The linear systems with the Galerkin matrix of the Helmholtz single layer operator have exactly one solution for
all wavenumbers except finitely many in each bounded interval, for Lagrange spaces of every degree, continuous or not. -/
theorem C103_helmholtz (hs : LibraryShape lev t s) (hb : Built s t g pt cl) (hV : HasCorners s g pt V)
    (hf : (fam t).Uniform t ((StandardFamily.lagrange p).counts t) ∨
      (fam t).Uniform t ((StandardFamily.discontinuous p).counts t))
    (hN : NodalBasis p t (fam t).dim B node) (hm : FunctionSpace.new 0 1 g fam = .done fs) (R : ℝ) :
    {w : ℝ | |w| ≤ R ∧ ¬ UniquelySolvable (doubleSum fs fs (pairIntegral slF (helmholtzGreen w)
      (vertexGeometry (cellFunctions t) V) (vertexGeometry (cellFunctions t) V) (complexBasis B) (complexBasis B) t))
        fs.globalSize}.Finite := by
  rcases hf with hf | hf <;> exact C90_wavenumbers hs hb hV hf hm hN.continuous (hN.independent hs.type) R

/-- **C103.** For continuous Lagrange spaces of every degree on every sphere and every screen: `uᵀ A u` with the matrix of the
Laplace hypersingular operator is 0 exactly for the constant functions, and at least `m uᵀ u` for the coefficients that add up
to 0. -/
theorem C103_hypersingular (hs : LibraryShape lev t s) (hb : Built s t g pt cl) (hV : HasCorners s g pt V)
    (hf : (fam t).Uniform t ((StandardFamily.lagrange p).counts t))
    (hN : NodalBasis p t (fam t).dim B node) (hm : FunctionSpace.new 0 1 g fam = .done fs) :
    (∀ u, bilinear (doubleSum fs fs (pairIntegral curlCurlF laplaceGreen (vertexGeometry (cellFunctions t) V)
        (vertexGeometry (cellFunctions t) V) B B t)) fs.globalSize u u = 0 ↔
      ∀ i j, i < fs.globalSize → j < fs.globalSize → u i = u j) ∧
    ∃ m > 0, ∀ u, ((List.range fs.globalSize).map u).sum = 0 → m * sumSq fs.globalSize u ≤
      bilinear (doubleSum fs fs (pairIntegral curlCurlF laplaceGreen (vertexGeometry (cellFunctions t) V)
        (vertexGeometry (cellFunctions t) V) B B t)) fs.globalSize u u :=
  C82_kernel hs hb hV hf Nat.one_pos hm hN.continuous (hN.gradient hs.type)
    fun x => ⟨(hN.unity x).2.1, (hN.unity x).2.2⟩

/-! ### C103: the hypotheses can be met -/

/-- The basis functions that belong to given points, with their derivatives. -/
noncomputable def pointBasis (p : Nat) (node : CellType → Nat → Nat × Nat) : Basis ℝ ℝ := fun t a d x =>
  match d with
  | 0 => lagrangeFunction p t (node t a) (x.getD 0 0, x.getD 1 0)
  | 1 => deriv (fun y => lagrangeFunction p t (node t a) (y, x.getD 1 0)) (x.getD 0 0)
  | _ => deriv (fun y => lagrangeFunction p t (node t a) (x.getD 0 0, y)) (x.getD 1 0)

theorem pointBasis_nodal {dim : Nat} {node : CellType → Nat → Nat × Nat} (hc : dim = (StandardFamily.lagrange p).dim t)
    (hp : ∀ a, a < dim → NodalPoint p t (node t a))
    (hi : ∀ a a', a < dim → a' < dim → node t a = node t a' → a = a') :
    NodalBasis p t dim (pointBasis p node) (node t) where
  count := hc
  point := hp
  injective := hi
  value := fun _ _ _ => rfl
  first := by
    intro a _ x
    obtain ⟨d, e, -, -, h1, -⟩ := lagrange_deriv p t (node t a)
    exact (h1 (x.getD 0 0, x.getD 1 0)).differentiableAt.hasDerivAt
  second := by
    intro a _ x
    obtain ⟨d, e, -, -, -, h2⟩ := lagrange_deriv p t (node t a)
    exact (h2 (x.getD 0 0, x.getD 1 0)).differentiableAt.hasDerivAt

theorem getD_of_lt {α : Type} {l : List α} {k : Nat} (h : k < l.length) {d : α} : l.getD k d = l[k] := by
  rw [List.getD_eq_getElem?_getD, List.getElem?_eq_getElem h, Option.getD_some]

/-- Points of the discontinuous elements. -/
noncomputable def latticeNode (p : Nat) (t : CellType) (a : Nat) : Nat × Nat := (nodalPoints p t).toList.getD a (0, 0)

/-- The discontinuous elements of all degrees. -/
theorem lattice_nodal (p : Nat) (t : CellType) :
    NodalBasis p t ((StandardFamily.lagrange p).dim t) (pointBasis p (latticeNode p)) (latticeNode p t) := by
  have hlen : (nodalPoints p t).toList.length = (StandardFamily.lagrange p).dim t := by
    rw [Finset.length_toList, card_nodalPoints]
  refine pointBasis_nodal (node := latticeNode p) rfl (fun a ha => ?_) fun a a' ha ha' e => ?_
  · rw [← hlen] at ha
    apply mem_nodalPoints.mp
    rw [latticeNode, getD_of_lt ha, ← Finset.mem_toList]
    exact List.getElem_mem ha
  · rw [← hlen] at ha ha'
    rw [latticeNode, latticeNode, getD_of_lt ha, getD_of_lt ha'] at e
    exact (Finset.nodup_toList _).getElem_inj_iff.mp e

theorem innerPoints_nodup (p : Nat) (t : CellType) : (innerPoints p t).Nodup := by
  refine List.Nodup.filter _ (List.nodup_flatMap.mpr ⟨fun y _ => ?_, ?_⟩)
  · exact List.nodup_range.map fun a b h => (Prod.mk.inj h).1
  · refine List.Pairwise.imp (fun {a b} (hab : a ≠ b) => ?_) List.nodup_range
    simp only [Function.onFun, List.disjoint_left, List.mem_map]
    rintro _ ⟨x, _, rfl⟩ ⟨x', _, e⟩
    exact hab (Prod.mk.inj e).2.symm

theorem mem_innerPoints {p : Nat} {t : CellType} {n : Nat × Nat} : n ∈ innerPoints p t ↔
    0 < n.1 ∧ 0 < n.2 ∧ n.1 < p ∧ n.2 < p ∧ (t = .quadrilateral ∨ n.1 + n.2 < p) := by
  simp only [innerPoints, List.mem_filter, List.mem_flatMap, List.mem_map, List.mem_range, Bool.and_eq_true,
    decide_eq_true_eq, Bool.or_eq_true]
  constructor
  · rintro ⟨⟨y, hy, x, hx, rfl⟩, ⟨h1, h2⟩, h3⟩
    exact ⟨h1, h2, hx, hy, h3⟩
  · rintro ⟨h1, h2, h3, h4, h5⟩
    exact ⟨⟨n.2, h4, n.1, h3, rfl⟩, ⟨h1, h2⟩, h5⟩

theorem innerPoints_length (p : Nat) (t : CellType) :
    (innerPoints p t).length ≤ (StandardFamily.lagrange p).counts t 2 := by
  rw [← List.toFinset_card_of_nodup (innerPoints_nodup p t)]
  simp only [StandardFamily.counts]
  by_cases hq : t = .quadrilateral
  · rw [if_pos hq]
    rcases Nat.lt_or_ge p 2 with h | h
    · rw [Finset.card_eq_zero.mpr]
      · omega
      · refine Finset.eq_empty_of_forall_notMem fun n hn => ?_
        have := mem_innerPoints.mp (List.mem_toFinset.mp hn)
        omega
    · have := Finset.card_le_card_of_injOn (s := (innerPoints p t).toFinset) (t := nodalPoints (p - 2) t)
        (fun n => (n.1 - 1, n.2 - 1)) (by
          intro n hn
          have := mem_innerPoints.mp (List.mem_toFinset.mp hn)
          refine mem_nodalPoints.mpr ?_
          rw [NodalPoint, if_pos hq]
          exact ⟨by simp only; omega, by simp only; omega⟩) (by
          intro n hn m hm e
          have := mem_innerPoints.mp (List.mem_toFinset.mp hn)
          have := mem_innerPoints.mp (List.mem_toFinset.mp hm)
          have e1 := (Prod.mk.inj e).1
          have e2 := (Prod.mk.inj e).2
          exact Prod.ext (by omega) (by omega))
      rw [card_nodalPoints, StandardFamily.dim, if_pos hq] at this
      rwa [show p - 2 + 1 = p - 1 by omega] at this
  · rw [if_neg hq]
    rcases Nat.lt_or_ge p 3 with h | h
    · rw [Finset.card_eq_zero.mpr]
      · omega
      · refine Finset.eq_empty_of_forall_notMem fun n hn => ?_
        have h2 := mem_innerPoints.mp (List.mem_toFinset.mp hn)
        have := h2.2.2.2.2.resolve_left hq
        omega
    · have := Finset.card_le_card_of_injOn (s := (innerPoints p t).toFinset) (t := nodalPoints (p - 3) t)
        (fun n => (n.1 - 1, n.2 - 1)) (by
          intro n hn
          have h2 := mem_innerPoints.mp (List.mem_toFinset.mp hn)
          have := h2.2.2.2.2.resolve_left hq
          refine mem_nodalPoints.mpr ?_
          rw [NodalPoint, if_neg hq]
          simp only
          omega) (by
          intro n hn m hm e
          have := mem_innerPoints.mp (List.mem_toFinset.mp hn)
          have := mem_innerPoints.mp (List.mem_toFinset.mp hm)
          have e1 := (Prod.mk.inj e).1
          have e2 := (Prod.mk.inj e).2
          exact Prod.ext (by omega) (by omega))
      rw [card_nodalPoints, StandardFamily.dim, if_neg hq, trianglePolynomials] at this
      rwa [show p - 3 + 1 = p - 2 by omega, show p - 3 + 2 = p - 1 by omega, Nat.mul_comm] at this

/-- Every point belongs to a DOF. -/
theorem lagrangeNode_onto {p : Nat} (hp : 0 < p) {t : CellType} (ht : t = .triangle ∨ t = .quadrilateral) {n : Nat × Nat}
    (hn : NodalPoint p t n) :
    ∃ a, a < refCount t 0 + refCount t 1 * (p - 1) + (StandardFamily.lagrange p).counts t 2 ∧ lagrangeNode p t a = n := by
  have corner : ∀ a, a < refCount t 0 → (p * (refCorner t a).1, p * (refCorner t a).2) = n → ∃ a,
      a < refCount t 0 + refCount t 1 * (p - 1) + (StandardFamily.lagrange p).counts t 2 ∧ lagrangeNode p t a = n :=
    fun a ha e => ⟨a, by omega, by rw [lagrangeNode, if_pos ha, e]⟩
  have edge : ∀ i k a b : Nat, k < p - 1 → (refEdges t)[i]? = some (a, b) →
      ((p - 1 - k) * (refCorner t a).1 + (k + 1) * (refCorner t b).1,
        (p - 1 - k) * (refCorner t a).2 + (k + 1) * (refCorner t b).2) = n → ∃ a,
      a < refCount t 0 + refCount t 1 * (p - 1) + (StandardFamily.lagrange p).counts t 2 ∧ lagrangeNode p t a = n := by
    intro i k a b hk he e
    have hi : i < refCount t 1 := by
      have := (List.getElem?_eq_some_iff.mp he).1
      rcases ht with rfl | rfl <;> exact this
    have h1 : (i * (p - 1) + k) / (p - 1) = i := by
      rw [Nat.mul_comm, Nat.mul_add_div (by omega), Nat.div_eq_of_lt hk, Nat.add_zero]
    have h2 : (i * (p - 1) + k) % (p - 1) = k := by
      rw [Nat.mul_comm, Nat.mul_add_mod, Nat.mod_eq_of_lt hk]
    have h3 : i * (p - 1) + k < refCount t 1 * (p - 1) := by
      have := Nat.mul_le_mul_right (p - 1) (Nat.succ_le_of_lt hi)
      rw [Nat.succ_mul] at this
      omega
    refine ⟨refCount t 0 + (i * (p - 1) + k), by omega, ?_⟩
    rw [lagrangeNode, if_neg (by omega), if_pos (by omega), Nat.add_sub_cancel_left, h1, h2]
    simp only [List.getD_eq_getElem?_getD, he, Option.getD_some]
    exact e
  have inner : n ∈ innerPoints p t → ∃ a,
      a < refCount t 0 + refCount t 1 * (p - 1) + (StandardFamily.lagrange p).counts t 2 ∧ lagrangeNode p t a = n := by
    intro h
    obtain ⟨k, hk, e⟩ := List.mem_iff_getElem.mp h
    have := innerPoints_length p t
    refine ⟨refCount t 0 + refCount t 1 * (p - 1) + k, by omega, ?_⟩
    rw [lagrangeNode, if_neg (by omega), if_neg (by omega), Nat.add_sub_cancel_left, getD_of_lt hk, e]
  obtain ⟨x, y⟩ := n
  rcases ht with rfl | rfl
  · simp only [NodalPoint, reduceCtorEq, if_false] at hn
    by_cases hx : x = 0
    · subst hx
      by_cases hy : y = 0
      · subst hy
        exact corner 0 (by decide) (by simp [refCorner])
      · by_cases hy' : y = p
        · subst hy'
          exact corner 2 (by decide) (by simp [refCorner])
        · exact edge 1 (y - 1) 0 2 (by omega) rfl (by simp only [refCorner]; exact Prod.ext (by simp) (by simp; omega))
    · by_cases hy : y = 0
      · subst hy
        by_cases hx' : x = p
        · subst hx'
          exact corner 1 (by decide) (by simp [refCorner])
        · exact edge 2 (x - 1) 0 1 (by omega) rfl (by simp only [refCorner]; exact Prod.ext (by simp; omega) (by simp))
      · by_cases hxy : x + y = p
        · exact edge 0 (y - 1) 1 2 (by omega) rfl
            (by simp only [refCorner]; exact Prod.ext (by simp; omega) (by simp; omega))
        · exact inner (mem_innerPoints.mpr ⟨by simp only; omega, by simp only; omega, by simp only; omega,
            by simp only; omega, .inr (by simp only; omega)⟩)
  · simp only [NodalPoint, if_true] at hn
    by_cases hx : x = 0
    · subst hx
      by_cases hy : y = 0
      · subst hy
        exact corner 0 (by decide) (by simp [refCorner])
      · by_cases hy' : y = p
        · subst hy'
          exact corner 2 (by decide) (by simp [refCorner])
        · exact edge 1 (y - 1) 0 2 (by omega) rfl (by simp only [refCorner]; exact Prod.ext (by simp) (by simp; omega))
    · by_cases hx' : x = p
      · subst hx'
        by_cases hy : y = 0
        · subst hy
          exact corner 1 (by decide) (by simp [refCorner])
        · by_cases hy' : y = x
          · subst hy'
            exact corner 3 (by decide) (by simp [refCorner])
          · exact edge 2 (y - 1) 1 3 (by omega) rfl
              (by simp only [refCorner]; exact Prod.ext (by simp; omega) (by simp; omega))
      · by_cases hy : y = 0
        · subst hy
          exact edge 0 (x - 1) 0 1 (by omega) rfl (by simp only [refCorner]; exact Prod.ext (by simp; omega) (by simp))
        · by_cases hy' : y = p
          · subst hy'
            exact edge 3 (x - 1) 2 3 (by omega) rfl
              (by simp only [refCorner]; exact Prod.ext (by simp; omega) (by simp; omega))
          · exact inner (mem_innerPoints.mpr ⟨by simp only; omega, by simp only; omega, by simp only; omega,
              by simp only; omega, .inl rfl⟩)

/-- The continuous elements of all degrees. -/
theorem lagrange_nodal {p : Nat} (hp : 0 < p) {t : CellType} (ht : t = .triangle ∨ t = .quadrilateral) :
    NodalBasis p t (layeredElement ((StandardFamily.lagrange p).counts t) t).dim (pointBasis p (lagrangeNode p))
      (lagrangeNode p t) := by
  have hdim := (C96_elements (.lagrange p) hp t ht).2
  have hsum : (layeredElement ((StandardFamily.lagrange p).counts t) t).dim =
      refCount t 0 + refCount t 1 * (p - 1) + (StandardFamily.lagrange p).counts t 2 := by
    have h2 : refCount t 2 = 1 := by rcases ht with rfl | rfl <;> rfl
    simp [layeredElement, StandardFamily.counts, h2]
  rw [hdim]
  have hsub : nodalPoints p t ⊆ (Finset.range ((StandardFamily.lagrange p).dim t)).image (lagrangeNode p t) := by
    intro n hn
    obtain ⟨a, ha, e⟩ := lagrangeNode_onto hp ht (mem_nodalPoints.mp hn)
    rw [← hsum, hdim] at ha
    exact Finset.mem_image.mpr ⟨a, Finset.mem_range.mpr ha, e⟩
  have heq := Finset.eq_of_subset_of_card_le hsub (by
    rw [card_nodalPoints]
    exact Finset.card_image_le.trans_eq (Finset.card_range _))
  refine pointBasis_nodal (node := lagrangeNode p) rfl (fun a ha => ?_) fun a a' ha ha' e => ?_
  · exact mem_nodalPoints.mp (heq ▸ Finset.mem_image_of_mem _ (Finset.mem_range.mpr ha))
  · have hinj : Set.InjOn (lagrangeNode p t) (Finset.range ((StandardFamily.lagrange p).dim t)) := by
      apply Finset.injOn_of_card_image_eq
      rw [← heq, card_nodalPoints, Finset.card_range]
    exact hinj (by simpa using ha) (by simpa using ha') e

theorem lagrange_element' {p : Nat} (hp : 0 < p) {t : CellType} (ht : t = .triangle ∨ t = .quadrilateral) :
    LagrangeElement p t (layeredElement ((StandardFamily.lagrange p).counts t) t) (pointBasis p (lagrangeNode p)) := by
  have h := lagrange_element hp ht
  exact ⟨h.degree, h.uniform, fun d hd i hi l hl k a ha => h.basis d hd i hi l hl k a ha⟩

/-- C103, all degrees on all spheres: continuous spaces. -/
example (lev p : Nat) (hp : 0 < p) : ∃ s g pt cl V fs, realSphere lev = some s ∧ Built s .triangle g pt cl ∧
    HasCorners s g pt V ∧
    FunctionSpace.new 0 1 g (fun t => layeredElement ((StandardFamily.lagrange p).counts t) t) = .done fs ∧
    (∃ m > 0, ∀ u, m * sumSq fs.globalSize u ≤
      bilinear (doubleSum fs fs (pairIntegral slF laplaceGreen (vertexGeometry triangleFunctions V)
        (vertexGeometry triangleFunctions V) (pointBasis p (lagrangeNode p)) (pointBasis p (lagrangeNode p)) .triangle))
        fs.globalSize u u) ∧
    ∀ u, bilinear (doubleSum fs fs (pairIntegral curlCurlF laplaceGreen (vertexGeometry triangleFunctions V)
        (vertexGeometry triangleFunctions V) (pointBasis p (lagrangeNode p)) (pointBasis p (lagrangeNode p)) .triangle))
        fs.globalSize u u = 0 ↔
      ∀ i j, i < fs.globalSize → j < fs.globalSize → u i = u j := by
  obtain ⟨s, hs, -⟩ := C30_sizes (1 / 2 : ℝ) Real.sqrt lev
  have hl : LibraryShape lev .triangle s := .inl ⟨hs, rfl⟩
  obtain ⟨-, -, -, ⟨g, pt, cl, hb⟩, -⟩ := C47_conforming _ _ _ hl
  obtain ⟨⟨V, hV⟩, -⟩ := C79_surface hl hb
  have hf := (C96_elements (.lagrange p) hp .triangle (.inl rfl)).1
  have hN := lagrange_nodal hp (t := .triangle) (.inl rfl)
  obtain ⟨fs, hm, -⟩ := hb.space (fam := fun t => layeredElement ((StandardFamily.lagrange p).counts t) t) hf
  exact ⟨s, g, pt, cl, V, fs, hs, hb, hV, hm,
    C103_single (fam := fun t => layeredElement ((StandardFamily.lagrange p).counts t) t) hl hb hV (.inl hf) hN hm,
    (C103_hypersingular (fam := fun t => layeredElement ((StandardFamily.lagrange p).counts t) t) hl hb hV hf hN hm).1⟩

/-- C103, all degrees from 0 on all screens of quadrilaterals: discontinuous spaces. -/
example (n p : Nat) (hn : 0 < n) : ∃ s g pt cl V fs, screenQuadrilaterals (fun k => (k : ℝ)) n = some s ∧
    Built s .quadrilateral g pt cl ∧ HasCorners s g pt V ∧
    FunctionSpace.new 0 1 g (fun t => layeredElement ((StandardFamily.discontinuous p).counts t) t) = .done fs ∧
    ∃ m > 0, ∀ u, m * sumSq fs.globalSize u ≤
      bilinear (doubleSum fs fs (pairIntegral slF laplaceGreen (vertexGeometry quadrilateralFunctions V)
        (vertexGeometry quadrilateralFunctions V) (pointBasis p (latticeNode p)) (pointBasis p (latticeNode p))
        .quadrilateral)) fs.globalSize u u := by
  obtain ⟨s, hs⟩ : ∃ s, screenQuadrilaterals (fun k => (k : ℝ)) n = some s := by
    simp [screenQuadrilaterals, Nat.pos_iff_ne_zero.mp hn]
  have hl : LibraryShape n .quadrilateral s := .inr (.inr ⟨hs, rfl⟩)
  obtain ⟨-, -, -, ⟨g, pt, cl, hb⟩, -⟩ := C47_conforming _ _ _ hl
  obtain ⟨⟨V, hV⟩, -⟩ := C79_surface hl hb
  obtain ⟨hf, hd⟩ := C96_elements (.discontinuous p) (by simp [StandardFamily.Valid]) .quadrilateral (.inr rfl)
  obtain ⟨fs, hm, -⟩ := hb.space (fam := fun t => layeredElement ((StandardFamily.discontinuous p).counts t) t) hf
  refine ⟨s, g, pt, cl, V, fs, hs, hb, hV, hm, C103_single (node := latticeNode p .quadrilateral)
    (fam := fun t => layeredElement ((StandardFamily.discontinuous p).counts t) t) hl hb hV (.inr hf) ?_ hm⟩
  rw [hd]
  exact lattice_nodal p .quadrilateral

/-- C103, all degrees on all spheres: the value at the first corner of a cell is the coefficient of the DOF of this vertex. -/
example (lev p : Nat) (hp : 0 < p) : ∃ s g pt cl fs, realSphere lev = some s ∧ Built s .triangle g pt cl ∧
    FunctionSpace.new 0 1 g (fun t => layeredElement ((StandardFamily.lagrange p).counts t) t) = .done fs ∧
    ∀ c ∈ g.entityIter 2, ∀ v, (c.sub 0)[0]? = some v → ∀ ed, fs.getLocalDofNumbers 0 v = some ed → ∀ n : Nat, ed[0]? = some n →
      ∀ u, fs.functionOn (pointBasis p (lagrangeNode p)) u c 0 [0, 0] = u n := by
  obtain ⟨s, hs, -⟩ := C30_sizes (1 / 2 : ℝ) Real.sqrt lev
  have hl : LibraryShape lev .triangle s := .inl ⟨hs, rfl⟩
  obtain ⟨-, -, -, ⟨g, pt, cl, hb⟩, -⟩ := C47_conforming _ _ _ hl
  have hL := lagrange_element' hp (t := .triangle) (.inl rfl)
  have hN := lagrange_nodal hp (t := .triangle) (.inl rfl)
  obtain ⟨fs, hm, hss, hg, -⟩ := hb.space (fam := fun t => layeredElement ((StandardFamily.lagrange p).counts t) t) hL.uniform
  refine ⟨s, g, pt, cl, fs, hs, hb, hm, fun c hc v hv ed hed n hn u => ?_⟩
  have := C103_entities (m := (0, 0)) hss hL hN (.inl rfl) (hg ▸ hc) (hb.cell_type hc) (d := 0) (by omega) (i := 0) (by decide)
    hv hed hn (by simp [LagrangePoint, refCorner]) u
  simpa [nodePoint, pointList] using this

end Bempp
