import Verif.Props.Positive
import Verif.Props.Linear
import Verif.Props.RoundingSymmetry
/-
C82: the matrices of the Laplace hypersingular operator are positive semidefinite, and only constants are in their kernel.
-/
namespace Bempp
open Filter Topology MeasureTheory Set

section
variable {sp : FunctionSpace} {fam : CellType → ElementDofs} {G : Geometry ℝ} {B : Basis ℝ ℝ} {t : CellType}

/-- The hypersingular integrand. -/
theorem curl_factors {cells : List Entity} {dim : Nat} (hcell : ∀ c ∈ cells, ContinuousCell G t c.localIndex)
    (hB : ContinuousBasis B t dim) :
    InverseFactors curlCurlF G B t cells dim 3 fun i c a x =>
      G.jacobian c (pointList x) (3 + i) * B t a 1 (pointList x) - G.jacobian c (pointList x) i * B t a 2 (pointList x) where
  product c hc c' hc' a _ b _ x hx y hy := by
    have h1 := (hcell c hc).jdet_ne x hx
    have h2 := (hcell c' hc').jdet_ne y hy
    simp only [pairIntegrand, curlCurlF, laplaceGreen, surfaceCurl, Geometry.data, RCLike.ofReal_real_eq_id, id,
      Finset.sum_range_succ, Finset.range_zero, Finset.sum_empty]
    rw [one_div, mul_inv]
    field_simp
    ring
  continuous c hc i hi a ha :=
    (((hcell c hc).jacobian (3 + i) (by omega)).mul (hB a ha 1 (by decide))).sub
      (((hcell c hc).jacobian i (by omega)).mul (hB a ha 2 (by decide)))

/-- The form of the Galerkin matrix of the hypersingular operator on a surface of flat cells. -/
theorem curl_form (hs : SerialSpace sp fam) (ht : ∀ c ∈ sp.grid.entityIter 2, c.entityType = t)
    (hcell : ∀ c ∈ sp.grid.entityIter 2, ContinuousCell G t c.localIndex)
    (hflat : ∀ c ∈ sp.grid.entityIter 2, FlatCell G c.localIndex) (hno : NoOverlap G t sp.grid)
    (hind : ∀ c ∈ sp.grid.entityIter 2, ∀ z ∈ refCell t, ∀ p q : ℝ, (∀ i, i < 3 →
      G.jacobian c.localIndex (pointList z) (3 + i) * p - G.jacobian c.localIndex (pointList z) i * q = 0) → p = 0 ∧ q = 0)
    (hB : ContinuousBasis B t (fam t).dim) (u : Nat → ℝ) :
    0 ≤ bilinear (doubleSum sp sp (pairIntegral curlCurlF laplaceGreen G G B B t)) sp.globalSize u u ∧
    (bilinear (doubleSum sp sp (pairIntegral curlCurlF laplaceGreen G G B B t)) sp.globalSize u u = 0 ↔
      ∀ c ∈ sp.grid.entityIter 2, ∀ z ∈ refCell t, sp.functionOn B u c 1 (pointList z) = 0 ∧
        sp.functionOn B u c 2 (pointList z) = 0) := by
  obtain ⟨h0, h1⟩ := surface_form_definite .hypersingular hs ht hcell hflat hno hB (curl_factors hcell hB) u
  refine ⟨h0, h1.trans ?_⟩
  have e : ∀ c ∈ sp.grid.entityIter 2, ∀ i z, sp.combined (fun c a x => G.jacobian c (pointList x) (3 + i) * B t a 1 (pointList x) -
      G.jacobian c (pointList x) i * B t a 2 (pointList x)) u c z =
      G.jacobian c.localIndex (pointList z) (3 + i) * sp.functionOn B u c 1 (pointList z) -
        G.jacobian c.localIndex (pointList z) i * sp.functionOn B u c 2 (pointList z) := by
    intro c hc i z
    rw [hs.functionOn_dofs hc, hs.functionOn_dofs hc, ht c hc]
    unfold FunctionSpace.combined
    induction sp.dofsOf c with
    | nil => simp
    | cons ia l ih =>
      simp only [List.map_cons, List.sum_cons]
      rw [ih]
      ring
  constructor
  · intro h c hc z hz
    refine hind c hc z hz _ _ fun i hi => ?_
    rw [← e c hc]
    exact h c hc i hi z hz
  · intro h c hc i _ z hz
    rw [e c hc, (h c hc z hz).1, (h c hc z hz).2, mul_zero, mul_zero, sub_zero]

/-- If the derivatives of a function are 0, its coefficients on each cell are equal. -/
theorem coefficients_equal (hs : SerialSpace sp fam) (ht : ∀ c ∈ sp.grid.entityIter 2, c.entityType = t)
    (hi : GradientBasis B t (fam t).dim) {u : Nat → ℝ}
    (h : ∀ c ∈ sp.grid.entityIter 2, ∀ z ∈ refCell t, sp.functionOn B u c 1 (pointList z) = 0 ∧
      sp.functionOn B u c 2 (pointList z) = 0) {c : Entity} (hc : c ∈ sp.grid.entityIter 2) {cd : List Nat}
    (hcd : sp.cellDofs c.localIndex = some cd) : ∀ p ∈ cd, ∀ q ∈ cd, u p = u q := by
  obtain ⟨nd, -, fo, -⟩ := hs.family
  obtain ⟨cd', h1, h2, -, -⟩ := (C03_cell_dofs hs.wf fo hs.yields).2 c hc
  rw [hcd] at h1
  cases h1
  rw [ht c hc] at h2
  have key := hi (fun a => u (cd.getD a 0)) (by
    have hsum : ∀ d z, ((List.range (fam t).dim).map fun a => u (cd.getD a 0) * B t a d (pointList z)).sum =
        sp.functionOn B u c d (pointList z) := by
      intro d z
      rw [hs.functionOn_dofs hc, ht c hc]
      unfold FunctionSpace.dofsOf
      rw [hcd, Option.getD_some, ← h2]
      congr 1
      apply List.ext_getElem (by simp)
      intro k hk hk'
      simp only [List.length_map, List.length_range] at hk
      simp [List.getD, hk]
    intro z hz
    rw [hsum, hsum]
    exact h c hc z hz)
  intro p hp q hq
  obtain ⟨a, ha⟩ := List.getElem?_of_mem hp
  obtain ⟨b, hb⟩ := List.getElem?_of_mem hq
  have := key a b (by rw [← h2]; exact (List.getElem?_eq_some_iff.mp ha).1)
    (by rw [← h2]; exact (List.getElem?_eq_some_iff.mp hb).1)
  simpa [List.getD, ha, hb] using this

end

section
variable {s : Shape ℝ} {t : CellType} {g : Grid} {pt cl : Nat → Nat} {V : Nat → Nat → Nat → ℝ} {lev : Nat}
  {fam : CellType → ElementDofs} {k : Nat → Nat} {B : Basis ℝ ℝ}

/-- The edges of a cell join corners of the cell. -/
theorem cellEdges_mem {c : List Nat} {a b : Nat} (h : (a, b) ∈ cellEdges c) : a ∈ c ∧ b ∈ c := by
  unfold cellEdges at h
  split at h <;> simp_all <;> omega

/-- Values at the points of a screen that agree on each cell are all equal. -/
theorem screen_constant {n : Nat} {h : Nat → ℝ}
    (hs : ∀ x y, x < n → y < n → h (gridPoint n x y) = h (gridPoint n (x + 1) y) ∧
      h (gridPoint n x y) = h (gridPoint n x (y + 1)) ∧ h (gridPoint n x (y + 1)) = h (gridPoint n (x + 1) (y + 1)))
    (hn : 0 < n) {v : Nat} (hv : v < (n + 1) * (n + 1)) : h v = h 0 := by
  have hrow0 : ∀ x, x ≤ n → h (gridPoint n x 0) = h 0 := by
    intro x
    induction x with
    | zero => intro _; simp [gridPoint]
    | succ x ih => intro hx; rw [← (hs x 0 (by omega) hn).1]; exact ih (by omega)
  have hcol : ∀ y, y ≤ n → h (gridPoint n 0 y) = h 0 := by
    intro y
    induction y with
    | zero => intro _; simp [gridPoint]
    | succ y ih => intro hy; rw [← (hs 0 y hn (by omega)).2.1]; exact ih (by omega)
  have hall : ∀ x y, x ≤ n → y ≤ n → h (gridPoint n x y) = h 0 := by
    intro x y hx hy
    match y with
    | 0 => exact hrow0 x hx
    | y + 1 =>
      induction x with
      | zero => exact hcol (y + 1) hy
      | succ x ih => rw [← (hs x y (by omega) (by omega)).2.2]; exact ih (by omega)
  have e : v = gridPoint n (v % (n + 1)) (v / (n + 1)) := by
    unfold gridPoint
    rw [Nat.mul_comm]
    exact (Nat.div_add_mod v (n + 1)).symm
  rw [e]
  refine hall _ _ ?_ ?_
  · exact Nat.le_of_lt_succ (Nat.mod_lt v (Nat.succ_pos n))
  · exact Nat.le_of_lt_succ (Nat.div_lt_of_lt_mul hv)

/-- Values at the points of a shape that agree on each cell are all equal. -/
theorem shape_constant (hs : LibraryShape lev t s) {h : Nat → ℝ} (hc : ∀ c ∈ s.cells, ∀ v ∈ c.2, ∀ w ∈ c.2, h v = h w)
    {v w : Nat} (hv : v < s.points.length) (hw : w < s.points.length) : h v = h w := by
  rcases hs with ⟨hs, rfl⟩ | ⟨hs, rfl⟩ | ⟨hs, rfl⟩
  · obtain ⟨s', hs', -, -, -, hconn⟩ := C31_closed_oriented (1 / 2 : ℝ) Real.sqrt lev
    have : some s' = some s := hs'.symm.trans hs
    cases this
    have hp := hconn v w hv hw
    clear hw
    induction hp with
    | refl => rfl
    | tail _ hbc ih =>
      unfold Shape.edges at hbc
      obtain ⟨c, hcm, he⟩ := List.mem_flatMap.mp hbc
      obtain ⟨h1, h2⟩ := cellEdges_mem he
      rw [ih, hc c hcm _ h1 _ h2]
  · obtain ⟨hn, -, -⟩ := screenTriangles_eq _ hs
    obtain ⟨-, -, -, hl, -⟩ := triangles_input _ hs
    rw [hl] at hv hw
    have key : ∀ x y, x < lev → y < lev → h (gridPoint lev x y) = h (gridPoint lev (x + 1) y) ∧
        h (gridPoint lev x y) = h (gridPoint lev x (y + 1)) ∧
        h (gridPoint lev x (y + 1)) = h (gridPoint lev (x + 1) (y + 1)) := by
      intro x y hx hy
      obtain ⟨i, hi⟩ := (mem_screenTriangles _ hs).mpr ⟨x, y, hx, hy, .inl rfl⟩
      obtain ⟨j, hj⟩ := (mem_screenTriangles _ hs).mpr ⟨x, y, hx, hy, .inr rfl⟩
      exact ⟨hc _ hi _ (by simp [lowerTri]) _ (by simp [lowerTri]), hc _ hj _ (by simp [upperTri]) _ (by simp [upperTri]),
        hc _ hj _ (by simp [upperTri]) _ (by simp [upperTri])⟩
    rw [screen_constant key hn hv, screen_constant key hn hw]
  · obtain ⟨hn, -, -⟩ := screenQuadrilaterals_eq _ hs
    obtain ⟨-, -, -, hl, -⟩ := quadrilaterals_input _ hs
    rw [hl] at hv hw
    have key : ∀ x y, x < lev → y < lev → h (gridPoint lev x y) = h (gridPoint lev (x + 1) y) ∧
        h (gridPoint lev x y) = h (gridPoint lev x (y + 1)) ∧
        h (gridPoint lev x (y + 1)) = h (gridPoint lev (x + 1) (y + 1)) := by
      intro x y hx hy
      obtain ⟨i, hi⟩ := (mem_screenQuadrilaterals _ hs).mpr ⟨x, y, hx, hy, rfl⟩
      exact ⟨hc _ hi _ (by simp [squareQuad]) _ (by simp [squareQuad]),
        hc _ hi _ (by simp [squareQuad]) _ (by simp [squareQuad]),
        hc _ hi _ (by simp [squareQuad]) _ (by simp [squareQuad])⟩
    rw [screen_constant key hn hv, screen_constant key hn hw]

/-- On a surface made from a shape, coefficients that agree on each cell are all equal, if there is a DOF on each
vertex. -/
theorem dofs_constant (hs : LibraryShape lev t s) (hb : Built s t g pt cl) (hf : (fam t).Uniform t k) (hk : 0 < k 0)
    {fs : FunctionSpace} (hm : FunctionSpace.new 0 1 g fam = .done fs) {u : Nat → ℝ}
    (hu : ∀ c ∈ g.entityIter 2, ∀ cd, fs.cellDofs c.localIndex = some cd → ∀ p ∈ cd, ∀ q ∈ cd, u p = u q) :
    ∀ i j, i < fs.globalSize → j < fs.globalSize → u i = u j := by
  obtain ⟨hss, hg⟩ := shape_space hb hf hm
  obtain ⟨nd, -, fo, -⟩ := hss.family
  rw [hg] at fo
  have hy := hss.yields
  rw [hg] at hy
  -- the number of the first DOF of each vertex
  let first : Nat → Nat := fun v => ((fs.getLocalDofNumbers 0 v).getD []).getD 0 0
  have hfirst : ∀ c ∈ g.entityIter 2, ∀ cd, fs.cellDofs c.localIndex = some cd → ∀ v ∈ c.sub 0, first v ∈ cd := by
    intro c hc cd hcd v hv
    obtain ⟨i, hi⟩ := List.getElem?_of_mem hv
    have hil : i < refCount t 0 := by
      rw [← hb.cell_type hc, ← hb.wf.sub_length c hc 0 (by decide)]
      exact (List.getElem?_eq_some_iff.mp hi).1
    obtain ⟨l, hl⟩ := Option.isSome_iff_exists.mp (hf.wf.defined 0 (by decide) i hil)
    have hlen := hf.count 0 (by decide) i hil l hl
    have h0 : l[0]? = some (l[0]'(by omega)) := List.getElem?_eq_getElem _
    obtain ⟨cd', ed, n, e1, e2, -, e3, e4⟩ := C02_conformity hb.wf fo hy c hc 0 i v (by decide) hi l
      (by rw [hb.cell_type hc]; exact hl) 0 _ h0
    rw [hcd] at e1
    cases e1
    have : first v = n := by
      simp only [first, e2, Option.getD_some, List.getD, e4]
    rw [this]
    exact List.mem_of_getElem? e3
  -- the value at a point of the shape
  have hcells : ∀ c ∈ g.entityIter 2, ∃ cd, fs.cellDofs c.localIndex = some cd ∧ cd.length = (fam t).dim := by
    intro c hc
    obtain ⟨cd, e1, e2, -⟩ := (C03_cell_dofs hb.wf fo hy).2 c hc
    rw [hb.cell_type hc] at e2
    exact ⟨cd, e1, e2⟩
  have hinv : ∀ p, p < s.points.length → ∃ v, v < g.count 0 ∧ pt v = p := by
    intro p hp
    have := hb.points.mem_iff.mpr (List.mem_range.mpr hp)
    obtain ⟨v, hv, e⟩ := List.mem_map.mp this
    exact ⟨v, List.mem_range.mp hv, e⟩
  choose! inv hinv1 hinv2 using hinv
  have hptlt : ∀ v, v < g.count 0 → pt v < s.points.length := fun v hv =>
    List.mem_range.mp (hb.points.mem_iff.mp (List.mem_map.mpr ⟨v, List.mem_range.mpr hv, rfl⟩))
  have hinvpt : ∀ v, v < g.count 0 → inv (pt v) = v := fun v hv =>
    perm_inj hb.points (hinv1 _ (hptlt v hv)) hv (hinv2 _ (hptlt v hv))
  have hcell : ∀ c ∈ s.cells, ∀ v ∈ c.2, ∀ w ∈ c.2, u (first (inv v)) = u (first (inv w)) := by
    intro x hx v hv w hw
    obtain ⟨m, hm'⟩ := List.getElem?_of_mem hx
    have hml : m < s.cells.length := (List.getElem?_eq_some_iff.mp hm').1
    obtain ⟨i, hi, e⟩ := List.mem_map.mp (hb.cells.mem_iff.mpr (List.mem_range.mpr hml))
    obtain ⟨c, hc, hci⟩ := List.mem_map.mp ((hb.wf.index 2 le_rfl).mem_iff.mpr hi)
    obtain ⟨y, hy1, hy2⟩ := hb.corners c hc
    rw [hci, e, hm'] at hy1
    cases hy1
    rw [hy2] at hv hw
    obtain ⟨v', hv', rfl⟩ := List.mem_map.mp hv
    obtain ⟨w', hw', rfl⟩ := List.mem_map.mp hw
    obtain ⟨cd, hcd, -⟩ := hcells c hc
    rw [hinvpt _ (hb.wf.sub_lt c hc 0 (by decide) _ hv'), hinvpt _ (hb.wf.sub_lt c hc 0 (by decide) _ hw')]
    exact hu c hc cd hcd _ (hfirst c hc cd hcd _ hv') _ (hfirst c hc cd hcd _ hw')
  have hdof : ∀ i, i < fs.globalSize → ∃ p, p < s.points.length ∧ u i = u (first (inv p)) := by
    intro i hi
    obtain ⟨c, hc, cd, a, hcd, ha⟩ := hss.dof_in_cell hi
    rw [hg] at hc
    obtain ⟨v, hv⟩ : ∃ v, v ∈ c.sub 0 := by
      obtain ⟨-, -, -, hlen⟩ := hb.corner_list hc
      have : 0 < (c.sub 0).length := by
        rw [hlen]
        rcases hs with ⟨-, rfl⟩ | ⟨-, rfl⟩ | ⟨-, rfl⟩ <;> decide
      exact ⟨(c.sub 0)[0], List.getElem_mem _⟩
    have hvl := hb.wf.sub_lt c hc 0 (by decide) _ hv
    refine ⟨pt v, hptlt v hvl, ?_⟩
    rw [hinvpt v hvl]
    exact hu c hc cd hcd _ (List.mem_of_getElem? ha) _ (hfirst c hc cd hcd _ hv)
  intro i j hi hj
  obtain ⟨p, hp, e1⟩ := hdof i hi
  obtain ⟨q, hq, e2⟩ := hdof j hj
  rw [e1, e2]
  exact shape_constant (h := fun p => u (first (inv p))) hs hcell hp hq

/-- A function with equal coefficients has the derivatives 0. -/
theorem functionOn_constant {sp : FunctionSpace} {fam : CellType → ElementDofs} {B : Basis ℝ ℝ} {t : CellType}
    (hs : SerialSpace sp fam) (ht : ∀ c ∈ sp.grid.entityIter 2, c.entityType = t) {u : Nat → ℝ}
    (hu : ∀ i j, i < sp.globalSize → j < sp.globalSize → u i = u j) {d : Nat} {x : List ℝ}
    (hz : ((List.range (fam t).dim).map fun b => B t b d x).sum = 0) {c : Entity} (hc : c ∈ sp.grid.entityIter 2) :
    sp.functionOn B u c d x = 0 := by
  obtain ⟨nd, -, fo, -⟩ := hs.family
  obtain ⟨cd, h1, h2, -, -⟩ := (C03_cell_dofs hs.wf fo hs.yields).2 c hc
  rw [ht c hc] at h2
  rw [hs.functionOn_dofs hc, ht c hc]
  unfold FunctionSpace.dofsOf
  rw [h1, Option.getD_some]
  have e : ∀ ia ∈ cd.zipIdx, u ia.1 * B t ia.2 d x = u (cd.headD 0) * B t ia.2 d x := by
    intro ia hia
    have hm := List.fst_mem_of_mem_zipIdx hia
    have hh : cd.headD 0 ∈ cd := by
      cases cd with
      | nil => cases hm
      | cons a l => simp
    rw [hu _ _ (hs.dof_lt c hc cd h1 _ hm) (hs.dof_lt c hc cd h1 _ hh)]
  rw [List.map_congr_left e, List.sum_map_mul_left]
  have e2 : (cd.zipIdx.map fun ia => B t ia.2 d x) = (List.range (fam t).dim).map fun b => B t b d x := by
    rw [← h2]
    apply List.ext_getElem (by simp)
    intro k hk hk'
    simp
  rw [e2, hz, mul_zero]

/-- The tangents of a cell that is not degenerate are independent. -/
theorem tangents_independent {N : ShapeFunctions} {c : Nat} {x : List ℝ} (h : (vertexGeometry N V).jdet c x ≠ 0) {p q : ℝ}
    (hpq : ∀ i, i < 3 → (vertexGeometry N V).jacobian c x (3 + i) * p - (vertexGeometry N V).jacobian c x i * q = 0) :
    p = 0 ∧ q = 0 := by
  set a : Nat → ℝ := fun i => ((List.range N.n).map fun k => N.deriv 0 k x * V c k i).sum with ha
  set b : Nat → ℝ := fun i => ((List.range N.n).map fun k => N.deriv 1 k x * V c k i).sum with hb
  have h0 : b 0 * p - a 0 * q = 0 := hpq 0 (by decide)
  have h1 : b 1 * p - a 1 * q = 0 := hpq 1 (by decide)
  have h2 : b 2 * p - a 2 * q = 0 := hpq 2 (by decide)
  have hj : norm3 (cross3 a b) ≠ 0 := h
  have key : ∀ r : ℝ, (a 1 * b 2 - a 2 * b 1) * r = 0 → (a 2 * b 0 - a 0 * b 2) * r = 0 →
      (a 0 * b 1 - a 1 * b 0) * r = 0 → r = 0 := by
    intro r r0 r1 r2
    by_contra hr
    apply hj
    have e0 := (mul_eq_zero.mp r0).resolve_right hr
    have e1 := (mul_eq_zero.mp r1).resolve_right hr
    have e2 := (mul_eq_zero.mp r2).resolve_right hr
    simp only [norm3, cross3, e0, e1, e2]
    simp
  constructor
  · apply key
    · linear_combination a 1 * h2 - a 2 * h1
    · linear_combination a 2 * h0 - a 0 * h2
    · linear_combination a 0 * h1 - a 1 * h0
  · apply key
    · linear_combination b 1 * h2 - b 2 * h1
    · linear_combination b 2 * h0 - b 0 * h2
    · linear_combination b 0 * h1 - b 1 * h0

/-- **C82.** On every sphere and every screen: if `A` is the Galerkin matrix of the Laplace hypersingular operator, then
`uᵀ A u` is never negative, and it is 0 only if the derivatives of the function with coefficients `u` are 0 on every
cell. -/
theorem C82_form (hs : LibraryShape lev t s) (hb : Built s t g pt cl) (hV : HasCorners s g pt V)
    (hf : (fam t).Uniform t k) {fs : FunctionSpace} (hm : FunctionSpace.new 0 1 g fam = .done fs)
    (hB : ContinuousBasis B t (fam t).dim) (u : Nat → ℝ) :
    0 ≤ bilinear (doubleSum fs fs (pairIntegral curlCurlF laplaceGreen (vertexGeometry (cellFunctions t) V)
      (vertexGeometry (cellFunctions t) V) B B t)) fs.globalSize u u ∧
    (bilinear (doubleSum fs fs (pairIntegral curlCurlF laplaceGreen (vertexGeometry (cellFunctions t) V)
      (vertexGeometry (cellFunctions t) V) B B t)) fs.globalSize u u = 0 ↔
      ∀ c ∈ g.entityIter 2, ∀ z ∈ refCell t, fs.functionOn B u c 1 (pointList z) = 0 ∧
        fs.functionOn B u c 2 (pointList z) = 0) := by
  obtain ⟨hss, hg⟩ := shape_space hb hf hm
  have := curl_form (sp := fs) (t := t) hss (by rw [hg]; exact fun c hc => hb.cell_type hc)
    (by rw [hg]; exact fun c hc => shape_continuous hs hb hV hc) (by rw [hg]; exact fun c hc => shape_flat hs hb hV hc)
    (by rw [hg]; exact shape_noOverlap hs hb hV)
    (by rw [hg]; exact fun c hc z _ p q h => tangents_independent (shape_jdet hs hb hV hc _) h) hB u
  rwa [hg] at this

/-- **C82.** If the element has DOFs on the vertices, and a combination of its basis functions is constant only if the
coefficients are equal, then `uᵀ A u` is 0 only for vectors `u` with equal entries, and for all others at least
`m (u - ū)ᵀ (u - ū)` for some `m > 0`, where `ū` is the mean of the entries. -/
theorem C82_kernel (hs : LibraryShape lev t s) (hb : Built s t g pt cl) (hV : HasCorners s g pt V)
    (hf : (fam t).Uniform t k) (hk : 0 < k 0) {fs : FunctionSpace} (hm : FunctionSpace.new 0 1 g fam = .done fs)
    (hB : ContinuousBasis B t (fam t).dim) (hi : GradientBasis B t (fam t).dim)
    (hz : DerivativesSumZero B t (fam t).dim) :
    (∀ u, bilinear (doubleSum fs fs (pairIntegral curlCurlF laplaceGreen (vertexGeometry (cellFunctions t) V)
        (vertexGeometry (cellFunctions t) V) B B t)) fs.globalSize u u = 0 ↔
      ∀ i j, i < fs.globalSize → j < fs.globalSize → u i = u j) ∧
    ∃ m > 0, ∀ u, ((List.range fs.globalSize).map u).sum = 0 → m * sumSq fs.globalSize u ≤
      bilinear (doubleSum fs fs (pairIntegral curlCurlF laplaceGreen (vertexGeometry (cellFunctions t) V)
        (vertexGeometry (cellFunctions t) V) B B t)) fs.globalSize u u := by
  have hform := C82_form hs hb hV hf hm hB
  obtain ⟨hss, hg⟩ := shape_space hb hf hm
  have hker : ∀ u, bilinear (doubleSum fs fs (pairIntegral curlCurlF laplaceGreen (vertexGeometry (cellFunctions t) V)
        (vertexGeometry (cellFunctions t) V) B B t)) fs.globalSize u u = 0 →
      ∀ i j, i < fs.globalSize → j < fs.globalSize → u i = u j := by
    intro u hu
    have h0 := (hform u).2.mp hu
    refine dofs_constant hs hb hf hk hm fun c hc cd hcd => ?_
    refine coefficients_equal (t := t) hss (by rw [hg]; exact fun c hc => hb.cell_type hc) hi (by rw [hg]; exact h0)
      (by rw [hg]; exact hc) hcd
  refine ⟨fun u => ⟨hker u, fun h => (hform u).2.mpr fun c hc z _ => ?_⟩, ?_⟩
  · have ht : ∀ c ∈ fs.grid.entityIter 2, c.entityType = t := by rw [hg]; exact fun c hc => hb.cell_type hc
    have hc' : c ∈ fs.grid.entityIter 2 := by rw [hg]; exact hc
    exact ⟨functionOn_constant hss ht h (hz _).1 hc', functionOn_constant hss ht h (hz _).2 hc'⟩
  · refine coercive_of_definite_sum (fun u => (hform u).1) fun u hu hsum i hi' => ?_
    have hc := hker u hu
    have : ∀ j ∈ List.range fs.globalSize, u j = u i := fun j hj => hc j i (List.mem_range.mp hj) hi'
    rw [List.map_congr_left this, List.map_const', List.sum_replicate, List.length_range, nsmul_eq_mul] at hsum
    have hN : (fs.globalSize : ℝ) ≠ 0 := by
      have : 0 < fs.globalSize := by omega
      positivity
    exact (mul_eq_zero.mp hsum).resolve_left hN

/-- **C82.** The matrices that assembly returns: whatever the quadrature rules, their rows and columns add up to 0. With
enough quadrature points `uᵀ A u` is at least `m (u - ū)ᵀ (u - ū)` for some `m > 0`, and every linear system with a
right-hand side that adds up to 0 has exactly one solution that adds up to 0. -/
theorem C82_solvable {env : Env ℝ ℝ} {kernel : Kernel ℝ ℝ} {space : Space ℝ ℝ} {o : Nat → Options}
    {Q : Nat → Quadrature ℝ} (hcast : env.cast = id)
    (hs : LibraryShape lev t s) (hb : Built s t g pt cl) (hV : HasCorners s g pt V) (hf : (fam t).Uniform t k)
    (hk : 0 < k 0) (hm : FunctionSpace.new 0 1 g fam = .done space.fs)
    (hgeo : GeometryOk space (vertexGeometry (cellFunctions t) V)) (htab : TabulateOk space fam B)
    (hreg : ∀ n, RegularOk env (o n) (Q n) t) (hsing : ∀ n, SingularOk env (o n) (Q n) t t)
    (hK : kernel.Computes .valueDeriv laplaceGreen) (hbatch : ∀ n, 0 < (o n).batchSize)
    (hB : ContinuousBasis B t (fam t).dim) (hi : GradientBasis B t (fam t).dim)
    (hz : DerivativesSumZero B t (fam t).dim)
    (hrule : RulesConverge (refCell t) fun n => (Q n).regular t)
    (hpair : ∀ c ∈ g.entityIter 2, ∀ c' ∈ g.entityIter 2, c.Touches c' → ∀ a b, a < (fam t).dim → b < (fam t).dim →
      PairRulesConverge (refCell t) (fun n => (Q n).singular t t (connectivity c c'))
        (pairIntegrand curlCurlF laplaceGreen (vertexGeometry (cellFunctions t) V) (vertexGeometry (cellFunctions t) V) B B
          t c.localIndex c'.localIndex a b)) :
    ∃ M : Nat → List ℝ, (∀ n out, Assemble env (Laplace.hypersingular kernel (o n)) space space out ↔ out = some (M n)) ∧
      (∀ n i, i < space.fs.globalSize →
        ((List.range space.fs.globalSize).map fun j => (M n).getD (i + space.fs.globalSize * j) 0).sum = 0 ∧
        ((List.range space.fs.globalSize).map fun j => (M n).getD (j + space.fs.globalSize * i) 0).sum = 0) ∧
      ∃ m > 0, ∃ n₀, ∀ n ≥ n₀,
        (∀ u, m * sumSq space.fs.globalSize (fun i => u i - mean space.fs.globalSize u) ≤
          formOf (M n) space.fs.globalSize space.fs.globalSize u u) ∧
        ∀ b : Nat → ℝ, ((List.range space.fs.globalSize).map b).sum = 0 →
          (∃ x, ((List.range space.fs.globalSize).map x).sum = 0 ∧ Solves (M n) space.fs.globalSize x b) ∧
          ∀ x y, ((List.range space.fs.globalSize).map x).sum = 0 → ((List.range space.fs.globalSize).map y).sum = 0 →
            Solves (M n) space.fs.globalSize x b → Solves (M n) space.fs.globalSize y b →
            ∀ i, i < space.fs.globalSize → x i = y i := by
  obtain ⟨M, hM, hlim⟩ := C79_laplace hcast hs hb hV hf hf hm hm hgeo hgeo htab htab hreg hsing
    (fun n => .laplaceHypersingular hK) hbatch hB hB hrule hpair
  obtain ⟨-, m, hm0, hdef⟩ := C82_kernel hs hb hV hf hk hm hB hi hz
  have hp := fun n => shape_pair (V := V) hs hb hf hf hm hm hgeo hgeo htab htab (hreg n) (hsing n)
  have hrow : ∀ n i, i < space.fs.globalSize →
      ((List.range space.fs.globalSize).map fun j => (M n).getD (i + space.fs.globalSize * j) 0).sum = 0 := by
    intro n i hi'
    obtain ⟨M', h1, -, h3⟩ := C28_rows (hp n).1 hK (hbatch n) hz
    rw [Option.some_inj.mp ((h1 _).mp ((hM n _).mpr rfl))]
    exact h3 i hi'
  have hcol : ∀ n i, i < space.fs.globalSize →
      ((List.range space.fs.globalSize).map fun j => (M n).getD (j + space.fs.globalSize * i) 0).sum = 0 := by
    intro n i hi'
    obtain ⟨M', h1, -, h3⟩ := C28_columns (hp n).1 hK (hbatch n) hz
    rw [Option.some_inj.mp ((h1 _).mp ((hM n _).mpr rfl))]
    exact h3 i hi'
  obtain ⟨n₀, hn₀⟩ := eventually_near (ε := m / (2 * (space.fs.globalSize + 1))) (by positivity) hlim
  refine ⟨M, hM, fun n i hi' => ⟨hrow n i hi', hcol n i hi'⟩, m / 2, by positivity, n₀, fun n hn => ?_⟩
  have h0 : ∀ u, ((List.range space.fs.globalSize).map u).sum = 0 → m / 2 * sumSq space.fs.globalSize u ≤
      bilinear (fun i j => (M n).getD (i + space.fs.globalSize * j) 0) space.fs.globalSize u u := fun u hu =>
    nearby_form hm0 (hn₀ n hn) (hdef u hu)
  have h1 : ∀ u, m / 2 * sumSq space.fs.globalSize (fun i => u i - mean space.fs.globalSize u) ≤
      bilinear (fun i j => (M n).getD (i + space.fs.globalSize * j) 0) space.fs.globalSize u u := fun u => by
    have := h0 _ (sum_sub_mean space.fs.globalSize u)
    rwa [bilinear_shift (hrow n) (hcol n)] at this
  refine ⟨h1, fun b hb' => ?_⟩
  refine solvable_of_definite_sum (A := fun i j => (M n).getD (i + space.fs.globalSize * j) 0) (hcol n)
    (fun u => le_trans (mul_nonneg (by positivity) (sumSq_nonneg _ _)) (h1 u)) (fun u hu hsum => ?_) b hb'
  have h2 := h0 u hsum
  rw [hu] at h2
  have h3 := sumSq_nonneg space.fs.globalSize u
  exact sumSq_eq_zero (by nlinarith)

end

/-! ### C82: the hypotheses can be met -/

namespace Examples

theorem realP1_gradient : GradientBasis realP1 .triangle (p1 .triangle).dim := by
  intro w h
  obtain ⟨h1, h2⟩ := h (0, 0) ⟨by norm_num, by norm_num, by norm_num⟩
  have e1 : (w 0 * (-1) + (w 1 * 1 + (w 2 * 0 + 0)) : ℝ) = 0 := h1
  have e2 : (w 0 * (-1) + (w 1 * 0 + (w 2 * 1 + 0)) : ℝ) = 0 := h2
  have k1 : w 1 = w 0 := by linarith
  have k2 : w 2 = w 0 := by linarith
  have key : ∀ a, a < 3 → w a = w 0 := by
    intro a ha
    match a, ha with
    | 0, _ => rfl
    | 1, _ => exact k1
    | 2, _ => exact k2
  intro a b ha hb
  rw [key a ha, key b hb]

/-- C82: the hypersingular systems with P1 elements on spheres of all levels. -/
example (lev : Nat) : ∃ (rule : List (List ℝ × List ℝ × ℝ)) (V : Nat → Nat → Nat → ℝ) (fs : FunctionSpace),
    fs.globalSize = 4 ^ (lev + 1) + 2 ∧
    ∃ M : Nat → List ℝ, (∀ n out,
        Assemble (pairEnv rule) (Laplace.hypersingular (kernelOf laplaceGreen) (latticeOptions n))
          (Examples.spaceOf fs p1 (vertexGeometry triangleFunctions V) realP1)
          (Examples.spaceOf fs p1 (vertexGeometry triangleFunctions V) realP1) out ↔ out = some (M n)) ∧
      ∃ n₀, ∀ n ≥ n₀, ∀ b, ((List.range fs.globalSize).map b).sum = 0 →
        ∃ x, ((List.range fs.globalSize).map x).sum = 0 ∧ Solves (M n) fs.globalSize x b := by
  obtain ⟨s, hs, -⟩ := C30_sizes (1 / 2 : ℝ) Real.sqrt lev
  have hl : LibraryShape lev .triangle s := .inl ⟨hs, rfl⟩
  obtain ⟨-, -, -, ⟨g, pt, cl, hb⟩, -⟩ := C47_conforming _ _ _ hl
  obtain ⟨⟨V, hV⟩, -⟩ := C79_surface hl hb
  have hu := p1_uniform .triangle (by decide)
  obtain ⟨fs, h1, h2⟩ := C46_sphere _ _ hs hb hu
  obtain ⟨rule, r1, r2⟩ := exact_rule (S := refCell .triangle)
    ((g.entityIter 2).flatMap fun c => (g.entityIter 2).flatMap fun c' => (List.range 3).flatMap fun a =>
      (List.range 3).map fun b => pairIntegrand curlCurlF laplaceGreen (vertexGeometry triangleFunctions V)
        (vertexGeometry triangleFunctions V) realP1 realP1 .triangle c.localIndex c'.localIndex a b) (by
      intro f hf
      simp only [List.mem_flatMap, List.mem_map, List.mem_range] at hf
      obtain ⟨c, hc, c', hc', a, ha, b, hb', rfl⟩ := hf
      exact shape_integrable laplaceGreen_greenLike .hypersingular hl hb hV (realP1_continuous .triangle)
        (realP1_continuous .triangle) hc hc' ha hb')
  obtain ⟨M, hM, -, m, -, n₀, hn₀⟩ := C82_solvable (env := pairEnv rule) (o := latticeOptions) (Q := pairRules rule)
    (space := Examples.spaceOf fs p1 (vertexGeometry triangleFunctions V) realP1)
    (kernel := kernelOf laplaceGreen) rfl hl hb hV hu (by decide) h1
    (spaceOf_geometry fs p1 _ realP1) (spaceOf_tabulate fs p1 _ realP1) (pair_regular rule) (pair_singular r1)
    (kernelOf_computes laplaceGreen _) (fun _ => by show 0 < 128; decide)
    (realP1_continuous _) realP1_gradient (realP1_derivatives _) triangleRule_converges
    (fun c hc c' hc' _ a b ha hb' => by
      have := r2 _ (List.mem_flatMap.mpr ⟨c, hc, List.mem_flatMap.mpr ⟨c', hc', List.mem_flatMap.mpr
        ⟨a, List.mem_range.mpr ha, List.mem_map.mpr ⟨b, List.mem_range.mpr hb', rfl⟩⟩⟩⟩)
      show Tendsto (fun _ => (rule.map fun p => p.2.2 * _).sum) atTop _
      exact tendsto_const_nhds.congr fun _ => this.symm)
  exact ⟨rule, V, fs, by simpa using h2, M, hM, n₀, fun n hn b hb' => ((hn₀ n hn).2 b hb').1⟩

end Examples
end Bempp
