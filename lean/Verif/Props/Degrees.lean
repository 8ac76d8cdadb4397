import Verif.Proofs.Degrees
import Verif.Proofs.BestApproximation
import Verif.Props.Nested
/-
C104: Lagrange spaces of different degrees.
-/
namespace Bempp

section
variable {t : CellType} {fam fam' : CellType → ElementDofs} {sub sup : FunctionSpace} {B B' : Basis ℝ ℝ} {p q : Nat}
  {node node' : Nat → Nat × Nat}

/-- A DOF of two cells belongs to an entity of both, and has the same number there. -/
theorem common_origin (hs : SerialSpace sup fam) {c c' : Entity} (hc : c ∈ sup.grid.entityIter 2)
    (hc' : c' ∈ sup.grid.entityIter 2) (hne : c ≠ c') {cd cd' : List Nat} (hcd : sup.cellDofs c.localIndex = some cd)
    (hcd' : sup.cellDofs c'.localIndex = some cd') {b b' j : Nat} (hb : cd[b]? = some j) (hb' : cd'[b']? = some j) :
    ∃ (d i i' e k : Nat) (l l' : List Nat), d ≤ 1 ∧ (c.sub d)[i]? = some e ∧ (c'.sub d)[i']? = some e ∧
      (fam c.entityType).entityDofs d i = some l ∧ (fam c'.entityType).entityDofs d i' = some l' ∧ l[k]? = some b ∧
      l'[k]? = some b' := by
  obtain ⟨nd, -, fo, -⟩ := hs.family
  obtain ⟨d, i, e, k, l, ed, h1, h2, h3, h4, h5, h6⟩ := cell_dof_origin hs.wf fo hs.yields c hc cd hcd b j hb
  obtain ⟨d', i', e', k', l', ed', h1', h2', h3', h4', h5', h6'⟩ := cell_dof_origin hs.wf fo hs.yields c' hc' cd' hcd' b' j hb'
  have hlt := (C01_numbering_bijection hs.wf fo hs.yields).2.2 d e ed h5 j (List.mem_of_getElem? h6)
  have := ((C01_numbering_bijection hs.wf fo hs.yields).2.1 j hlt).unique (y₁ := (d, e, k)) (y₂ := (d', e', k'))
    ⟨ed, h5, h6⟩ ⟨ed', h5', h6'⟩
  simp only [Prod.mk.injEq] at this
  obtain ⟨rfl, rfl, rfl⟩ := this
  refine ⟨d, i, i', e, k, l, l', ?_, h2, h2', h3, h3', h4, h4'⟩
  by_contra hd
  obtain rfl : d = 2 := by omega
  have m1 := List.mem_of_getElem? h2
  have m2 := List.mem_of_getElem? h2'
  rw [hs.wf.sub_self c hc, List.mem_singleton] at m1
  rw [hs.wf.sub_self c' hc', List.mem_singleton] at m2
  exact hne (hs.wf.index_inj (by decide) hc hc' (m1.symm.trans m2))

/-- **C104.** On every serial grid, the discontinuous Lagrange space of degree `q` contains every Lagrange space, continuous or
discontinuous, of degree at most `q`. -/
theorem C104_discontinuous (hs : SerialSpace sub fam) (hs' : SerialSpace sup fam') (hg : sub.grid = sup.grid)
    (ht : ∀ c ∈ sub.grid.entityIter 2, c.entityType = t)
    (hf : (fam' t).Uniform t ((StandardFamily.discontinuous q).counts t)) (hN : NodalBasis p t (fam t).dim B node)
    (hN' : NodalBasis q t (fam' t).dim B' node') (hpq : p ≤ q) : sub.ContainedIn sup B B' := by
  refine contained_of_single hs hs' hg hN hN' hpq ht fun u c hc c' hc' hne cd cd' hcd hcd' b b' j hb hb' => ?_
  obtain ⟨d, i, i', e, k, l, l', hd, h1, -, h3, -, h5, -⟩ :=
    common_origin hs' (hg ▸ hc) (hg ▸ hc') hne hcd hcd' hb hb'
  have hi : i < refCount t d := by
    rw [← ht c hc, ← hs.wf.sub_length c hc d (by omega)]
    exact (List.getElem?_eq_some_iff.mp h1).1
  rw [ht c hc] at h3
  have hl := hf.count d (by omega) i hi l h3
  have h0 : (StandardFamily.discontinuous q).counts t d = 0 := by
    match d, hd with
    | 0, _ => rfl
    | 1, _ => rfl
  have := (List.getElem?_eq_some_iff.mp h5).1
  omega

/-- The coefficients of a function in the larger space. -/
theorem nested_function (hg : sub.grid = sup.grid) {P : Nat → Nat → ℝ} (hP : NestedSpaces sub sup B B' P) (u : Nat → ℝ) :
    SameFunction sub sup B B' u fun j => ((List.range sub.globalSize).map fun i => u i * P i j).sum := by
  refine ⟨hg, fun c hc d hd x => ?_⟩
  unfold FunctionSpace.functionOn
  have e : ∀ i ∈ List.range sub.globalSize, u i * sub.basisOn B i c d x =
      ((List.range sup.globalSize).map fun j => u i * P i j * sup.basisOn B' j c d x).sum := by
    intro i hi
    rw [hP.combination i (List.mem_range.mp hi) c hc d hd x, ← List.sum_map_mul_left]
    congr 1
    apply List.map_congr_left
    intro j _
    ring
  rw [List.map_congr_left e, sum_swap]
  congr 1
  apply List.map_congr_left
  intro j _
  rw [← List.sum_map_mul_right]

/-- **C104.** A space is contained in another one if and only if it is nested in it: its basis functions are combinations of those
of the other space. Matrices then are products with the coefficients of these combinations (C58). -/
theorem C104_nested (hg : sub.grid = sup.grid) : sub.ContainedIn sup B B' ↔ ∃ P, NestedSpaces sub sup B B' P :=
  ⟨nested_of_contained hg, fun ⟨_, hP⟩ u => ⟨_, nested_function hg hP u⟩⟩

end

section
variable {lev : Nat} {s : Shape ℝ} {t : CellType} {g : Grid} {pt cl : Nat → Nat} {V : Nat → Nat → Nat → ℝ}
  {fam fam' : CellType → ElementDofs} {sub sup : FunctionSpace} {B B' : Basis ℝ ℝ} {p q : Nat} {node node' : Nat → Nat × Nat}

/-- The functions of lower degree belong to the space of higher degree if the points of its DOFs are the same from all cells. -/
theorem contained_continuous (hs : LibraryShape lev t s) (hb : Built s t g pt cl)
    (hL : LagrangeElement p t (fam t) B) (hL' : LagrangeElement q t (fam' t) B') (hN : NodalBasis p t (fam t).dim B node)
    (hN' : NodalBasis q t (fam' t).dim B' node') (hm : FunctionSpace.new 0 1 g fam = .done sub)
    (hm' : FunctionSpace.new 0 1 g fam' = .done sup) (hpq : p ≤ q) (ha : q ≤ 2 ∨ s.EdgesAgree t) : sub.ContainedIn sup B B' := by
  obtain ⟨⟨V, hV⟩, -⟩ := C79_surface hs hb
  obtain ⟨hss, hg⟩ := shape_space hb hL.uniform hm
  obtain ⟨hss', hg'⟩ := shape_space hb hL'.uniform hm'
  have ht := hs.type
  refine contained_of_single hss hss' (hg.trans hg'.symm) hN hN' hpq (by rw [hg]; exact fun c hc => hb.cell_type hc) ?_
  rw [hg]
  intro u c hc c' hc' hne cd cd' hcd hcd' b b' j hbj hbj'
  obtain ⟨d, i, i', e, k, l, l', hd, h1, h2, h3, h4, h5, h6⟩ :=
    common_origin hss' (hg' ▸ hc) (hg' ▸ hc') hne hcd hcd' hbj hbj'
  have place : ∀ c ∈ g.entityIter 2, ∀ cd, sup.cellDofs c.localIndex = some cd → ∀ b : Nat, cd[b]? = some j → ∀ i : Nat,
      (c.sub d)[i]? = some e → ∀ l, (fam' c.entityType).entityDofs d i = some l → l[k]? = some b →
      (d = 1 → k < q - 1) ∧ LagrangePoint q t d i k (node' b) ∧ NodalPoint q t (node' b) := by
    intro c hc cd hcd b hbj i hi l hl hlb
    rw [hb.cell_type hc] at hl
    have hi' : i < refCount t d := by
      rw [← hb.cell_type hc, ← hb.wf.sub_length c hc d (by omega)]
      exact (List.getElem?_eq_some_iff.mp hi).1
    have hk : d = 1 → k < q - 1 := by
      rintro rfl
      have := hL'.uniform.count 1 (by omega) i hi' l hl
      have h5 := (List.getElem?_eq_some_iff.mp hlb).1
      rw [this] at h5
      exact h5
    have hlen := (hss'.functionOn_list (B := B') (hg' ▸ hc) (hb.cell_type hc) hcd u 0 []).1
    have hbd : b < (fam' t).dim := hlen ▸ (List.getElem?_eq_some_iff.mp hbj).1
    obtain ⟨m, hm1, -⟩ := hL'.basis d (by omega) i hi' l hl k b hlb
    have := lagrange_point_of hL' hN' hd hi' hl hlb hbd hm1 (lagrangePoint_nodal hL'.degree ht hd hi' hk hm1)
    exact ⟨hk, this ▸ hm1, hN'.point b hbd⟩
  obtain ⟨hk, q1, q2⟩ := place c hc cd hcd b hbj i h1 l h3 h5
  obtain ⟨-, r1, r2⟩ := place c' hc' cd' hcd' b' hbj' i' h2 l' h4 h6
  have hpt := common_node hs hb hV hL'.degree ha hc hc' hd h1 h2 hk q1 r1
  unfold FunctionSpace.functionOn
  congr 1
  refine List.map_congr_left fun n hn => ?_
  rw [basis_single hs hb hV hL hm (ha.imp_left fun h => by omega) hc hc' (nodePoint_mem ht q2) (nodePoint_mem ht r2) hpt
    (List.mem_range.mp hn)]

/-- **C104.** On the spheres and screens of the library: the Lagrange space of degree `q` contains the one of a lower degree
`p ≥ 1` if and only if `q` is at most 2 or all cells go through common edges in the same direction. -/
theorem C104_continuous_iff (hs : LibraryShape lev t s) (hb : Built s t g pt cl)
    (hL : LagrangeElement p t (fam t) B) (hL' : LagrangeElement q t (fam' t) B') (hN : NodalBasis p t (fam t).dim B node)
    (hN' : NodalBasis q t (fam' t).dim B' node') (hm : FunctionSpace.new 0 1 g fam = .done sub)
    (hm' : FunctionSpace.new 0 1 g fam' = .done sup) (hpq : p < q) :
    sub.ContainedIn sup B B' ↔ q ≤ 2 ∨ s.EdgesAgree t := by
  refine ⟨fun h => ?_, contained_continuous hs hb hL hL' hN hN' hm hm' hpq.le⟩
  by_contra hno
  rw [not_or] at hno
  have hq : 3 ≤ q := by omega
  obtain ⟨hss, hg⟩ := shape_space hb hL.uniform hm
  obtain ⟨hss', hg'⟩ := shape_space hb hL'.uniform hm'
  have ht := hs.type
  have hwf := hb.wf
  obtain ⟨c, hc, c', hc', e, he, e', he', v, w, en, i, i', hv, hw, hw', hv', hi, ri, hi', ri'⟩ := opposite_edges hs hb hno.2
  -- the function of the common corner `v`
  have fo := hb.family hL.uniform
  have hyy : (FunctionSpace.new 0 1 g fam).Yields sub := by rw [hm]; exact .done sub
  have lt0 : ∀ c ∈ g.entityIter 2, ∀ a : Nat, (c.sub 0)[a]? = some v → a < refCount t 0 := by
    intro c hc a h
    rw [← hb.cell_type hc, ← hwf.sub_length c hc 0 (by decide)]
    exact (List.getElem?_eq_some_iff.mp h).1
  obtain ⟨l, hl⟩ := Option.isSome_iff_exists.mp (hL.uniform.wf.defined 0 (by decide) e.1 (lt0 c hc _ hv))
  obtain ⟨l', hl'⟩ := Option.isSome_iff_exists.mp (hL.uniform.wf.defined 0 (by decide) e'.2 (lt0 c' hc' _ hv'))
  have hll : l.length = 1 := hL.uniform.count 0 (by decide) e.1 (lt0 c hc _ hv) l hl
  obtain ⟨cd, ed, n, -, hed, -, -, hn⟩ := C02_conformity hwf fo hyy c hc 0 e.1 v (by decide) hv l
    (by rw [hb.cell_type hc]; exact hl) 0 l[0] (by simp [hll])
  have hlt : n < sub.globalSize := by
    obtain ⟨fs', h1, -, -, -, h2⟩ := hb.space hL.uniform
    rw [hm] at h1
    cases h1
    rw [h2]
    exact (C01_numbering_bijection hwf fo hyy).2.2 0 v ed hed n (List.mem_of_getElem? hn)
  have val : ∀ c ∈ g.entityIter 2, ∀ a : Nat, (c.sub 0)[a]? = some v → ∀ l, (fam t).entityDofs 0 a = some l → ∀ z,
      (0 : ℝ) ∈ cornerWeights t z → sub.functionOn B (fun m => if m = n then 1 else 0) c 0 (pointList z) =
        ramp p p ((cornerWeights t z).getD a 0) := by
    intro c hc a hav l hl z hz
    obtain ⟨a', hla, h2⟩ := basisOn_entity (B := B) hwf fo hyy hc (by decide) hav (by rw [hb.cell_type hc]; exact hl) hed hn
    obtain ⟨n', h3, h4⟩ := hL.basis 0 (by decide) a (lt0 c hc a hav) l hl 0 a' hla
    rw [functionOn_indicator sub B hlt, h2, hb.cell_type hc, h4, lagrange_corner hL.degree ht (lt0 c hc a hav) h3 hz]
  -- the first DOF of the edge
  obtain ⟨u', hu'⟩ := h fun m => if m = n then 1 else 0
  have fo' := hb.family hL'.uniform
  have hyy' : (FunctionSpace.new 0 1 g fam').Yields sup := by rw [hm']; exact .done sup
  have lt1 : ∀ c ∈ g.entityIter 2, ∀ a : Nat, (c.sub 1)[a]? = some en → a < refCount t 1 := by
    intro c hc a h
    rw [← hb.cell_type hc, ← hwf.sub_length c hc 1 (by decide)]
    exact (List.getElem?_eq_some_iff.mp h).1
  obtain ⟨l1, hl1⟩ := Option.isSome_iff_exists.mp (hL'.uniform.wf.defined 1 (by decide) i (lt1 c hc _ hi))
  have hll1 : l1.length = q - 1 := hL'.uniform.count 1 (by decide) i (lt1 c hc _ hi) l1 hl1
  obtain ⟨cd1, ed1, n1, -, hed1, -, -, hn1⟩ := C02_conformity hwf fo' hyy' c hc 1 i en (by decide) hi l1
    (by rw [hb.cell_type hc]; exact hl1) 0 (l1[0]'(by omega)) (by rw [List.getElem?_eq_getElem (by omega)])
  have point : ∀ c ∈ g.entityIter 2, ∀ i : Nat, (c.sub 1)[i]? = some en → ∀ e, (refEdges t)[i]? = some e →
      sub.functionOn B (fun m => if m = n then 1 else 0) c 0 (pointList (refEdgePoint t e (1 / q))) = u' n1 := by
    intro c hc i hi e he
    rw [hu'.values c (hg ▸ hc) 0 (by decide)]
    have := C103_entities hss' hL' hN' ht (hg' ▸ hc) (hb.cell_type hc) (by decide) (lt1 c hc i hi) hi hed1 hn1
      (m := ((q - 1 - 0) * (refCorner t e.1).1 + (0 + 1) * (refCorner t e.2).1,
        (q - 1 - 0) * (refCorner t e.1).2 + (0 + 1) * (refCorner t e.2).2)) ⟨e.1, e.2, he, rfl⟩ u'
    rwa [edge_point (by omega), show (((0 + 1 : Nat) : ℝ)) = 1 by norm_num] at this
  have k1 := point c hc i hi e ri
  have k2 := point c' hc' i' hi' e' ri'
  obtain ⟨w1, -, w3⟩ := refEdgePoint_weights ht he (1 / (q : ℝ))
  obtain ⟨-, w2', w3'⟩ := refEdgePoint_weights ht he' (1 / (q : ℝ))
  rw [val c hc e.1 hv l hl _ w3, w1] at k1
  rw [val c' hc' e'.2 hv' l' hl' _ w3', w2'] at k2
  exact corner_values hL.degree hpq hq (k1.trans k2.symm)

/-- **C104.** The form `uᵀ A u` of the Laplace single layer matrix depends only on the function, not on the space, on every sphere
and every screen. -/
theorem C104_energy (hs : LibraryShape lev t s) (hb : Built s t g pt cl) (hV : HasCorners s g pt V) {k k' : Nat → Nat}
    (hf : (fam t).Uniform t k) (hf' : (fam' t).Uniform t k') (hm : FunctionSpace.new 0 1 g fam = .done sub)
    (hm' : FunctionSpace.new 0 1 g fam' = .done sup) (hB : ContinuousBasis B t (fam t).dim)
    (hB' : ContinuousBasis B' t (fam' t).dim) {u u' : Nat → ℝ} (h : SameFunction sub sup B B' u u') :
    bilinear (doubleSum sub sub (pairIntegral slF laplaceGreen (vertexGeometry (cellFunctions t) V)
      (vertexGeometry (cellFunctions t) V) B B t)) sub.globalSize u u =
    bilinear (doubleSum sup sup (pairIntegral slF laplaceGreen (vertexGeometry (cellFunctions t) V)
      (vertexGeometry (cellFunctions t) V) B' B' t)) sup.globalSize u' u' := by
  obtain ⟨hss, hg⟩ := shape_space hb hf hm
  obtain ⟨hss', -⟩ := shape_space hb hf' hm'
  exact single_same hss hss' (by rw [hg]; exact fun c hc => hb.cell_type hc)
    (by rw [hg]; exact fun c hc => shape_continuous hs hb hV hc) (by rw [hg]; exact fun c hc => shape_flat hs hb hV hc) hB hB' h

/-- **C104.** The Galerkin solutions of the Laplace single layer equation in a space and in a space that contains it, for
right-hand sides `b` and `b'` that come from the same data: the energy `xᵀ b` of the first solution is not larger than
that of the second, and no function of the smaller space is nearer to the second solution, in the energy norm, than
the first solution. -/
theorem C104_galerkin (hs : LibraryShape lev t s) (hb : Built s t g pt cl) (hV : HasCorners s g pt V) {k k' : Nat → Nat}
    (hf : (fam t).Uniform t k) (hf' : (fam' t).Uniform t k') (hm : FunctionSpace.new 0 1 g fam = .done sub)
    (hm' : FunctionSpace.new 0 1 g fam' = .done sup) (hB : ContinuousBasis B t (fam t).dim)
    (hB' : ContinuousBasis B' t (fam' t).dim) (hcon : sub.ContainedIn sup B B') {x x' b b' : Nat → ℝ}
    (hx : SolvesWith (doubleSum sub sub (pairIntegral slF laplaceGreen (vertexGeometry (cellFunctions t) V)
      (vertexGeometry (cellFunctions t) V) B B t)) sub.globalSize x b)
    (hx' : SolvesWith (doubleSum sup sup (pairIntegral slF laplaceGreen (vertexGeometry (cellFunctions t) V)
      (vertexGeometry (cellFunctions t) V) B' B' t)) sup.globalSize x' b')
    (hbb : ∀ u u', SameFunction sub sup B B' u u' → dotOf sub.globalSize u b = dotOf sup.globalSize u' b') :
    dotOf sub.globalSize x b ≤ dotOf sup.globalSize x' b' ∧
    ∃ X, SameFunction sub sup B B' x X ∧ ∀ y Y, SameFunction sub sup B B' y Y →
      bilinear (doubleSum sup sup (pairIntegral slF laplaceGreen (vertexGeometry (cellFunctions t) V)
        (vertexGeometry (cellFunctions t) V) B' B' t)) sup.globalSize (fun i => x' i - X i) (fun i => x' i - X i) ≤
      bilinear (doubleSum sup sup (pairIntegral slF laplaceGreen (vertexGeometry (cellFunctions t) V)
        (vertexGeometry (cellFunctions t) V) B' B' t)) sup.globalSize (fun i => x' i - Y i) (fun i => x' i - Y i) := by
  obtain ⟨hss, hg⟩ := shape_space hb hf hm
  obtain ⟨hss', hg'⟩ := shape_space hb hf' hm'
  obtain ⟨X, hX⟩ := hcon x
  have sym := laplace_symmetric hss (by rw [hg]; exact fun c hc => hb.cell_type hc)
    (by rw [hg]; exact fun c hc => shape_continuous hs hb hV hc) (by rw [hg]; exact fun c hc => shape_flat hs hb hV hc) hB
  have sym' := laplace_symmetric hss' (by rw [hg']; exact fun c hc => hb.cell_type hc)
    (by rw [hg']; exact fun c hc => shape_continuous hs hb hV hc) (by rw [hg']; exact fun c hc => shape_flat hs hb hV hc) hB'
  obtain ⟨h1, h2⟩ := galerkin_best (R := SameFunction sub sup B B') sym sym' (fun u => (C81_form hs hb hV hf hm hB u).1)
    (fun u => (C81_form hs hb hV hf' hm' hB' u).1)
    (fun u u' h => C104_energy hs hb hV hf hf' hm hm' hB hB' h) hx hx' hbb hX
  exact ⟨h1, X, hX, h2⟩

/-- **C104.** For nodal spaces that contain each other there are such solutions for all data: for every right-hand side `b'` of
the larger space there is a right-hand side `b` of the smaller space that comes from the same data, and both systems are
solvable. -/
theorem C104_data (hs : LibraryShape lev t s) (hb : Built s t g pt cl) (hV : HasCorners s g pt V) {k k' : Nat → Nat}
    (hf : (fam t).Uniform t k) (hf' : (fam' t).Uniform t k') (hm : FunctionSpace.new 0 1 g fam = .done sub)
    (hm' : FunctionSpace.new 0 1 g fam' = .done sup) (hN : NodalBasis p t (fam t).dim B node)
    (hN' : NodalBasis q t (fam' t).dim B' node') (hcon : sub.ContainedIn sup B B') (b' : Nat → ℝ) :
    ∃ b x x', (∀ u u', SameFunction sub sup B B' u u' → dotOf sub.globalSize u b = dotOf sup.globalSize u' b') ∧
      SolvesWith (doubleSum sub sub (pairIntegral slF laplaceGreen (vertexGeometry (cellFunctions t) V)
        (vertexGeometry (cellFunctions t) V) B B t)) sub.globalSize x b ∧
      SolvesWith (doubleSum sup sup (pairIntegral slF laplaceGreen (vertexGeometry (cellFunctions t) V)
        (vertexGeometry (cellFunctions t) V) B' B' t)) sup.globalSize x' b' := by
  obtain ⟨hss, hg⟩ := shape_space hb hf hm
  obtain ⟨hss', hg'⟩ := shape_space hb hf' hm'
  have hgg := hg.trans hg'.symm
  obtain ⟨P, hP⟩ := (C104_nested hgg).mp hcon
  have solve : ∀ {fam : CellType → ElementDofs} {fs : FunctionSpace} {B : Basis ℝ ℝ} {p : Nat} {node : Nat → Nat × Nat}
      {k : Nat → Nat}, (fam t).Uniform t k → FunctionSpace.new 0 1 g fam = .done fs → NodalBasis p t (fam t).dim B node →
      ∀ b : Nat → ℝ, ∃ x, SolvesWith (doubleSum fs fs (pairIntegral slF laplaceGreen (vertexGeometry (cellFunctions t) V)
        (vertexGeometry (cellFunctions t) V) B B t)) fs.globalSize x b := by
    intro fam fs B p node k hf hm hN b
    refine (solvable_of_definite (fun u hu => ?_) b).1
    obtain ⟨m, hm0, hdef⟩ := C81_definite hs hb hV hf hm hN.continuous (hN.independent hs.type)
    have h2 := hdef u
    rw [hu] at h2
    have h3 := sumSq_nonneg fs.globalSize u
    exact sumSq_eq_zero (by nlinarith)
  let b : Nat → ℝ := fun i => ((List.range sup.globalSize).map fun j => P i j * b' j).sum
  obtain ⟨x, hx⟩ := solve hf hm hN b
  obtain ⟨x', hx'⟩ := solve hf' hm' hN' b'
  refine ⟨b, x, x', fun u u' h => ?_, hx, hx'⟩
  have hu : ∀ j, j < sup.globalSize → u' j = ((List.range sub.globalSize).map fun i => u i * P i j).sum := by
    refine C103_unique hss' hN' hs.type (by rw [hg']; exact fun c hc => hb.cell_type hc) _ _ fun c hc z _ => ?_
    rw [← hgg] at hc
    rw [← h.values c hc 0 (by decide), ((nested_function hgg hP u).values c hc 0 (by decide) _)]
  unfold dotOf
  have e : (List.range sup.globalSize).map (fun j => u' j * b' j) =
      (List.range sup.globalSize).map fun j => ((List.range sub.globalSize).map fun i => u i * (P i j * b' j)).sum := by
    refine List.map_congr_left fun j hj => ?_
    rw [hu j (List.mem_range.mp hj), ← List.sum_map_mul_right]
    simp only [mul_assoc]
  rw [e, sum_swap]
  congr 1
  refine List.map_congr_left fun i _ => ?_
  rw [List.sum_map_mul_left]

/-! ### C104: the hypotheses can be met -/

/-- C104, all spheres: a space of degree `p` belongs to the one of a higher degree `q` if and only if `p` is 1 and `q` is 2. -/
example (lev p q : Nat) (hp : 0 < p) (hpq : p < q) : ∃ s g pt cl sub sup, realSphere lev = some s ∧ Built s .triangle g pt cl ∧
    FunctionSpace.new 0 1 g (fun t => layeredElement ((StandardFamily.lagrange p).counts t) t) = .done sub ∧
    FunctionSpace.new 0 1 g (fun t => layeredElement ((StandardFamily.lagrange q).counts t) t) = .done sup ∧
    (sub.ContainedIn sup (pointBasis p (lagrangeNode p)) (pointBasis q (lagrangeNode q)) ↔ p = 1 ∧ q = 2) := by
  obtain ⟨s, hs, -⟩ := C30_sizes (1 / 2 : ℝ) Real.sqrt lev
  have hl : LibraryShape lev .triangle s := .inl ⟨hs, rfl⟩
  obtain ⟨-, -, -, ⟨g, pt, cl, hb⟩, -⟩ := C47_conforming _ _ _ hl
  have hq : 0 < q := by omega
  have hL := lagrange_element' hp (t := .triangle) (.inl rfl)
  have hL' := lagrange_element' hq (t := .triangle) (.inl rfl)
  obtain ⟨sub, hm, -⟩ := hb.space (fam := fun t => layeredElement ((StandardFamily.lagrange p).counts t) t) hL.uniform
  obtain ⟨sup, hm', -⟩ := hb.space (fam := fun t => layeredElement ((StandardFamily.lagrange q).counts t) t) hL'.uniform
  refine ⟨s, g, pt, cl, sub, sup, hs, hb, hm, hm', ?_⟩
  rw [C104_continuous_iff (fam := fun t => layeredElement ((StandardFamily.lagrange p).counts t) t)
    (fam' := fun t => layeredElement ((StandardFamily.lagrange q).counts t) t) hl hb hL hL' (lagrange_nodal hp (.inl rfl))
    (lagrange_nodal hq (.inl rfl)) hm hm' hpq]
  simp only [C102_edges.2.2 lev s hs, or_false]
  omega

/-- C104, all screens of quadrilaterals: the spaces of all degrees contain each other, and there are solutions for all data, with
the comparison of their energies. -/
example (n p q : Nat) (hn : 0 < n) (hp : 0 < p) (hpq : p < q) (b' : Nat → ℝ) : ∃ s g pt cl V sub sup,
    screenQuadrilaterals (fun k => (k : ℝ)) n = some s ∧ Built s .quadrilateral g pt cl ∧ HasCorners s g pt V ∧
    FunctionSpace.new 0 1 g (fun t => layeredElement ((StandardFamily.lagrange p).counts t) t) = .done sub ∧
    FunctionSpace.new 0 1 g (fun t => layeredElement ((StandardFamily.lagrange q).counts t) t) = .done sup ∧
    sub.ContainedIn sup (pointBasis p (lagrangeNode p)) (pointBasis q (lagrangeNode q)) ∧
    ∃ b x x', SolvesWith (doubleSum sub sub (pairIntegral slF laplaceGreen (vertexGeometry quadrilateralFunctions V)
        (vertexGeometry quadrilateralFunctions V) (pointBasis p (lagrangeNode p)) (pointBasis p (lagrangeNode p))
        .quadrilateral)) sub.globalSize x b ∧
      SolvesWith (doubleSum sup sup (pairIntegral slF laplaceGreen (vertexGeometry quadrilateralFunctions V)
        (vertexGeometry quadrilateralFunctions V) (pointBasis q (lagrangeNode q)) (pointBasis q (lagrangeNode q))
        .quadrilateral)) sup.globalSize x' b' ∧
      dotOf sub.globalSize x b ≤ dotOf sup.globalSize x' b' := by
  obtain ⟨s, hs⟩ : ∃ s, screenQuadrilaterals (fun k => (k : ℝ)) n = some s := by
    simp [screenQuadrilaterals, Nat.pos_iff_ne_zero.mp hn]
  have hl : LibraryShape n .quadrilateral s := .inr (.inr ⟨hs, rfl⟩)
  obtain ⟨-, -, -, ⟨g, pt, cl, hb⟩, -⟩ := C47_conforming _ _ _ hl
  obtain ⟨⟨V, hV⟩, -⟩ := C79_surface hl hb
  have hq : 0 < q := by omega
  have hL := lagrange_element' hp (t := .quadrilateral) (.inr rfl)
  have hL' := lagrange_element' hq (t := .quadrilateral) (.inr rfl)
  have hN := lagrange_nodal hp (t := .quadrilateral) (.inr rfl)
  have hN' := lagrange_nodal hq (t := .quadrilateral) (.inr rfl)
  obtain ⟨sub, hm, -⟩ := hb.space (fam := fun t => layeredElement ((StandardFamily.lagrange p).counts t) t) hL.uniform
  obtain ⟨sup, hm', -⟩ := hb.space (fam := fun t => layeredElement ((StandardFamily.lagrange q).counts t) t) hL'.uniform
  have hcon := (C104_continuous_iff (fam := fun t => layeredElement ((StandardFamily.lagrange p).counts t) t)
    (fam' := fun t => layeredElement ((StandardFamily.lagrange q).counts t) t) hl hb hL hL' hN hN' hm hm' hpq).mpr
    (.inr (C102_edges.1 n s hs))
  obtain ⟨b, x, x', h1, h2, h3⟩ := C104_data (fam := fun t => layeredElement ((StandardFamily.lagrange p).counts t) t)
    (fam' := fun t => layeredElement ((StandardFamily.lagrange q).counts t) t) hl hb hV hL.uniform hL'.uniform hm hm' hN hN'
    hcon b'
  exact ⟨s, g, pt, cl, V, sub, sup, hs, hb, hV, hm, hm', hcon, b, x, x', h2, h3,
    (C104_galerkin (fam := fun t => layeredElement ((StandardFamily.lagrange p).counts t) t)
      (fam' := fun t => layeredElement ((StandardFamily.lagrange q).counts t) t) hl hb hV hL.uniform hL'.uniform hm hm'
      hN.continuous hN'.continuous hcon h2 h3 h1).1⟩

/-- C104, all spheres: discontinuous spaces of all degrees contain the continuous ones of lower or equal degree. -/
example (lev p q : Nat) (hp : 0 < p) (hpq : p ≤ q) : ∃ s g pt cl sub sup, realSphere lev = some s ∧ Built s .triangle g pt cl ∧
    FunctionSpace.new 0 1 g (fun t => layeredElement ((StandardFamily.lagrange p).counts t) t) = .done sub ∧
    FunctionSpace.new 0 1 g (fun t => layeredElement ((StandardFamily.discontinuous q).counts t) t) = .done sup ∧
    sub.ContainedIn sup (pointBasis p (lagrangeNode p)) (pointBasis q (latticeNode q)) := by
  obtain ⟨s, hs, -⟩ := C30_sizes (1 / 2 : ℝ) Real.sqrt lev
  have hl : LibraryShape lev .triangle s := .inl ⟨hs, rfl⟩
  obtain ⟨-, -, -, ⟨g, pt, cl, hb⟩, -⟩ := C47_conforming _ _ _ hl
  have hL := lagrange_element' hp (t := .triangle) (.inl rfl)
  obtain ⟨hf, hd⟩ := C96_elements (.discontinuous q) (by simp [StandardFamily.Valid]) .triangle (.inl rfl)
  obtain ⟨sub, hm, hss, hg, -⟩ := hb.space (fam := fun t => layeredElement ((StandardFamily.lagrange p).counts t) t) hL.uniform
  obtain ⟨sup, hm', hss', hg', -⟩ :=
    hb.space (fam := fun t => layeredElement ((StandardFamily.discontinuous q).counts t) t) hf
  refine ⟨s, g, pt, cl, sub, sup, hs, hb, hm, hm', C104_discontinuous (node' := latticeNode q .triangle) hss hss'
    (hg.trans hg'.symm) (by rw [hg]; exact fun c hc => hb.cell_type hc) hf (lagrange_nodal hp (.inl rfl)) ?_ hpq⟩
  rw [hd]
  exact lattice_nodal q .triangle

end
end Bempp
