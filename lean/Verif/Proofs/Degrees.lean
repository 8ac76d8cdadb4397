import Verif.Spec.Degrees
import Verif.Proofs.Interpolation
import Verif.Props.Nodal
/-
Lagrange spaces of different degrees on the same grid.
-/
namespace Bempp

section
variable {p q dim dim' : Nat} {t : CellType} {B B' : Basis ℝ ℝ} {node node' : Nat → Nat × Nat}

theorem NodalBasis.raise_function (h' : NodalBasis q t dim' B' node') (hpq : p ≤ q) {n : Nat × Nat} (hn : NodalPoint p t n)
    (z : ℝ × ℝ) : lagrangeFunction p t n z =
      ∑ b ∈ Finset.range dim', lagrangeFunction p t n (nodePoint q (node' b)) * lagrangeFunction q t (node' b) z := by
  rw [lagrange_raise hpq hn, ← h'.image, Finset.sum_image]
  exact fun a ha b hb e => h'.injective a b (by simpa using ha) (by simpa using hb) e

/-- A basis function of lower degree, with its derivatives, is the combination of those of higher degree with its values at
their points. -/
theorem NodalBasis.raise (h : NodalBasis p t dim B node) (h' : NodalBasis q t dim' B' node') (hpq : p ≤ q) {a : Nat}
    (ha : a < dim) {d : Nat} (hd : d < 3) (x : List ℝ) : B t a d x =
      ((List.range dim').map fun b => B t a 0 (pointList (nodePoint q (node' b))) * B' t b d x).sum := by
  rw [← List.sum_toFinset _ List.nodup_range, List.toFinset_range]
  have hv : ∀ b, B t a 0 (pointList (nodePoint q (node' b))) = lagrangeFunction p t (node a) (nodePoint q (node' b)) :=
    fun b => h.value a ha _
  have hr := h'.raise_function hpq (h.point a ha)
  simp only [hv]
  match d, hd with
  | 0, _ =>
    rw [h.value a ha, hr]
    exact Finset.sum_congr rfl fun b hb => by rw [h'.value b (Finset.mem_range.mp hb)]
  | 1, _ =>
    have := HasDerivAt.fun_sum fun b (hb : b ∈ Finset.range dim') =>
      (h'.first b (Finset.mem_range.mp hb) x).const_mul (lagrangeFunction p t (node a) (nodePoint q (node' b)))
    simp only [← hr] at this
    exact (h.first a ha x).unique this
  | 2, _ =>
    have := HasDerivAt.fun_sum fun b (hb : b ∈ Finset.range dim') =>
      (h'.second b (Finset.mem_range.mp hb) x).const_mul (lagrangeFunction p t (node a) (nodePoint q (node' b)))
    simp only [← hr] at this
    exact (h.second a ha x).unique this

end

section
variable {t : CellType} {fam fam' : CellType → ElementDofs} {sub sup : FunctionSpace} {B B' : Basis ℝ ℝ} {p q : Nat}
  {node node' : Nat → Nat × Nat}

/-- A function on a cell in terms of the DOFs of the cell. -/
theorem SerialSpace.functionOn_list (hs : SerialSpace sub fam) {c : Entity} (hc : c ∈ sub.grid.entityIter 2)
    (ht : c.entityType = t) {cd : List Nat} (hcd : sub.cellDofs c.localIndex = some cd) (u : Nat → ℝ) (d : Nat) (x : List ℝ) :
    cd.length = (fam t).dim ∧ cd.Nodup ∧
      sub.functionOn B u c d x = ((List.range (fam t).dim).map fun a => u (cd.getD a 0) * B t a d x).sum := by
  obtain ⟨nd, -, fo, -⟩ := hs.family
  obtain ⟨cd', h1, h2, h3, -⟩ := (C03_cell_dofs hs.wf fo hs.yields).2 c hc
  rw [hcd] at h1
  cases h1
  rw [ht] at h2
  refine ⟨h2, h3, ?_⟩
  rw [hs.functionOn_dofs hc, ht]
  unfold FunctionSpace.dofsOf
  rw [hcd, Option.getD_some, ← h2]
  congr 1
  apply List.ext_getElem (by simp)
  intro k hk hk'
  simp only [List.length_map, List.length_zipIdx] at hk
  simp [hk]

/-- The function of the larger space with the values of a function of the smaller one is this function. -/
theorem same_of_values (hs : SerialSpace sub fam) (hs' : SerialSpace sup fam') (hg : sub.grid = sup.grid)
    (hN : NodalBasis p t (fam t).dim B node) (hN' : NodalBasis q t (fam' t).dim B' node') (hpq : p ≤ q)
    (ht : ∀ c ∈ sub.grid.entityIter 2, c.entityType = t) {u u' : Nat → ℝ}
    (h : ∀ c ∈ sub.grid.entityIter 2, ∀ cd, sup.cellDofs c.localIndex = some cd → ∀ b j : Nat, cd[b]? = some j →
      u' j = sub.functionOn B u c 0 (pointList (nodePoint q (node' b)))) : SameFunction sub sup B B' u u' where
  grid := hg
  values := by
    intro c hc d hd x
    have hc' : c ∈ sup.grid.entityIter 2 := hg ▸ hc
    obtain ⟨nd, -, fo, -⟩ := hs.family
    obtain ⟨cd, h1, -⟩ := (C03_cell_dofs hs.wf fo hs.yields).2 c hc
    obtain ⟨nd', -, fo', -⟩ := hs'.family
    obtain ⟨cd', h1', -⟩ := (C03_cell_dofs hs'.wf fo' hs'.yields).2 c hc'
    obtain ⟨l1, -, e1⟩ := hs.functionOn_list (B := B) hc (ht c hc) h1 u d x
    obtain ⟨l2, -, e2⟩ := hs'.functionOn_list (B := B') hc' (ht c hc) h1' u' d x
    rw [e1, e2]
    simp only [← List.sum_toFinset _ List.nodup_range, List.toFinset_range]
    have e3 : ∀ b ∈ Finset.range (fam' t).dim, u' (cd'.getD b 0) * B' t b d x =
        ∑ a ∈ Finset.range (fam t).dim, u (cd.getD a 0) * B t a 0 (pointList (nodePoint q (node' b))) * B' t b d x := by
      intro b hb
      have hb' : b < cd'.length := by rw [l2]; exact Finset.mem_range.mp hb
      rw [h c hc cd' h1' b (cd'.getD b 0) (by rw [getD_of_lt hb']; simp), (hs.functionOn_list (B := B) hc (ht c hc) h1 u 0 _).2.2,
        ← List.sum_toFinset _ List.nodup_range, List.toFinset_range, Finset.sum_mul]
    rw [Finset.sum_congr rfl e3, Finset.sum_comm]
    refine Finset.sum_congr rfl fun a ha => ?_
    rw [hN.raise hN' hpq (Finset.mem_range.mp ha) hd, ← List.sum_toFinset _ List.nodup_range, List.toFinset_range,
      Finset.mul_sum]
    exact Finset.sum_congr rfl fun b _ => (mul_assoc _ _ _).symm

/-- If the functions of the smaller space have one value at the point of each DOF of the larger one, then they belong to it. -/
theorem contained_of_single (hs : SerialSpace sub fam) (hs' : SerialSpace sup fam') (hg : sub.grid = sup.grid)
    (hN : NodalBasis p t (fam t).dim B node) (hN' : NodalBasis q t (fam' t).dim B' node') (hpq : p ≤ q)
    (ht : ∀ c ∈ sub.grid.entityIter 2, c.entityType = t)
    (h : ∀ u, ∀ c ∈ sub.grid.entityIter 2, ∀ c' ∈ sub.grid.entityIter 2, c ≠ c' → ∀ cd cd',
      sup.cellDofs c.localIndex = some cd → sup.cellDofs c'.localIndex = some cd' → ∀ b b' j : Nat, cd[b]? = some j →
      cd'[b']? = some j → sub.functionOn B u c 0 (pointList (nodePoint q (node' b))) =
        sub.functionOn B u c' 0 (pointList (nodePoint q (node' b')))) : sub.ContainedIn sup B B' := by
  classical
  intro u
  let Q : Nat → Entity × Nat → Prop := fun j x => x.1 ∈ sub.grid.entityIter 2 ∧ ∃ cd, sup.cellDofs x.1.localIndex = some cd ∧
    cd[x.2]? = some j
  refine ⟨fun j => if hj : ∃ x, Q j x then
    sub.functionOn B u hj.choose.1 0 (pointList (nodePoint q (node' hj.choose.2))) else 0,
    same_of_values hs hs' hg hN hN' hpq ht fun c hc cd hcd b j hb => ?_⟩
  have hj : ∃ x, Q j x := ⟨(c, b), hc, cd, hcd, hb⟩
  rw [dif_pos hj]
  obtain ⟨h1, cd', h2, h3⟩ := hj.choose_spec
  by_cases e : hj.choose.1 = c
  · rw [e] at h2 ⊢
    rw [hcd] at h2
    cases h2
    have hnd := (hs'.functionOn_list (B := B') (hg ▸ hc) (ht c hc) hcd u 0 []).2.1
    rw [(List.getElem?_inj (List.getElem?_eq_some_iff.mp h3).1 hnd).mp (h3.trans hb.symm)]
  · exact h u _ h1 c hc e cd' cd h2 hcd _ _ j h3 hb

theorem functionOn_indicator' (sp : FunctionSpace) (B : Basis ℝ ℝ) {n : Nat} (hn : n < sp.globalSize) (c : Entity) (d : Nat)
    (x : List ℝ) : sp.functionOn B (fun m => if m = n then 1 else 0) c d x = sp.basisOn B n c d x := by
  unfold FunctionSpace.functionOn
  rw [← List.sum_toFinset _ List.nodup_range]
  simp [hn]

/-- Spaces that contain each other in terms of their basis functions. -/
theorem nested_of_contained (hg : sub.grid = sup.grid) (h : sub.ContainedIn sup B B') : ∃ P, NestedSpaces sub sup B B' P := by
  choose u' hu' using h
  refine ⟨fun i j => u' (fun m => if m = i then 1 else 0) j, hg, fun i hi c hc d hd x => ?_⟩
  rw [← functionOn_indicator' sub B hi, (hu' _).values c hc d hd x]
  rfl

end

/-! ### Points of DOFs that cells have in common -/

section
variable {lev : Nat} {s : Shape ℝ} {t : CellType} {g : Grid} {pt cl : Nat → Nat} {V : Nat → Nat → Nat → ℝ} {p q : Nat}

theorem corner_point (hq : 0 < q) (ht : t = .triangle ∨ t = .quadrilateral) {i : Nat} (hi : i < refCount t 0) (c j : Nat) :
    (vertexGeometry (cellFunctions t) V).point c (pointList (nodePoint q (q * (refCorner t i).1, q * (refCorner t i).2))) j =
      V c i j := by
  have hq' : (q : ℝ) ≠ 0 := by positivity
  rcases ht with rfl | rfl
  · have : i < 3 := hi
    match i, this with
    | 0, _ | 1, _ | 2, _ =>
      simp [nodePoint, refCorner, vertexGeometry, cellFunctions, triangleFunctions, List.range_succ, pointList, hq']
  · have : i < 4 := hi
    match i, this with
    | 0, _ | 1, _ | 2, _ | 3, _ =>
      simp [nodePoint, refCorner, vertexGeometry, cellFunctions, quadrilateralFunctions, List.range_succ, pointList, hq']

theorem edge_point {k a b : Nat} (hk : k < q - 1) :
    nodePoint q ((q - 1 - k) * (refCorner t a).1 + (k + 1) * (refCorner t b).1,
      (q - 1 - k) * (refCorner t a).2 + (k + 1) * (refCorner t b).2) = refEdgePoint t (a, b) ((k + 1 : Nat) / (q : ℝ)) := by
  have hq' : (q : ℝ) ≠ 0 := by
    have : 0 < q := by omega
    positivity
  have e : ((q - 1 - k : Nat) : ℝ) = q - 1 - k := by
    rw [Nat.cast_sub (by omega), Nat.cast_sub (by omega)]
    simp
  unfold nodePoint refEdgePoint
  refine Prod.ext ?_ ?_
  · simp only
    push_cast [e]
    field_simp
    ring
  · simp only
    push_cast [e]
    field_simp
    ring

/-- The points of a DOF seen from two cells are the same point of the surface, if the degree is at most 2 or if the cells go
through their edges in the same direction. -/
theorem common_node (hs : LibraryShape lev t s) (hb : Built s t g pt cl) (hV : HasCorners s g pt V) (hq : 0 < q)
    (ha : q ≤ 2 ∨ s.EdgesAgree t) {c c' : Entity} (hc : c ∈ g.entityIter 2) (hc' : c' ∈ g.entityIter 2) {d i i' e k : Nat}
    (hd : d ≤ 1) (hi : (c.sub d)[i]? = some e) (hi' : (c'.sub d)[i']? = some e) (hk : d = 1 → k < q - 1) {m m' : Nat × Nat}
    (hm : LagrangePoint q t d i k m) (hm' : LagrangePoint q t d i' k m') :
    surfacePoint (vertexGeometry (cellFunctions t) V) c.localIndex (nodePoint q m) =
      surfacePoint (vertexGeometry (cellFunctions t) V) c'.localIndex (nodePoint q m') := by
  have ht := hs.type
  have lt : ∀ c ∈ g.entityIter 2, ∀ i : Nat, (c.sub d)[i]? = some e → i < refCount t d := by
    intro c hc i hi
    rw [← hb.cell_type hc, ← hb.wf.sub_length c hc d (by omega)]
    exact (List.getElem?_eq_some_iff.mp hi).1
  have l1 := lt c hc i hi
  have l2 := lt c' hc' i' hi'
  match d, hd with
  | 0, _ =>
    simp only [LagrangePoint] at hm hm'
    subst hm hm'
    have k1 := hV.corner hb hc hi
    rw [← hV.corner hb hc' hi'] at k1
    simp only [surfacePoint, corner_point hq ht l1, corner_point hq ht l2]
    exact k1
  | 1, _ =>
    have hk := hk rfl
    obtain ⟨a, b, q1, rfl⟩ := hm
    obtain ⟨a', b', q1', rfl⟩ := hm'
    obtain ⟨ev, hev⟩ := hb.edges
    obtain ⟨a0, b0, va, vb, r1, r2, r3, r4⟩ := hev.ref c hc i e hi
    obtain ⟨a1, b1, va', vb', r1', r2', r3', r4'⟩ := hev.ref c' hc' i' e hi'
    rw [hb.cell_type hc, q1] at r1
    rw [hb.cell_type hc', q1'] at r1'
    cases r1
    cases r1'
    rw [edge_point hk, edge_point hk]
    have m1 := List.mem_of_getElem? q1
    have m2 := List.mem_of_getElem? q1'
    have k1 := hV.corner hb hc r2
    have k2 := hV.corner hb hc r3
    have k3 := hV.corner hb hc' r2'
    have k4 := hV.corner hb hc' r3'
    have hsame : va = va' ∧ vb = vb' ∨ va = vb' ∧ vb = va' := by
      unfold SamePair at r4 r4'
      rcases r4 with r4 | r4 <;> rcases r4' with r4' | r4' <;> rw [r4] at r4' <;>
        simp only [Prod.mk.injEq] at r4' <;> tauto
    rcases hsame with ⟨rfl, rfl⟩ | ⟨rfl, rfl⟩
    · rw [← k3] at k1
      rw [← k4] at k2
      simp only [Prod.mk.injEq] at k1 k2
      simp only [surfacePoint, refEdgePoint_point ht m1, refEdgePoint_point ht m2, k1, k2]
    · rcases ha with ha | ha
      · obtain rfl : k = 0 := by omega
        obtain rfl : q = 2 := by omega
        rw [← k4] at k1
        rw [← k3] at k2
        simp only [Prod.mk.injEq] at k1 k2
        simp only [surfacePoint, refEdgePoint_point ht m1, refEdgePoint_point ht m2, k1, k2]
        simp only [Prod.mk.injEq]
        refine ⟨?_, ?_, ?_⟩ <;> norm_num <;> ring
      · obtain ⟨j, hj, -, -⟩ := hb.corner_list hc
        obtain ⟨j', hj', -, -⟩ := hb.corner_list hc'
        exact absurd ⟨by simp [r2'], by simp [r3']⟩ (ha _ hj _ hj' _ m1 _ m2 (pt va) (pt vb) (by simp [r2]) (by simp [r3]))

/-- The function of a corner has different values at two points of an edge with the distance `1 / q` from its ends. -/
theorem corner_values (hp : 0 < p) (hpq : p < q) (hq : 3 ≤ q) : ramp p p (1 - 1 / (q : ℝ)) ≠ ramp p p (1 / q) := by
  intro h
  have hq0 : (0 : ℝ) < q := by positivity
  have hp0 : (0 : ℝ) < p := by positivity
  set x : ℝ := p / q with hx
  have x0 : 0 < x := by positivity
  have x1 : x < 1 := by
    rw [hx, div_lt_one hq0]
    exact_mod_cast hpq
  have x2 : 2 * x < p := by
    rw [hx, ← mul_div_assoc, div_lt_iff₀ hq0]
    have : (3 : ℝ) ≤ q := by exact_mod_cast hq
    nlinarith
  unfold ramp at h
  have e1 : (p : ℝ) * (1 / q) = x := by rw [hx]; ring
  have e2 : (p : ℝ) * (1 - 1 / q) = p - x := by rw [hx]; ring
  rw [e1, e2] at h
  simp only [Finset.prod_div_distrib] at h
  have hden : (∏ m ∈ Finset.range p, ((m : ℝ) + 1)) ≠ 0 := Finset.prod_ne_zero_iff.mpr fun m _ => by positivity
  rw [div_left_inj' hden, ← Finset.prod_range_reflect] at h
  have h2 := congrArg abs h
  rw [Finset.abs_prod, Finset.abs_prod] at h2
  obtain ⟨r, rfl⟩ : ∃ r, p = r + 1 := ⟨p - 1, by omega⟩
  have e3 : ∀ m ∈ Finset.range (r + 1), |((r + 1 : Nat) : ℝ) - x - ((r + 1 - 1 - m : Nat) : ℝ)| = (m + 1 : Nat) - x := by
    intro m hm
    have hm := Finset.mem_range.mp hm
    have : ((r + 1 - 1 - m : Nat) : ℝ) = r - m := by
      rw [Nat.add_sub_cancel, Nat.cast_sub (by omega)]
    rw [this, abs_of_pos]
    · push_cast
      ring
    · push_cast
      have : (0 : ℝ) ≤ m := by positivity
      linarith
  rw [Finset.prod_congr rfl e3, Finset.prod_range_succ, Finset.prod_range_succ'] at h2
  have e4 : ∀ m ∈ Finset.range r, |x - ((m + 1 : Nat) : ℝ)| = (m + 1 : Nat) - x := by
    intro m _
    rw [abs_of_neg]
    · ring
    · push_cast
      have : (0 : ℝ) ≤ m := by positivity
      linarith
  rw [Finset.prod_congr rfl e4] at h2
  have hpos : 0 < ∏ m ∈ Finset.range r, (((m + 1 : Nat) : ℝ) - x) := Finset.prod_pos fun m _ => by
    push_cast
    have : (0 : ℝ) ≤ m := by positivity
    linarith
  have h3 := mul_left_cancel₀ hpos.ne' h2
  rw [Nat.cast_zero, sub_zero, abs_of_pos x0] at h3
  linarith

end
end Bempp
