import Verif.Proofs.Continuity
import Verif.Proofs.Gauss
import Mathlib.Topology.Separation.Hausdorff
import Mathlib.Topology.ContinuousOn
/-
Continuity of the functions of a Lagrange space, and the jumps of edge functions of degree 3 and more.
-/
namespace Bempp

/-- Functions on finitely many compact pieces that agree where the pieces meet are one continuous function. -/
theorem continuousOn_pieces {ι X Y : Type} [TopologicalSpace X] [TopologicalSpace Y] [T2Space Y] (l : List ι) {K : Set X}
    (hK : IsCompact K) {Φ : ι → X → Y} {v : ι → X → ℝ} (hΦ : ∀ i ∈ l, Continuous (Φ i)) (hv : ∀ i ∈ l, Continuous (v i))
    {F : Y → ℝ} (hF : ∀ i ∈ l, ∀ x ∈ K, F (Φ i x) = v i x) :
    ContinuousOn F {y | ∃ i ∈ l, ∃ x ∈ K, y = Φ i x} := by
  classical
  rw [continuousOn_iff_isClosed]
  intro C hC
  refine ⟨⋃ i ∈ (l.toFinset : Set ι), Φ i '' (K ∩ v i ⁻¹' C), ?_, ?_⟩
  · refine (Finset.finite_toSet _).isClosed_biUnion fun i hi => ?_
    have hi : i ∈ l := by simpa using hi
    exact ((hK.inter_right (hC.preimage (hv i hi))).image (hΦ i hi)).isClosed
  · ext y
    simp only [Set.mem_inter_iff, Set.mem_preimage, Set.mem_ofPred_eq, Set.mem_iUnion, Set.mem_image, Finset.mem_coe,
      List.mem_toFinset]
    constructor
    · rintro ⟨h, i, hi, x, hx, rfl⟩
      exact ⟨⟨i, hi, x, ⟨hx, by rwa [← hF i hi x hx]⟩, rfl⟩, i, hi, x, hx, rfl⟩
    · rintro ⟨⟨i, hi, x, ⟨hx, h⟩, rfl⟩, h'⟩
      exact ⟨by rwa [hF i hi x hx], h'⟩

section
variable {s : Shape ℝ} {t : CellType} {g : Grid} {pt cl : Nat → Nat} {V : Nat → Nat → Nat → ℝ} {lev : Nat}
  {fam : CellType → ElementDofs} {fs : FunctionSpace} {B : Basis ℝ ℝ} {p : Nat}

theorem surfacePoint_continuous {G : Geometry ℝ} {c : Nat} (h : FlatCell G c) : Continuous (surfacePoint G c) := by
  have hc := h.cellPoint_continuous
  have h2 : ∀ i : Fin 3, Continuous fun z => (cellPoint G c z) i := fun i => (PiLp.continuous_apply 2 _ i).comp hc
  exact (h2 0).prodMk ((h2 1).prodMk (h2 2))

/-- A global basis function on a cell is a Lagrange polynomial or 0. -/
theorem basis_continuous (hb : Built s t g pt cl) (hL : LagrangeElement p t (fam t) B)
    (hm : FunctionSpace.new 0 1 g fam = .done fs) {c : Entity} (hc : c ∈ g.entityIter 2) {n : Nat} (hn : n < fs.globalSize) :
    Continuous fun z : ℝ × ℝ => fs.basisOn B n c 0 (pointList z) := by
  have hwf := hb.wf
  have fo := hb.family hL.uniform
  have hyy : (FunctionSpace.new 0 1 g fam).Yields fs := by rw [hm]; exact .done fs
  obtain ⟨fs', hm', -, -, -, hgl⟩ := hb.space hL.uniform
  obtain rfl : fs = fs' := by rw [hm] at hm'; exact Prog.done.inj hm'
  rw [hgl] at hn
  obtain ⟨⟨d, en, k⟩, ⟨ed, hed, hk⟩, -⟩ := (C01_numbering_bijection hwf fo hyy).2.1 n hn
  have hd : d ≤ 2 := (((C01_numbering_bijection hwf fo hyy).1 d en).mp (by rw [hed]; rfl)).1
  simp only at hed hk
  by_cases h : en ∈ c.sub d
  · obtain ⟨i, hi⟩ := List.getElem?_of_mem h
    have hit : i < refCount t d := by
      rw [← hb.cell_type hc, ← hwf.sub_length c hc d hd]
      exact (List.getElem?_eq_some_iff.mp hi).1
    obtain ⟨l, hl⟩ := Option.isSome_iff_exists.mp (hL.uniform.wf.defined d hd i hit)
    obtain ⟨a, hla, h2⟩ := basisOn_entity (B := B) hwf fo hyy hc hd hi (by rw [hb.cell_type hc]; exact hl) hed hk
    obtain ⟨n', -, h4⟩ := hL.basis d hd i hit l hl k a hla
    simp only [h2, hb.cell_type hc, h4]
    exact lagrangeFunction_continuous p t n'
  · simp only [basisOn_absent hwf fo hyy hc hed hk h]
    exact continuous_const

theorem listSum_continuous {X : Type} [TopologicalSpace X] {f : Nat → X → ℝ} : ∀ l : List Nat, (∀ i ∈ l, Continuous (f i)) →
    Continuous fun x => (l.map fun i => f i x).sum
  | [], _ => by simpa using continuous_const
  | i :: l, h => by
    simp only [List.map_cons, List.sum_cons]
    exact (h i (by simp)).add (listSum_continuous l fun j hj => h j (by simp [hj]))

/-- All functions of the space are continuous, if the degree is at most 2 or all cells go through edges in the same
direction. -/
theorem lagrange_continuous (hs : LibraryShape lev t s) (hb : Built s t g pt cl) (hV : HasCorners s g pt V)
    (hL : LagrangeElement p t (fam t) B) (hm : FunctionSpace.new 0 1 g fam = .done fs) (ha : p ≤ 2 ∨ s.EdgesAgree t)
    (u : Nat → ℝ) : fs.ContinuousFunction (vertexGeometry (cellFunctions t) V) t B u := by
  classical
  obtain ⟨fs', hm', -, hg, -⟩ := hb.space hL.uniform
  obtain rfl : fs = fs' := by rw [hm] at hm'; exact Prog.done.inj hm'
  unfold FunctionSpace.ContinuousFunction
  rw [hg]
  set Φ : Entity → ℝ × ℝ → ℝ × ℝ × ℝ := fun c => surfacePoint (vertexGeometry (cellFunctions t) V) c.localIndex with hΦ
  let F : ℝ × ℝ × ℝ → ℝ := fun q => if h : ∃ cz : Entity × (ℝ × ℝ), cz.1 ∈ g.entityIter 2 ∧ cz.2 ∈ refCell t ∧ q = Φ cz.1 cz.2
    then fs.functionOn B u h.choose.1 0 (pointList h.choose.2) else 0
  have hF : ∀ c ∈ g.entityIter 2, ∀ z ∈ refCell t, F (Φ c z) = fs.functionOn B u c 0 (pointList z) := by
    intro c hc z hz
    have h : ∃ cz : Entity × (ℝ × ℝ), cz.1 ∈ g.entityIter 2 ∧ cz.2 ∈ refCell t ∧ Φ c z = Φ cz.1 cz.2 := ⟨(c, z), hc, hz, rfl⟩
    simp only [F, dif_pos h]
    obtain ⟨h1, h2, h3⟩ := h.choose_spec
    unfold FunctionSpace.functionOn
    congr 1
    refine List.map_congr_left fun n hn => ?_
    rw [basis_single hs hb hV hL hm ha h1 hc h2 hz h3.symm (List.mem_range.mp hn)]
  refine ⟨F, ?_, hF⟩
  refine continuousOn_pieces (g.entityIter 2) (refCell_isCompact t)
    (fun c hc => surfacePoint_continuous (shape_flat hs hb hV hc)) (fun c hc => ?_) hF
  unfold FunctionSpace.functionOn
  exact listSum_continuous _ fun n hn => continuous_const.mul (basis_continuous hb hL hm hc (List.mem_range.mp hn))

/-- The point with the weight `r` of the second end on an edge of the reference cell. -/
noncomputable def refEdgePoint (t : CellType) (e : Nat × Nat) (r : ℝ) : ℝ × ℝ :=
  ((1 - r) * (refCorner t e.1).1 + r * (refCorner t e.2).1, (1 - r) * (refCorner t e.1).2 + r * (refCorner t e.2).2)

theorem refEdgePoint_mem (ht : t = .triangle ∨ t = .quadrilateral) {e : Nat × Nat} (he : e ∈ refEdges t) {r : ℝ} (h0 : 0 ≤ r)
    (h1 : r ≤ 1) : refEdgePoint t e r ∈ refCell t := by
  rcases ht with rfl | rfl <;> simp only [refEdges, List.mem_cons, List.not_mem_nil, or_false] at he <;>
    rcases he with rfl | he
  all_goals
    try rcases he with rfl | he
  all_goals
    try rcases he with rfl | he
  all_goals
    try subst he
  all_goals
    simp [refEdgePoint, refCorner, refCell]
    try grind

theorem refEdgePoint_weights (ht : t = .triangle ∨ t = .quadrilateral) {e : Nat × Nat} (he : e ∈ refEdges t) (r : ℝ) :
    (cornerWeights t (refEdgePoint t e r)).getD e.1 0 = 1 - r ∧ (cornerWeights t (refEdgePoint t e r)).getD e.2 0 = r ∧
      (0 : ℝ) ∈ cornerWeights t (refEdgePoint t e r) := by
  rcases ht with rfl | rfl <;> simp only [refEdges, List.mem_cons, List.not_mem_nil, or_false] at he <;>
    rcases he with rfl | he
  all_goals
    try rcases he with rfl | he
  all_goals
    try rcases he with rfl | he
  all_goals
    try subst he
  all_goals
    simp [refEdgePoint, refCorner, cornerWeights]

theorem refEdgePoint_point (ht : t = .triangle ∨ t = .quadrilateral) {e : Nat × Nat} (he : e ∈ refEdges t) (r : ℝ) (c j : Nat) :
    (vertexGeometry (cellFunctions t) V).point c (pointList (refEdgePoint t e r)) j = (1 - r) * V c e.1 j + r * V c e.2 j := by
  rcases ht with rfl | rfl <;> simp only [refEdges, List.mem_cons, List.not_mem_nil, or_false] at he <;>
    rcases he with rfl | he
  all_goals
    try rcases he with rfl | he
  all_goals
    try rcases he with rfl | he
  all_goals
    try subst he
  all_goals
    simp [refEdgePoint, refCorner, vertexGeometry, cellFunctions, triangleFunctions, quadrilateralFunctions, List.range_succ,
      pointList]

/-- Two cells that go through a common edge in opposite directions, with the numbers of the edge and of its ends. -/
theorem opposite_edges (hs : LibraryShape lev t s) (hb : Built s t g pt cl) (ha : ¬ s.EdgesAgree t) :
    ∃ c ∈ g.entityIter 2, ∃ c' ∈ g.entityIter 2, ∃ e ∈ refEdges t, ∃ e' ∈ refEdges t, ∃ v w en i i' : Nat,
      (c.sub 0)[e.1]? = some v ∧ (c.sub 0)[e.2]? = some w ∧ (c'.sub 0)[e'.1]? = some w ∧ (c'.sub 0)[e'.2]? = some v ∧
      (c.sub 1)[i]? = some en ∧ (refEdges t)[i]? = some e ∧ (c'.sub 1)[i']? = some en ∧ (refEdges t)[i']? = some e' := by
  have hwf := hb.wf
  unfold Shape.EdgesAgree at ha
  push Not at ha
  obtain ⟨x, hx, x', hx', e, he, e', he', V1, W1, h1, h2, h3, h4⟩ := ha
  have find : ∀ x ∈ s.cells, ∃ c ∈ g.entityIter 2, (c.sub 0).map pt = x.2 := by
    intro x hx
    have := hb.cells_perm.mem_iff.mpr (List.mem_map.mpr ⟨x, hx, rfl⟩)
    obtain ⟨c, hc, e⟩ := List.mem_map.mp this
    exact ⟨c, hc, e⟩
  obtain ⟨c, hc, ec⟩ := find x hx
  obtain ⟨c', hc', ec'⟩ := find x' hx'
  rw [← ec, List.getElem?_map, Option.map_eq_some_iff] at h1 h2
  rw [← ec', List.getElem?_map, Option.map_eq_some_iff] at h3 h4
  obtain ⟨v, hv, rfl⟩ := h1
  obtain ⟨w, hw, rfl⟩ := h2
  obtain ⟨w', hw', ew⟩ := h3
  obtain ⟨v', hv', ev'⟩ := h4
  have mv := List.mem_of_getElem? hv
  have mw := List.mem_of_getElem? hw
  have mv' := List.mem_of_getElem? hv'
  have mw' := List.mem_of_getElem? hw'
  obtain rfl := hb.pt_inj hc' hc mv' mv ev'
  obtain rfl := hb.pt_inj hc' hc mw' mw ew
  have pos : ∀ c ∈ g.entityIter 2, ∀ a b v : Nat, (c.sub 0)[a]? = some v → (c.sub 0)[b]? = some v → a = b := by
    intro c hc a b v h h'
    exact (List.getElem?_inj (List.getElem?_eq_some_iff.mp h).1 (hwf.sub_nodup c hc 0 (by decide))).mp (h.trans h'.symm)
  have l1 := refEdges_lt he
  have l2 := refEdges_lt he'
  have hvw : v' ≠ w' := by
    rintro rfl
    have := pos c hc _ _ _ hv hw
    omega
  have hne : c ≠ c' := by
    rintro rfl
    have := pos c hc _ _ _ hv hv'
    have := pos c hc _ _ _ hw hw'
    omega
  obtain ⟨ev, hev, hco⟩ := ((C47_conforming (T := ℝ) (1 / 2) Real.sqrt (fun k => (k : ℝ)) hs).2.2.2.2 g pt cl hb).2.2.2
  have hloc : c.localIndex ≠ c'.localIndex := fun e => hne (hb.wf.index_inj (by decide) hc hc' e)
  obtain ⟨en, m1, m2, hpair⟩ := hco.edge c hc c' hc' hloc v' mv w' mw mv' mw' hvw
  -- the number of the edge in each cell
  have number : ∀ c ∈ g.entityIter 2, ∀ e ∈ refEdges t, ∀ v w : Nat, (c.sub 0)[e.1]? = some v → (c.sub 0)[e.2]? = some w →
      SamePair (ev en) (v, w) → en ∈ c.sub 1 → ∃ i : Nat, (c.sub 1)[i]? = some en ∧ (refEdges t)[i]? = some e := by
    intro c hc e he v w hv hw hpair hm
    obtain ⟨i, hi⟩ := List.getElem?_of_mem hm
    obtain ⟨a, b, va, vb, q1, q2, q3, q4⟩ := hev.ref c hc i en hi
    rw [hb.cell_type hc] at q1
    have l3 := refEdges_lt (List.mem_of_getElem? q1)
    have l4 := refEdges_lt he
    refine ⟨i, hi, q1.trans ?_⟩
    have hsame : va = v ∧ vb = w ∨ va = w ∧ vb = v := by
      unfold SamePair at q4 hpair
      rcases q4 with q4 | q4 <;> rcases hpair with r4 | r4 <;> rw [q4] at r4 <;>
        simp only [Prod.mk.injEq] at r4 <;> tauto
    rcases hsame with ⟨rfl, rfl⟩ | ⟨rfl, rfl⟩
    · rw [pos c hc _ _ _ q2 hv, pos c hc _ _ _ q3 hw]
    · have := pos c hc _ _ _ q2 hw
      have := pos c hc _ _ _ q3 hv
      omega
  obtain ⟨i, hi, ri⟩ := number c hc e he v' w' hv hw hpair m1
  obtain ⟨i', hi', ri'⟩ := number c' hc' e' he' w' v' hw' hv' (by
    unfold SamePair at hpair ⊢
    rcases hpair with h | h <;> rw [h] <;> simp) m2
  exact ⟨c, hc, c', hc', e, he, e', he', v', w', en, i, i', hv, hw, hw', hv', hi, ri, hi', ri'⟩

/-- Two cells that go through a common edge in opposite directions: the functions on this edge have different values on the
two sides if the degree is at least 3. -/
theorem edge_jump (hs : LibraryShape lev t s) (hb : Built s t g pt cl) (hV : HasCorners s g pt V)
    (hL : LagrangeElement p t (fam t) B) (hm : FunctionSpace.new 0 1 g fam = .done fs) (hp : 3 ≤ p) (ha : ¬ s.EdgesAgree t) :
    ∃ n, n < fs.globalSize ∧ ∃ c ∈ g.entityIter 2, ∃ c' ∈ g.entityIter 2, ∃ z ∈ refCell t, ∃ z' ∈ refCell t,
      surfacePoint (vertexGeometry (cellFunctions t) V) c.localIndex z =
        surfacePoint (vertexGeometry (cellFunctions t) V) c'.localIndex z' ∧
      fs.basisOn B n c 0 (pointList z) = 1 ∧ fs.basisOn B n c' 0 (pointList z') = 0 := by
  have ht := hs.type
  have hwf := hb.wf
  have fo := hb.family hL.uniform
  have hyy : (FunctionSpace.new 0 1 g fam).Yields fs := by rw [hm]; exact .done fs
  obtain ⟨fs', hm', -, -, -, hgl⟩ := hb.space hL.uniform
  obtain rfl : fs = fs' := by rw [hm] at hm'; exact Prog.done.inj hm'
  obtain ⟨c, hc, c', hc', e, he, e', he', v', w', en, i, i', hv, hw, hw', hv', hi, ri, hi', ri'⟩ := opposite_edges hs hb ha
  -- its first DOF
  have hit : ∀ c ∈ g.entityIter 2, ∀ i : Nat, (c.sub 1)[i]? = some en → i < refCount t 1 := by
    intro c hc i hi
    rw [← hb.cell_type hc, ← hwf.sub_length c hc 1 (by decide)]
    exact (List.getElem?_eq_some_iff.mp hi).1
  obtain ⟨l, hl⟩ := Option.isSome_iff_exists.mp (hL.uniform.wf.defined 1 (by decide) i (hit c hc i hi))
  obtain ⟨l', hl'⟩ := Option.isSome_iff_exists.mp (hL.uniform.wf.defined 1 (by decide) i' (hit c' hc' i' hi'))
  have hll := hL.uniform.count 1 (by decide) i (hit c hc i hi) l hl
  rw [show ((StandardFamily.lagrange p).counts t 1) = p - 1 from rfl] at hll
  have hpos : 0 < l.length := by omega
  obtain ⟨cd, ed, n, -, hed, -, -, hn⟩ := C02_conformity hwf fo hyy c hc 1 i en (by decide) hi l
    (by rw [hb.cell_type hc]; exact hl) 0 l[0] (by simp [hpos])
  have hlt := (C01_numbering_bijection hwf fo hyy).2.2 1 en ed hed n (List.mem_of_getElem? hn)
  have val : ∀ c ∈ g.entityIter 2, ∀ i : Nat, (c.sub 1)[i]? = some en → ∀ e, (refEdges t)[i]? = some e → ∀ l,
      (fam t).entityDofs 1 i = some l → ∀ r, fs.basisOn B n c 0 (pointList (refEdgePoint t e r)) =
        ramp p (p - 1) (1 - r) * ramp p 1 r := by
    intro c hc i hi e he l hl r
    obtain ⟨a, hla, h2⟩ := basisOn_entity (B := B) hwf fo hyy hc (by decide) hi (by rw [hb.cell_type hc]; exact hl) hed hn
    obtain ⟨n', h3, h4⟩ := hL.basis 1 (by decide) i (hit c hc i hi) l hl 0 a hla
    obtain ⟨w1, w2, w3⟩ := refEdgePoint_weights ht (List.mem_of_getElem? he) r
    rw [h2, hb.cell_type hc, h4, lagrange_edge hL.degree ht (by omega) (a := e.1) (b := e.2) he h3 w3, w1, w2]
    rfl
  have hp0 : (p : ℝ) ≠ 0 := by
    have := hL.degree
    positivity
  have hr : (1 : ℝ) - 1 / p = ((p - 1 : Nat) : ℝ) / p := by
    rw [Nat.cast_sub hL.degree]
    field_simp
    simp
  have hr1 : (0 : ℝ) ≤ 1 / p := by positivity
  have hr2 : (1 : ℝ) / p ≤ 1 := by
    rw [div_le_one (by have := hL.degree; positivity)]
    exact_mod_cast hL.degree
  refine ⟨n, by rw [hgl]; exact hlt, c, hc, c', hc', refEdgePoint t e (1 / p), refEdgePoint_mem ht he hr1 hr2,
    refEdgePoint t e' (1 - 1 / p), refEdgePoint_mem ht he' (by linarith) (by linarith), ?_, ?_, ?_⟩
  · have k1 := hV.corner hb hc hv
    have k2 := hV.corner hb hc hw
    have k3 := hV.corner hb hc' hw'
    have k4 := hV.corner hb hc' hv'
    rw [← k4] at k1
    rw [← k3] at k2
    simp only [Prod.mk.injEq] at k1 k2
    simp only [surfacePoint, refEdgePoint_point ht he, refEdgePoint_point ht he', k1, k2]
    simp only [Prod.mk.injEq]
    refine ⟨by ring, by ring, by ring⟩
  · rw [val c hc i hi e ri l hl, hr, ramp_node hL.degree, show (1 : ℝ) / p = ((1 : Nat) : ℝ) / p by simp, ramp_node hL.degree]
    simp
  · rw [val c' hc' i' hi' e' ri' l' hl', sub_sub_cancel, show (1 : ℝ) / p = ((1 : Nat) : ℝ) / p by simp, ramp_node hL.degree,
      Nat.choose_eq_zero_of_lt (by omega)]
    simp

theorem functionOn_indicator (sp : FunctionSpace) (B : Basis ℝ ℝ) {n : Nat} (hn : n < sp.globalSize) (c : Entity) (x : List ℝ) :
    sp.functionOn B (fun m => if m = n then 1 else 0) c 0 x = sp.basisOn B n c 0 x := by
  unfold FunctionSpace.functionOn
  rw [← List.sum_toFinset _ List.nodup_range]
  simp [hn]

end
end Bempp
