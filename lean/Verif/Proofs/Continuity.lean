import Verif.Proofs.Lagrange
import Verif.Proofs.PositiveSurface
import Verif.Proofs.PartitionSums
import Verif.Props.ShapeSurface
/-
Values of global basis functions at common points of cells.
-/
namespace Bempp

theorem sum_zipIdx_pick {l : List Nat} (hn : l.Nodup) {n : Nat} (f : Nat → ℝ) : ∀ {a m : Nat}, l[a]? = some n →
    ((l.zipIdx m).map fun ja : Nat × Nat => if ja.1 = n then f ja.2 else 0).sum = f (m + a) := by
  induction l with
  | nil => intro a m h; simp at h
  | cons x l ih =>
    intro a m h
    rw [List.nodup_cons] at hn
    rw [List.zipIdx_cons, List.map_cons, List.sum_cons]
    cases a with
    | zero =>
      obtain rfl : x = n := by simpa using h
      rw [if_pos rfl, List.sum_eq_zero, add_zero, Nat.add_zero]
      intro y hy
      obtain ⟨ja, hja, rfl⟩ := List.mem_map.mp hy
      rw [if_neg]
      rintro rfl
      exact hn.1 (List.fst_mem_of_mem_zipIdx hja)
    | succ a =>
      rw [List.getElem?_cons_succ] at h
      have hx : x ≠ n := fun e => hn.1 (e ▸ List.mem_of_getElem? h)
      rw [if_neg hx, zero_add, ih hn.2 h]
      congr 1
      omega

section
variable {g : Grid} {fam : CellType → ElementDofs} {nd : Nat → Nat → Nat} {fs : FunctionSpace} {B : Basis ℝ ℝ}

/-- A global basis function on a cell that contains the entity of its DOF. -/
theorem basisOn_entity (wf : g.WF) (fo : FamilyOn g fam nd) (hy : (FunctionSpace.new 0 1 g fam).Yields fs) {c : Entity}
    (hc : c ∈ g.entityIter 2) {d i e : Nat} (hd : d ≤ 2) (hi : (c.sub d)[i]? = some e) {l ed : List Nat}
    (hl : (fam c.entityType).entityDofs d i = some l) (hed : fs.getLocalDofNumbers d e = some ed) {k n : Nat}
    (hn : ed[k]? = some n) :
    ∃ a, l[k]? = some a ∧ ∀ x, fs.basisOn B n c 0 x = B c.entityType a 0 x := by
  have hlen : ed.length = l.length := by
    obtain ⟨dm, inv, hE, hC, hS, hrows⟩ := space_inv wf fo hy
    have hv : (⟨c.localIndex, fam c.entityType, d, i, e⟩ : Visit) ∈ allVisits g fam :=
      List.mem_flatMap.mpr ⟨c, hc, mem_visitsOf.mpr ⟨rfl, rfl, hd, hi⟩⟩
    obtain ⟨m, h1, h2, -⟩ := inv.done _ hv l hl
    have : fs.getLocalDofNumbers d e = some m := by simpa [FunctionSpace.getLocalDofNumbers, DofState.ent, hE] using h1
    rw [hed] at this
    cases this
    exact h2
  have hk : k < l.length := hlen ▸ (List.getElem?_eq_some_iff.mp hn).1
  refine ⟨l[k], by simp [hk], fun x => ?_⟩
  obtain ⟨cd, ed', n', h1, h2, -, h3, h4⟩ := C02_conformity wf fo hy c hc d i e hd hi l hl k l[k] (by simp [hk])
  rw [hed] at h2
  cases h2
  rw [hn] at h4
  cases h4
  obtain ⟨cd', h1', -, hnd, -⟩ := (C03_cell_dofs wf fo hy).2 c hc
  rw [h1] at h1'
  cases h1'
  unfold FunctionSpace.basisOn
  rw [h1, Option.getD_some, sum_zipIdx_pick hnd (fun a => B c.entityType a 0 x) h3, Nat.zero_add]

/-- A global basis function is 0 on the cells that do not contain the entity of its DOF. -/
theorem basisOn_absent (wf : g.WF) (fo : FamilyOn g fam nd) (hy : (FunctionSpace.new 0 1 g fam).Yields fs) {c : Entity}
    (hc : c ∈ g.entityIter 2) {d e : Nat} {ed : List Nat} (hed : fs.getLocalDofNumbers d e = some ed) {k n : Nat}
    (hn : ed[k]? = some n) (he : e ∉ c.sub d) (x : List ℝ) : fs.basisOn B n c 0 x = 0 := by
  unfold FunctionSpace.basisOn
  refine List.sum_eq_zero fun y hy' => ?_
  obtain ⟨ja, hja, rfl⟩ := List.mem_map.mp hy'
  rw [if_neg]
  rintro rfl
  obtain ⟨cd, h1, -⟩ := (C03_cell_dofs wf fo hy).2 c hc
  rw [h1, Option.getD_some, List.mem_zipIdx_iff_getElem?] at hja
  obtain ⟨d', i', e', k', l', ed', -, hi', -, -, hed', hn'⟩ := cell_dof_origin wf fo hy c hc cd h1 _ _ hja
  have hb := C01_numbering_bijection wf fo hy
  have hlt := hb.2.2 d e ed hed _ (List.mem_of_getElem? hn)
  have := (hb.2.1 _ hlt).unique (y₁ := (d, e, k)) (y₂ := (d', e', k')) ⟨ed, hed, hn⟩ ⟨ed', hed', hn'⟩
  simp only [Prod.mk.injEq] at this
  obtain ⟨rfl, rfl, -⟩ := this
  exact he (List.mem_of_getElem? hi')

end

section
variable {s : Shape ℝ} {t : CellType} {g : Grid} {pt cl : Nat → Nat} {V : Nat → Nat → Nat → ℝ} {lev : Nat}

theorem coords_of_surfacePoint {G : Geometry ℝ} {c c' : Nat} {x y : ℝ × ℝ} :
    surfacePoint G c x = surfacePoint G c' y ↔ G.coords c (pointList x) = G.coords c' (pointList y) := by
  simp [surfacePoint, Geometry.coords, List.range_succ]

/-- The weights of the corners at a common point of two cells. -/
theorem shape_common_both (hs : LibraryShape lev t s) (hb : Built s t g pt cl) (hV : HasCorners s g pt V) {c c' : Entity}
    (hc : c ∈ g.entityIter 2) (hc' : c' ∈ g.entityIter 2) {x y : ℝ × ℝ} (hx : x ∈ refCell t) (hy : y ∈ refCell t)
    (e : surfacePoint (vertexGeometry (cellFunctions t) V) c.localIndex x =
      surfacePoint (vertexGeometry (cellFunctions t) V) c'.localIndex y) :
    ∃ f : Nat → ℝ, ((c.sub 0).map pt).map f = cornerWeights t x ∧ ((c'.sub 0).map pt).map f = cornerWeights t y ∧
      ∀ v, f v ≠ 0 → v ∈ (c.sub 0).map pt ∧ v ∈ (c'.sub 0).map pt := by
  obtain ⟨i, hi, -, -⟩ := hb.corner_list hc
  obtain ⟨i', hi', -, -⟩ := hb.corner_list hc'
  unfold surfacePoint at e
  rcases hs with ⟨hs, rfl⟩ | ⟨hs, rfl⟩ | ⟨hs, rfl⟩
  · obtain ⟨f, hw, hf⟩ := triangle_combination hb hV hc hx
    obtain ⟨f', hw', hf'⟩ := triangle_combination hb hV hc' hy
    obtain ⟨s', hs', -, h, -⟩ := C42_no_gaps_no_overlaps lev
    rw [hs] at hs'
    cases hs'
    simp only [cellFunctions] at e
    rw [← e] at hf'
    obtain ⟨rfl, h2⟩ := h _ hi _ hi' f f' _ hf.1 hf'.1
    exact ⟨f, hw, hw', h2⟩
  · obtain ⟨f, hw, hf⟩ := triangle_combination hb hV hc hx
    obtain ⟨f', hw', hf'⟩ := triangle_combination hb hV hc' hy
    simp only [cellFunctions] at e
    rw [← e] at hf'
    obtain ⟨rfl, h2⟩ := (C35_triangles hs).2.2.1 _ hi _ hi' f f' _ hf hf'
    exact ⟨f, hw, hw', h2⟩
  · obtain ⟨f, hw, hf⟩ := quadrilateral_combination hb hV hc hx
    obtain ⟨f', hw', hf'⟩ := quadrilateral_combination hb hV hc' hy
    simp only [cellFunctions] at e
    rw [← e] at hf'
    obtain ⟨rfl, h2⟩ := (C35_quadrilaterals hs).2.2.1 _ hi _ hi' f f' _ hf hf'
    exact ⟨f, hw, hw', h2⟩

theorem LibraryShape.type (hs : LibraryShape lev t s) : t = .triangle ∨ t = .quadrilateral := by
  rcases hs with ⟨-, h⟩ | ⟨-, h⟩ | ⟨-, h⟩
  · exact .inl h
  · exact .inl h
  · exact .inr h

/-- A common point of two different cells is on their boundaries. -/
theorem common_boundary (hs : LibraryShape lev t s) (hb : Built s t g pt cl) {c c' : Entity} (hc : c ∈ g.entityIter 2)
    (hc' : c' ∈ g.entityIter 2) (hne : c ≠ c') {w : List ℝ} {f : Nat → ℝ} (hw : ((c.sub 0).map pt).map f = w)
    (hf : ∀ v, f v ≠ 0 → v ∈ (c'.sub 0).map pt) : (0 : ℝ) ∈ w := by
  by_contra h0
  obtain ⟨ev, -, hco⟩ := ((C47_conforming (T := ℝ) (1 / 2) Real.sqrt (fun k => (k : ℝ)) hs).2.2.2.2 g pt cl hb).2.2.2
  have hl : c.localIndex ≠ c'.localIndex := fun e => hne (hb.wf.index_inj (by decide) hc hc' e)
  obtain ⟨-, -, -, hlen⟩ := hb.corner_list hc
  have hin : ∀ v ∈ c.sub 0, v ∈ c'.sub 0 := by
    intro v hv
    have hfv : f (pt v) ≠ 0 := by
      intro h
      apply h0
      rw [← hw, ← h]
      exact List.mem_map.mpr ⟨pt v, List.mem_map.mpr ⟨v, hv, rfl⟩, rfl⟩
    obtain ⟨w, hw', e'⟩ := List.mem_map.mp (hf _ hfv)
    rwa [hb.pt_inj hc' hc hw' hv e'] at hw'
  have h3 : 3 ≤ (c.sub 0).length := by
    rw [hlen]
    rcases hs.type with rfl | rfl <;> decide
  have hnd' := hb.wf.sub_nodup c hc 0 (by decide)
  match hsub : c.sub 0, h3 with
  | u :: v :: w :: l, _ =>
    rw [hsub] at hnd' hin
    have := hco.two c hc c' hc' hl u v w (by rw [hsub]; simp) (by rw [hsub]; simp) (by rw [hsub]; simp)
      (hin u (by simp)) (hin v (by simp)) (hin w (by simp))
    simp only [List.nodup_cons, List.mem_cons, not_or] at hnd'
    obtain ⟨⟨a1, a2, -⟩, ⟨a3, -⟩, -⟩ := hnd'
    rcases this with h | h | h
    · exact a1 h
    · exact a2 h
    · exact a3 h

theorem weight_at {c : Entity} {w : List ℝ} {f : Nat → ℝ} (hw : ((c.sub 0).map pt).map f = w) {a v : Nat}
    (h : (c.sub 0)[a]? = some v) : w.getD a 0 = f (pt v) := by
  rw [← hw]
  simp [List.getD_eq_getElem?_getD, h]

variable {fam : CellType → ElementDofs} {fs : FunctionSpace} {B : Basis ℝ ℝ} {p : Nat}

/-- Global basis functions have one value at a common point of two cells, if the degree is at most 2 or if the cells go
through their edges in the same direction. -/
theorem basis_single (hs : LibraryShape lev t s) (hb : Built s t g pt cl) (hV : HasCorners s g pt V)
    (hL : LagrangeElement p t (fam t) B) (hm : FunctionSpace.new 0 1 g fam = .done fs) (ha : p ≤ 2 ∨ s.EdgesAgree t)
    {c c' : Entity} (hc : c ∈ g.entityIter 2) (hc' : c' ∈ g.entityIter 2) {x y : ℝ × ℝ} (hx : x ∈ refCell t)
    (hy : y ∈ refCell t) (e : surfacePoint (vertexGeometry (cellFunctions t) V) c.localIndex x =
      surfacePoint (vertexGeometry (cellFunctions t) V) c'.localIndex y) {n : Nat} (hn : n < fs.globalSize) :
    fs.basisOn B n c 0 (pointList x) = fs.basisOn B n c' 0 (pointList y) := by
  by_cases hne : c = c'
  · subst hne
    rw [(shape_flat hs hb hV hc).cellPoint_injective ((cellPoint_eq_iff _ _ _ x y).mpr (coords_of_surfacePoint.mp e))]
  have hp := hL.degree
  have ht := hs.type
  obtain ⟨f, hw, hw', hf⟩ := shape_common_both hs hb hV hc hc' hx hy e
  have hz := common_boundary hs hb hc hc' hne hw fun v hv => (hf v hv).2
  have hz' := common_boundary hs hb hc' hc (Ne.symm hne) hw' fun v hv => (hf v hv).1
  have hwf := hb.wf
  have fo := hb.family hL.uniform
  have hyy : (FunctionSpace.new 0 1 g fam).Yields fs := by rw [hm]; exact .done fs
  obtain ⟨fs', hm', -, -, -, hgl⟩ := hb.space hL.uniform
  obtain rfl : fs = fs' := by rw [hm] at hm'; exact Prog.done.inj hm'
  rw [hgl] at hn
  obtain ⟨⟨d, en, k⟩, ⟨ed, hed, hk⟩, -⟩ := (C01_numbering_bijection hwf fo hyy).2.1 n hn
  have hd : d ≤ 2 := (((C01_numbering_bijection hwf fo hyy).1 d en).mp (by rw [hed]; rfl)).1
  simp only at hed hk
  -- the value on a cell that contains the entity
  have value : ∀ c ∈ g.entityIter 2, ∀ i, (c.sub d)[i]? = some en → ∃ n', LagrangePoint p t d i k n' ∧
      (d = 1 → k < p - 1) ∧ i < refCount t d ∧ ∀ z, fs.basisOn B n c 0 (pointList z) = lagrangeFunction p t n' z := by
    intro c hc i hi
    have hit : i < refCount t d := by
      rw [← hb.cell_type hc, ← hwf.sub_length c hc d hd]
      exact (List.getElem?_eq_some_iff.mp hi).1
    obtain ⟨l, hl⟩ := Option.isSome_iff_exists.mp (hL.uniform.wf.defined d hd i hit)
    obtain ⟨a, hla, h2⟩ := basisOn_entity (B := B) hwf fo hyy hc hd hi (by rw [hb.cell_type hc]; exact hl) hed hk
    obtain ⟨n', h3, h4⟩ := hL.basis d hd i hit l hl k a hla
    refine ⟨n', h3, ?_, hit, fun z => ?_⟩
    · rintro rfl
      have := hL.uniform.count 1 hd i hit l hl
      rw [show ((StandardFamily.lagrange p).counts t 1) = p - 1 from rfl] at this
      exact this ▸ (List.getElem?_eq_some_iff.mp hla).1
    · rw [h2, hb.cell_type hc, h4]
  have absent : ∀ c ∈ g.entityIter 2, en ∉ c.sub d → ∀ z, fs.basisOn B n c 0 z = 0 := fun c hc h z =>
    basisOn_absent hwf fo hyy hc hed hk h z
  have supp : ∀ v, v ∈ c.sub 0 ∨ v ∈ c'.sub 0 → f (pt v) ≠ 0 → v ∈ c.sub 0 ∧ v ∈ c'.sub 0 := by
    intro v hv hfv
    obtain ⟨h1, h2⟩ := hf _ hfv
    obtain ⟨v1, k1, e1⟩ := List.mem_map.mp h1
    obtain ⟨v2, k2, e2⟩ := List.mem_map.mp h2
    rcases hv with hv | hv
    · obtain rfl := hb.pt_inj hc hc k1 hv e1
      obtain rfl := hb.pt_inj hc' hc k2 hv e2
      exact ⟨k1, k2⟩
    · obtain rfl := hb.pt_inj hc hc' k1 hv e1
      obtain rfl := hb.pt_inj hc' hc' k2 hv e2
      exact ⟨k1, k2⟩
  match d, hd with
  | 2, _ =>
    have zero : ∀ c ∈ g.entityIter 2, ∀ z, (0 : ℝ) ∈ cornerWeights t z → fs.basisOn B n c 0 (pointList z) = 0 := by
      intro c hc z hz
      by_cases h : en ∈ c.sub 2
      · obtain ⟨i, hi⟩ := List.getElem?_of_mem h
        obtain ⟨n', h1, -, -, h2⟩ := value c hc i hi
        rw [h2, lagrange_inner ht h1 hz]
      · exact absent c hc h _
    rw [zero c hc x hz, zero c' hc' y hz']
  | 0, _ =>
    have val : ∀ c0 ∈ g.entityIter 2, (c0 = c ∨ c0 = c') → ∀ z, ((c0.sub 0).map pt).map f = cornerWeights t z →
        (0 : ℝ) ∈ cornerWeights t z → fs.basisOn B n c0 0 (pointList z) =
          if en ∈ c.sub 0 ∨ en ∈ c'.sub 0 then ramp p p (f (pt en)) else 0 := by
      intro c0 hc0 hcc z hwz hzz
      by_cases h : en ∈ c0.sub 0
      · obtain ⟨i, hi⟩ := List.getElem?_of_mem h
        obtain ⟨n', h1, -, hit, h2⟩ := value c0 hc0 i hi
        rw [h2, lagrange_corner hp ht hit h1 hzz, weight_at hwz hi, if_pos]
        rcases hcc with rfl | rfl
        · exact .inl h
        · exact .inr h
      · rw [absent c0 hc0 h]
        split
        · rename_i hin
          have : f (pt en) = 0 := by
            by_contra hfe
            have := supp en hin hfe
            rcases hcc with rfl | rfl
            · exact h this.1
            · exact h this.2
          rw [this, ramp_at_zero p hp]
        · rfl
    rw [val c hc (.inl rfl) x hw hz, val c' hc' (.inr rfl) y hw' hz']
  | 1, _ =>
    obtain ⟨ev, hev, hco⟩ := ((C47_conforming (T := ℝ) (1 / 2) Real.sqrt (fun k => (k : ℝ)) hs).2.2.2.2 g pt cl hb).2.2.2
    have hloc : c.localIndex ≠ c'.localIndex := fun e => hne (hb.wf.index_inj (by decide) hc hc' e)
    -- the value on a cell that contains the edge, in terms of its ends
    have val : ∀ c0 ∈ g.entityIter 2, ∀ z, ((c0.sub 0).map pt).map f = cornerWeights t z → (0 : ℝ) ∈ cornerWeights t z →
        en ∈ c0.sub 1 → ∃ a b va vb, (a, b) ∈ refEdges t ∧ (c0.sub 0)[a]? = some va ∧ (c0.sub 0)[b]? = some vb ∧
          SamePair (ev en) (va, vb) ∧ k < p - 1 ∧
          fs.basisOn B n c0 0 (pointList z) = ramp p (p - 1 - k) (f (pt va)) * ramp p (k + 1) (f (pt vb)) := by
      intro c0 hc0 z hwz hzz h
      obtain ⟨i, hi⟩ := List.getElem?_of_mem h
      obtain ⟨n', h1, hk', -, h2⟩ := value c0 hc0 i hi
      obtain ⟨a, b, va, vb, q1, q2, q3, q4⟩ := hev.ref c0 hc0 i en hi
      rw [hb.cell_type hc0] at q1
      refine ⟨a, b, va, vb, List.mem_of_getElem? q1, q2, q3, q4, hk' rfl, ?_⟩
      rw [h2, lagrange_edge hp ht (hk' rfl) q1 h1 hzz, weight_at hwz q2, weight_at hwz q3]
    -- if only one of the two cells has the edge then the value is 0
    have one : ∀ c0 ∈ g.entityIter 2, ∀ c1 ∈ g.entityIter 2, (c0 = c ∧ c1 = c' ∨ c0 = c' ∧ c1 = c) → ∀ z,
        ((c0.sub 0).map pt).map f = cornerWeights t z → (0 : ℝ) ∈ cornerWeights t z → en ∈ c0.sub 1 → en ∉ c1.sub 1 →
        fs.basisOn B n c0 0 (pointList z) = 0 := by
      intro c0 hc0 c1 hc1 hcc z hwz hzz h h'
      obtain ⟨a, b, va, vb, q1, q2, q3, q4, q5, q6⟩ := val c0 hc0 z hwz hzz h
      rw [q6]
      by_contra hprod
      have ma := List.mem_of_getElem? q2
      have mb := List.mem_of_getElem? q3
      have hfa : f (pt va) ≠ 0 := by
        intro h0
        rw [h0, ramp_at_zero p (by omega), zero_mul] at hprod
        exact hprod rfl
      have hfb : f (pt vb) ≠ 0 := by
        intro h0
        rw [h0, ramp_at_zero p (by omega), mul_zero] at hprod
        exact hprod rfl
      have hm1 : va ∈ c1.sub 0 ∧ vb ∈ c1.sub 0 := by
        rcases hcc with ⟨rfl, rfl⟩ | ⟨rfl, rfl⟩
        · exact ⟨(supp va (.inl ma) hfa).2, (supp vb (.inl mb) hfb).2⟩
        · exact ⟨(supp va (.inr ma) hfa).1, (supp vb (.inr mb) hfb).1⟩
      have hab : va ≠ vb := by
        rintro rfl
        have := (List.getElem?_inj (List.getElem?_eq_some_iff.mp q2).1 (hwf.sub_nodup c0 hc0 0 (by decide))).mp (q2.trans q3.symm)
        subst this
        revert q1
        rcases ht with rfl | rfl <;> simp [refEdges] <;> omega
      have hl01 : c0.localIndex ≠ c1.localIndex := by
        rcases hcc with ⟨rfl, rfl⟩ | ⟨rfl, rfl⟩
        · exact hloc
        · exact hloc.symm
      obtain ⟨e', r1, r2, r3⟩ := hco.edge c0 hc0 c1 hc1 hl01 va ma vb mb hm1.1 hm1.2 hab
      have : e' = en := hev.inj _ _ (hwf.sub_lt c0 hc0 1 (by decide) _ r1) (hwf.sub_lt c0 hc0 1 (by decide) _ h) (by
        unfold SamePair at *
        rcases r3 with r3 | r3 <;> rcases q4 with q4 | q4 <;> rw [r3, q4] <;> simp)
      exact h' (this ▸ r2)
    by_cases h1 : en ∈ c.sub 1
    · by_cases h2 : en ∈ c'.sub 1
      · obtain ⟨a, b, va, vb, q1, q2, q3, q4, q5, q6⟩ := val c hc x hw hz h1
        obtain ⟨a', b', va', vb', r1, r2, r3, r4, -, r6⟩ := val c' hc' y hw' hz' h2
        rw [q6, r6]
        have hsame : va = va' ∧ vb = vb' ∨ va = vb' ∧ vb = va' := by
          unfold SamePair at q4 r4
          rcases q4 with q4 | q4 <;> rcases r4 with r4 | r4 <;> rw [q4] at r4 <;>
            simp only [Prod.mk.injEq] at r4 <;> tauto
        rcases hsame with ⟨rfl, rfl⟩ | ⟨rfl, rfl⟩
        · rfl
        · rcases ha with ha | ha
          · obtain rfl : k = 0 := by omega
            obtain rfl : p = 2 := by omega
            exact mul_comm _ _
          · obtain ⟨j, hj, -, -⟩ := hb.corner_list hc
            obtain ⟨j', hj', -, -⟩ := hb.corner_list hc'
            refine absurd ⟨?_, ?_⟩ (ha _ hj _ hj' _ q1 _ r1 (pt va) (pt vb) (by simp [q2]) (by simp [q3]))
            · simp [r2]
            · simp [r3]
      · rw [one c hc c' hc' (.inl ⟨rfl, rfl⟩) x hw hz h1 h2, absent c' hc' h2]
    · by_cases h2 : en ∈ c'.sub 1
      · rw [one c' hc' c hc (.inr ⟨rfl, rfl⟩) y hw' hz' h2 h1, absent c hc h1]
      · rw [absent c hc h1, absent c' hc' h2]

end
end Bempp
