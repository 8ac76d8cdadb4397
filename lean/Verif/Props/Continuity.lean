import Verif.Proofs.Jump
import Verif.Proofs.EdgesAgree
import Verif.Props.Families
/-
C102: functions of continuous Lagrange spaces, on the surfaces of the library.
-/
namespace Bempp

variable {lev : Nat} {s : Shape ℝ} {t : CellType} {g : Grid} {pt cl : Nat → Nat} {V : Nat → Nat → Nat → ℝ}
  {fam : CellType → ElementDofs} {fs : FunctionSpace} {B : Basis ℝ ℝ} {p : Nat}

/-- C102: on the spheres and screens of the library, all functions of the Lagrange space of degree `p` are continuous if and
only if `p` is at most 2 or all cells go through common edges in the same direction. -/
theorem C102_continuous_iff (hs : LibraryShape lev t s) (hb : Built s t g pt cl) (hV : HasCorners s g pt V)
    (hL : LagrangeElement p t (fam t) B) (hm : FunctionSpace.new 0 1 g fam = .done fs) :
    (∀ u, fs.ContinuousFunction (vertexGeometry (cellFunctions t) V) t B u) ↔ p ≤ 2 ∨ s.EdgesAgree t := by
  refine ⟨fun h => ?_, fun h u => lagrange_continuous hs hb hV hL hm h u⟩
  by_contra hn
  rw [not_or] at hn
  obtain ⟨n, hlt, c, hc, c', hc', z, hz, z', hz', e, h1, h2⟩ := edge_jump hs hb hV hL hm (by omega) hn.2
  obtain ⟨fs', hm', -, hg, -⟩ := hb.space hL.uniform
  obtain rfl : fs = fs' := by rw [hm] at hm'; exact Prog.done.inj hm'
  obtain ⟨F, -, hF⟩ := h fun m => if m = n then 1 else 0
  rw [hg] at hF
  have k1 := hF c hc z hz
  have k2 := hF c' hc' z' hz'
  rw [functionOn_indicator fs B hlt, h1] at k1
  rw [functionOn_indicator fs B hlt, h2, ← e, k1] at k2
  exact one_ne_zero k2

/-- C102: the cells go through common edges in the same direction on all screens of quadrilaterals, and on the screen of
triangles with one square; they do not on the other screens of triangles and on all spheres. -/
theorem C102_edges : (∀ n s, screenQuadrilaterals (fun k => (k : ℝ)) n = some s → s.EdgesAgree .quadrilateral) ∧
    (∀ n s, screenTriangles (fun k => (k : ℝ)) n = some s → (s.EdgesAgree .triangle ↔ n = 1)) ∧
    ∀ n s, realSphere n = some s → ¬ s.EdgesAgree .triangle :=
  ⟨fun _ _ h => quadrilaterals_agree h, fun _ _ h => triangles_agree h, fun _ _ h => sphere_opposite h⟩

/-- C102: from degree 3 on, where two cells go through an edge in opposite directions, there is a basis function that is 1 at
a point of the surface seen from one cell and 0 at the same point seen from the other cell. -/
theorem C102_jump (hs : LibraryShape lev t s) (hb : Built s t g pt cl) (hV : HasCorners s g pt V)
    (hL : LagrangeElement p t (fam t) B) (hm : FunctionSpace.new 0 1 g fam = .done fs) (hp : 3 ≤ p) (ha : ¬ s.EdgesAgree t) :
    ∃ n, n < fs.globalSize ∧ ∃ c ∈ g.entityIter 2, ∃ c' ∈ g.entityIter 2, ∃ z ∈ refCell t, ∃ z' ∈ refCell t,
      surfacePoint (vertexGeometry (cellFunctions t) V) c.localIndex z =
        surfacePoint (vertexGeometry (cellFunctions t) V) c'.localIndex z' ∧
      fs.basisOn B n c 0 (pointList z) = 1 ∧ fs.basisOn B n c' 0 (pointList z') = 0 :=
  edge_jump hs hb hV hL hm hp ha

/-! ### Lagrange elements of all degrees -/

/-- The points inside the reference cell. -/
def innerPoints (p : Nat) (t : CellType) : List (Nat × Nat) :=
  ((List.range p).flatMap fun y => (List.range p).map fun x => (x, y)).filter fun n =>
    0 < n.1 && 0 < n.2 && (t = .quadrilateral || n.1 + n.2 < p)

/-- The points of the DOFs in the order of `layeredElement`. -/
def lagrangeNode (p : Nat) (t : CellType) (a : Nat) : Nat × Nat :=
  if a < refCount t 0 then (p * (refCorner t a).1, p * (refCorner t a).2)
  else if a < refCount t 0 + refCount t 1 * (p - 1) then
    let e := (refEdges t).getD ((a - refCount t 0) / (p - 1)) (0, 0)
    let k := (a - refCount t 0) % (p - 1)
    ((p - 1 - k) * (refCorner t e.1).1 + (k + 1) * (refCorner t e.2).1,
      (p - 1 - k) * (refCorner t e.1).2 + (k + 1) * (refCorner t e.2).2)
  else (innerPoints p t).getD (a - (refCount t 0 + refCount t 1 * (p - 1))) (1, 1)

/-- The basis functions of the Lagrange element (their derivatives are not used here). -/
noncomputable def lagrangeBasis (p : Nat) : Basis ℝ ℝ := fun t a d x =>
  if d = 0 then lagrangeFunction p t (lagrangeNode p t a) (x.getD 0 0, x.getD 1 0) else 0

theorem mem_getD {α : Type} (l : List α) (k : Nat) (d : α) : l.getD k d ∈ l ∨ l.getD k d = d := by
  rw [List.getD_eq_getElem?_getD]
  cases h : l[k]? with
  | none => right; rfl
  | some x => left; exact List.mem_of_getElem? h

theorem lagrange_element {p : Nat} (hp : 0 < p) {t : CellType} (ht : t = .triangle ∨ t = .quadrilateral) :
    LagrangeElement p t (layeredElement ((StandardFamily.lagrange p).counts t) t) (lagrangeBasis p) where
  degree := hp
  uniform := (C96_elements (.lagrange p) hp t ht).1
  basis := by
    intro d hd i hi l hl k a hka
    simp only [layeredElement, hd, hi, and_self, if_true, Option.some.injEq] at hl
    subst hl
    have hk : k < (StandardFamily.lagrange p).counts t d := by
      simpa using (List.getElem?_eq_some_iff.mp hka).1
    rw [List.getElem?_range' hk] at hka
    obtain rfl := Option.some.inj hka
    refine ⟨_, ?_, fun z => by simp only [lagrangeBasis, if_true]; rfl⟩
    match d, hd with
    | 0, _ =>
      obtain rfl : k = 0 := by simpa [StandardFamily.counts] using hk
      simp only [StandardFamily.counts, List.range_zero, List.map_nil, List.sum_nil, Nat.zero_add, Nat.mul_one, Nat.add_zero,
        Nat.mul_zero, LagrangePoint, lagrangeNode, if_pos hi]
    | 1, _ =>
      have hk : k < p - 1 := hk
      have hi' : i < (refEdges t).length := by rcases ht with rfl | rfl <;> exact hi
      have ea : ((List.range 1).map fun e => refCount t e * (StandardFamily.lagrange p).counts t e).sum +
          i * (StandardFamily.lagrange p).counts t 1 + 1 * k = refCount t 0 + (i * (p - 1) + k) := by
        simp [StandardFamily.counts, Nat.add_assoc]
      rw [ea]
      have h1 : (i * (p - 1) + k) / (p - 1) = i := by
        rw [Nat.mul_comm, Nat.mul_add_div (by omega), Nat.div_eq_of_lt hk, Nat.add_zero]
      have h2 : (i * (p - 1) + k) % (p - 1) = k := by
        rw [Nat.mul_comm, Nat.mul_add_mod, Nat.mod_eq_of_lt hk]
      have h3 : i * (p - 1) + k < refCount t 1 * (p - 1) := by
        have := Nat.mul_le_mul_right (p - 1) (Nat.succ_le_of_lt hi)
        rw [Nat.succ_mul] at this
        omega
      refine ⟨((refEdges t)[i]).1, ((refEdges t)[i]).2, by simp [hi'], ?_⟩
      rw [lagrangeNode, if_neg (by omega), if_pos (by omega), Nat.add_sub_cancel_left, h1, h2]
      simp [List.getD_eq_getElem?_getD, hi']
    | 2, _ =>
      have ea : ((List.range 2).map fun e => refCount t e * (StandardFamily.lagrange p).counts t e).sum +
          i * (StandardFamily.lagrange p).counts t 2 + 1 * k =
          refCount t 0 + refCount t 1 * (p - 1) + (i * (StandardFamily.lagrange p).counts t 2 + k) := by
        simp [StandardFamily.counts, List.range_succ, Nat.add_assoc]
      rw [ea, lagrangeNode, if_neg (by omega), if_neg (by omega), Nat.add_sub_cancel_left]
      simp only [LagrangePoint]
      rcases mem_getD (innerPoints p t) (i * (StandardFamily.lagrange p).counts t 2 + k) (1, 1) with h | h
      · simp only [innerPoints, List.mem_filter, List.mem_flatMap, List.mem_map, List.mem_range, Bool.and_eq_true,
          decide_eq_true_eq, Bool.or_eq_true] at h
        obtain ⟨⟨y, hy, x, hx, e⟩, ⟨h1, h2⟩, h3⟩ := h
        refine ⟨h1, h2, ?_⟩
        simp only [innerPoints] at e ⊢
        rw [← e] at h3 ⊢
        split
        · exact ⟨hx, hy⟩
        · rename_i hq
          exact h3.resolve_left hq
      · rw [h]
        simp only [StandardFamily.counts] at hk
        refine ⟨one_pos, one_pos, ?_⟩
        rcases ht with rfl | rfl
        · simp only [reduceCtorEq, if_false] at hk ⊢
          rcases p with _ | _ | _ | p
          · omega
          · simp at hk
          · simp at hk
          · omega
        · simp only [if_true] at hk ⊢
          rcases p with _ | _ | p
          · omega
          · simp at hk
          · exact ⟨by omega, by omega⟩

/-- C102, spheres of all levels and all degrees: there is a space of this kind, and all its functions are continuous if and
only if the degree is at most 2. -/
example (lev p : Nat) (hp : 0 < p) : ∃ s g pt cl V fs, realSphere lev = some s ∧ Built s .triangle g pt cl ∧
    HasCorners s g pt V ∧
    FunctionSpace.new 0 1 g (fun t => layeredElement ((StandardFamily.lagrange p).counts t) t) = .done fs ∧
    ((∀ u, fs.ContinuousFunction (vertexGeometry triangleFunctions V) .triangle (lagrangeBasis p) u) ↔ p ≤ 2) := by
  obtain ⟨s, hs, -⟩ := C30_sizes (1 / 2 : ℝ) Real.sqrt lev
  have hl : LibraryShape lev .triangle s := .inl ⟨hs, rfl⟩
  obtain ⟨-, -, -, ⟨g, pt, cl, hb⟩, -⟩ := C47_conforming _ _ _ hl
  obtain ⟨⟨V, hV⟩, -⟩ := C79_surface hl hb
  have hL := lagrange_element hp (t := .triangle) (.inl rfl)
  obtain ⟨fs, hm, -⟩ := hb.space (fam := fun t => layeredElement ((StandardFamily.lagrange p).counts t) t) hL.uniform
  refine ⟨s, g, pt, cl, V, fs, hs, hb, hV, hm, ?_⟩
  rw [show triangleFunctions = cellFunctions .triangle from rfl, C102_continuous_iff hl hb hV (fam := fun t => layeredElement ((StandardFamily.lagrange p).counts t) t) hL hm]
  simp [C102_edges.2.2 lev s hs]

/-- C102, screens of quadrilaterals: the functions of all degrees are continuous. -/
example (n p : Nat) (hn : 0 < n) (hp : 0 < p) : ∃ s g pt cl V fs, screenQuadrilaterals (fun k => (k : ℝ)) n = some s ∧
    Built s .quadrilateral g pt cl ∧ HasCorners s g pt V ∧
    FunctionSpace.new 0 1 g (fun t => layeredElement ((StandardFamily.lagrange p).counts t) t) = .done fs ∧
    ∀ u, fs.ContinuousFunction (vertexGeometry quadrilateralFunctions V) .quadrilateral (lagrangeBasis p) u := by
  obtain ⟨s, hs⟩ : ∃ s, screenQuadrilaterals (fun k => (k : ℝ)) n = some s := by
    simp [screenQuadrilaterals, Nat.pos_iff_ne_zero.mp hn]
  have hl : LibraryShape n .quadrilateral s := .inr (.inr ⟨hs, rfl⟩)
  obtain ⟨-, -, -, ⟨g, pt, cl, hb⟩, -⟩ := C47_conforming _ _ _ hl
  obtain ⟨⟨V, hV⟩, -⟩ := C79_surface hl hb
  have hL := lagrange_element hp (t := .quadrilateral) (.inr rfl)
  obtain ⟨fs, hm, -⟩ := hb.space (fam := fun t => layeredElement ((StandardFamily.lagrange p).counts t) t) hL.uniform
  exact ⟨s, g, pt, cl, V, fs, hs, hb, hV, hm, (C102_continuous_iff hl hb hV
    (fam := fun t => layeredElement ((StandardFamily.lagrange p).counts t) t) hL hm).mpr (.inr (C102_edges.1 n s hs))⟩

end Bempp
