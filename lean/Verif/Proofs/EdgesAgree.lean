import Verif.Proofs.Screen
import Verif.Proofs.Sphere
import Verif.Spec.Lagrange
/-
In which shapes all cells go through common edges in the same direction.
-/
set_option linter.unusedSectionVars false

namespace Bempp

section
variable {T : Type} [Zero T] [One T] [Neg T] [Add T] [Mul T] [Div T]

theorem edgePoint_newCells (half : T) (sqrt : T → T) (i j : Nat) (vi vj : T × T × T) (s : RefineState T) :
    (edgePoint half sqrt i j vi vj s).1.newCells = s.newCells := by
  unfold edgePoint
  simp only
  split <;> rfl

theorem refineCell_newCells {half : T} {sqrt : T → T} {s s' : RefineState T} {c : Tri} (h : refineCell half sqrt s c = some s') :
    ∃ e0 e1 e2, s'.newCells = s.newCells ++ [⟨c.p0, e2, e1⟩, ⟨c.p1, e0, e2⟩, ⟨c.p2, e1, e0⟩, ⟨e0, e1, e2⟩] := by
  unfold refineCell at h
  simp only [Option.bind_eq_bind, Option.bind_eq_some_iff] at h
  obtain ⟨v0, -, v1, -, v2, -, h⟩ := h
  obtain rfl := Option.some.inj h
  refine ⟨(edgePoint half sqrt c.p1 c.p2 v1 v2 s).2,
    (edgePoint half sqrt c.p0 c.p2 v0 v2 (edgePoint half sqrt c.p1 c.p2 v1 v2 s).1).2,
    (edgePoint half sqrt c.p0 c.p1 v0 v1 (edgePoint half sqrt c.p0 c.p2 v0 v2 (edgePoint half sqrt c.p1 c.p2 v1 v2 s).1).1).2, ?_⟩
  simp only [edgePoint_newCells]

theorem refine_keeps {half : T} {sqrt : T → T} : ∀ {l : List Tri} {s s' : RefineState T},
    l.foldlM (refineCell half sqrt) s = some s' → ∀ c ∈ s.newCells, c ∈ s'.newCells
  | [], s, s', h, c, hc => by
    obtain rfl : s = s' := by simpa using h
    exact hc
  | a :: l, s, s', h, c, hc => by
    rw [List.foldlM_cons] at h
    obtain ⟨s1, h1, h2⟩ := Option.bind_eq_some_iff.mp h
    obtain ⟨e0, e1, e2, he⟩ := refineCell_newCells h1
    exact refine_keeps h2 c (by rw [he]; exact List.mem_append_left _ hc)

/-- After refinement, two triangles go through an edge in opposite directions. -/
theorem refineLevel_opposite {half : T} {sqrt : T → T} {s s' : SphereState T} (h : refineLevel half sqrt s = some s')
    (hs : s.cells ≠ []) : ∃ a b v w, (⟨a, v, w⟩ : Tri) ∈ s'.cells ∧ (⟨b, w, v⟩ : Tri) ∈ s'.cells := by
  unfold refineLevel at h
  obtain ⟨r, h1, h2⟩ := Option.bind_eq_some_iff.mp h
  obtain rfl := Option.some.inj h2
  match hc : s.cells, hs with
  | c :: l, _ =>
    rw [hc, List.foldlM_cons] at h1
    obtain ⟨s1, h3, h4⟩ := Option.bind_eq_some_iff.mp h1
    obtain ⟨e0, e1, e2, he⟩ := refineCell_newCells h3
    exact ⟨c.p0, e0, e2, e1, refine_keeps h4 _ (by rw [he]; simp), refine_keeps h4 _ (by rw [he]; simp)⟩

theorem levels_opposite {half : T} {sqrt : T → T} : ∀ {n : Nat} {s : SphereState T},
    (List.range n).foldlM (fun s _ => refineLevel half sqrt s) octahedronStart = some s →
    ∃ a b v w, (⟨a, v, w⟩ : Tri) ∈ s.cells ∧ (⟨b, w, v⟩ : Tri) ∈ s.cells
  | 0, s, h => by
    obtain rfl : octahedronStart = s := by simpa using h
    exact ⟨0, 5, 1, 2, by simp [octahedronStart], by simp [octahedronStart]⟩
  | n + 1, s, h => by
    rw [List.range_succ, List.foldlM_append] at h
    obtain ⟨s1, h1, h2⟩ := Option.bind_eq_some_iff.mp h
    obtain ⟨a, b, v, w, h3, -⟩ := levels_opposite h1
    refine refineLevel_opposite (s := s1) (by simpa using h2) ?_
    rintro h0
    rw [h0] at h3
    simp at h3

/-- On spheres, some cells go through a common edge in opposite directions. -/
theorem sphere_opposite {half : T} {sqrt : T → T} {n : Nat} {s : Shape T} (h : regularSphere half sqrt n = some s) :
    ¬ s.EdgesAgree .triangle := by
  unfold regularSphere at h
  obtain ⟨r, h1, h2⟩ := Option.bind_eq_some_iff.mp h
  obtain rfl := Option.some.inj h2
  obtain ⟨a, b, v, w, h3, h4⟩ := levels_opposite h1
  obtain ⟨i, hi⟩ := List.getElem?_of_mem h3
  obtain ⟨j, hj⟩ := List.getElem?_of_mem h4
  intro ha
  refine ha (i, [a, v, w]) ?_ (j, [b, w, v]) ?_ (1, 2) (by simp [refEdges]) (1, 2) (by simp [refEdges]) v w rfl rfl ⟨rfl, rfl⟩
  · exact List.mem_map.mpr ⟨(_, i), List.mem_zipIdx_iff_getElem?.mpr hi, rfl⟩
  · exact List.mem_map.mpr ⟨(_, j), List.mem_zipIdx_iff_getElem?.mpr hj, rfl⟩

end

section
variable {T : Type} [Zero T] [Div T] {fromNat : Nat → T} {n : Nat} {s : Shape T}

/-- On screens of quadrilaterals all edges go from the lower to the higher number. -/
theorem quadrilaterals_agree (h : screenQuadrilaterals fromNat n = some s) : s.EdgesAgree .quadrilateral := by
  have up : ∀ c ∈ s.cells, ∀ e ∈ refEdges .quadrilateral, ∀ v w, c.2[e.1]? = some v → c.2[e.2]? = some w → v < w := by
    intro c hc e he v w hv hw
    obtain ⟨x, y, -, -, e1⟩ := (mem_screenQuadrilaterals fromNat h).mp ⟨c.1, hc⟩
    rw [e1] at hv hw
    simp only [refEdges, List.mem_cons, List.not_mem_nil, or_false] at he
    rcases he with rfl | rfl | rfl | rfl <;> simp [squareQuad, gridPoint, add_mul] at hv hw <;> omega
  intro c hc c' hc' e he e' he' v w hv hw ⟨h1, h2⟩
  have := up c hc e he v w hv hw
  have := up c' hc' e' he' w v h1 h2
  omega

/-- On screens of triangles they do if there is only one square. -/
theorem triangles_agree (h : screenTriangles fromNat n = some s) : s.EdgesAgree .triangle ↔ n = 1 := by
  have hn : 0 < n := by
    rcases Nat.eq_zero_or_pos n with rfl | h0
    · simp [screenTriangles] at h
    · exact h0
  constructor
  · intro ha
    by_contra h1
    obtain ⟨i, hi⟩ := (mem_screenTriangles fromNat h (c := upperTri n 0 0)).mpr ⟨0, 0, hn, hn, .inr rfl⟩
    obtain ⟨j, hj⟩ := (mem_screenTriangles fromNat h (c := lowerTri n 0 1)).mpr ⟨0, 1, hn, by omega, .inl rfl⟩
    exact ha _ hi _ hj (1, 2) (by simp [refEdges]) (0, 1) (by simp [refEdges]) (gridPoint n 1 1) (gridPoint n 0 1) rfl rfl
      ⟨rfl, rfl⟩
  · rintro rfl c hc c' hc' e he e' he' v w hv hw ⟨h1, h2⟩
    have cell : ∀ c ∈ s.cells, c.2 = [0, 1, 3] ∨ c.2 = [0, 3, 2] := by
      intro c hc
      obtain ⟨x, y, hx, hy, e1⟩ := (mem_screenTriangles fromNat h).mp ⟨c.1, hc⟩
      obtain rfl : x = 0 := by omega
      obtain rfl : y = 0 := by omega
      exact e1
    simp only [refEdges, List.mem_cons, List.not_mem_nil, or_false] at he he'
    rcases cell c hc with ec | ec <;> rcases cell c' hc' with ec' | ec' <;> rw [ec] at hv hw <;> rw [ec'] at h1 h2 <;>
      rcases he with rfl | rfl | rfl <;> rcases he' with rfl | rfl | rfl <;> simp at hv hw h1 h2 <;> omega

end

end Bempp
