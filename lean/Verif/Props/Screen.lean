import Verif.Proofs.ScreenTiles
/-
C33, C34, C35: screens.
-/
set_option linter.unusedSectionVars false
set_option linter.unusedVariables false

namespace Bempp

section
variable {T : Type} [Zero T] [Div T] (fromNat : Nat → T)

/-- C33: the screen of triangles with `n > 0` cells per side has `(n + 1)²` points and `2n²` cells, numbered in
order; all cells refer to existing points. No cells per side is rejected. -/
theorem C33_triangles (n : Nat) :
    (n = 0 → screenTriangles fromNat n = none) ∧
    (0 < n → ∃ s, screenTriangles fromNat n = some s ∧ s.points.length = (n + 1) * (n + 1) ∧
      s.cells.length = 2 * (n * n) ∧ s.Numbered ∧ s.Complete ∧ ∀ c ∈ s.cells, c.2.length = 3 ∧ c.2.Nodup) := by
  refine ⟨fun h => by simp [screenTriangles, h], fun h => ?_⟩
  obtain ⟨s, hs⟩ := screenTriangles_some fromNat h
  obtain ⟨-, hp, hc⟩ := screenTriangles_eq fromNat hs
  have hpl : s.points.length = (n + 1) * (n + 1) := by rw [hp, screenPoints_eq]; simp
  have hids : s.cells.map Prod.fst = List.range (2 * (n * n)) := by
    rw [← range_double, ← range_pairs, hc]
    simp only [List.map_flatMap, List.map_cons, List.map_nil]
  have hcl : s.cells.length = 2 * (n * n) := by
    have := congrArg List.length hids
    simpa using this
  refine ⟨s, hs, hpl, hcl, ⟨?_, ?_⟩, ⟨?_, ?_⟩, ?_⟩
  · rw [hpl, hp, screenPoints_eq]
    simp [Function.comp_def]
  · rw [hids, hcl]
  · rintro ⟨i, c⟩ hm v hv
    obtain ⟨x, y, hx, hy, hxy⟩ := (mem_screenTriangles fromNat hs).mp ⟨i, hm⟩
    rw [hpl]
    rcases hxy with rfl | rfl <;> simp only [lowerTri, upperTri, List.mem_cons, List.not_mem_nil, or_false] at hv <;>
      rcases hv with rfl | rfl | rfl <;> apply gridPoint_lt <;> omega
  · intro v hv
    rw [hpl] at hv
    obtain ⟨x, y, hx, hy, rfl⟩ := grid_split hv
    have pick : ∀ k, k < n + 1 → ∃ k', k' < n ∧ (k = k' ∨ k = k' + 1) := by
      intro k hk
      by_cases h0 : k < n
      · exact ⟨k, h0, Or.inl rfl⟩
      · exact ⟨n - 1, by omega, Or.inr (by omega)⟩
    obtain ⟨x', hx', ex⟩ := pick x hx
    obtain ⟨y', hy', ey⟩ := pick y hy
    have hl := (mem_screenTriangles fromNat hs).mpr ⟨x', y', hx', hy', Or.inl rfl⟩
    have hu := (mem_screenTriangles fromNat hs).mpr ⟨x', y', hx', hy', Or.inr rfl⟩
    obtain ⟨i, hl⟩ := hl
    obtain ⟨j, hu⟩ := hu
    rcases ex with rfl | rfl <;> rcases ey with rfl | rfl
    · exact ⟨_, hl, by simp [lowerTri, gridPoint]⟩
    · exact ⟨_, hu, by simp [upperTri, gridPoint]⟩
    · exact ⟨_, hl, by simp [lowerTri, gridPoint]⟩
    · exact ⟨_, hl, by simp [lowerTri, gridPoint]⟩
  · rintro ⟨i, c⟩ hm
    obtain ⟨x, y, hx, hy, hxy⟩ := (mem_screenTriangles fromNat hs).mp ⟨i, hm⟩
    rcases hxy with rfl | rfl <;> simp [lowerTri, upperTri, gridPoint_inj, hx, Nat.lt_succ_of_lt hx]

/-- C33 for quadrilaterals. -/
theorem C33_quadrilaterals (n : Nat) :
    (n = 0 → screenQuadrilaterals fromNat n = none) ∧
    (0 < n → ∃ s, screenQuadrilaterals fromNat n = some s ∧ s.points.length = (n + 1) * (n + 1) ∧
      s.cells.length = n * n ∧ s.Numbered ∧ s.Complete ∧ ∀ c ∈ s.cells, c.2.length = 4 ∧ c.2.Nodup) := by
  refine ⟨fun h => by simp [screenQuadrilaterals, h], fun h => ?_⟩
  obtain ⟨s, hs⟩ := screenQuadrilaterals_some fromNat h
  obtain ⟨-, hp, hc⟩ := screenQuadrilaterals_eq fromNat hs
  have hpl : s.points.length = (n + 1) * (n + 1) := by rw [hp, screenPoints_eq]; simp
  have hids : s.cells.map Prod.fst = List.range (n * n) := by
    have := range_grid id n n
    rw [List.map_id] at this
    rw [← this, hc]
    simp only [List.map_flatMap, List.map_map]
    rfl
  have hcl : s.cells.length = n * n := by
    have := congrArg List.length hids
    simpa using this
  refine ⟨s, hs, hpl, hcl, ⟨?_, ?_⟩, ⟨?_, ?_⟩, ?_⟩
  · rw [hpl, hp, screenPoints_eq]
    simp [Function.comp_def]
  · rw [hids, hcl]
  · rintro ⟨i, c⟩ hm v hv
    obtain ⟨x, y, hx, hy, rfl⟩ := (mem_screenQuadrilaterals fromNat hs).mp ⟨i, hm⟩
    rw [hpl]
    simp only [squareQuad, List.mem_cons, List.not_mem_nil, or_false] at hv
    rcases hv with rfl | rfl | rfl | rfl <;> apply gridPoint_lt <;> omega
  · intro v hv
    rw [hpl] at hv
    obtain ⟨x, y, hx, hy, rfl⟩ := grid_split hv
    have pick : ∀ k, k < n + 1 → ∃ k', k' < n ∧ (k = k' ∨ k = k' + 1) := by
      intro k hk
      by_cases h0 : k < n
      · exact ⟨k, h0, Or.inl rfl⟩
      · exact ⟨n - 1, by omega, Or.inr (by omega)⟩
    obtain ⟨x', hx', ex⟩ := pick x hx
    obtain ⟨y', hy', ey⟩ := pick y hy
    obtain ⟨i, hl⟩ := (mem_screenQuadrilaterals fromNat hs).mpr ⟨x', y', hx', hy', rfl⟩
    refine ⟨_, hl, ?_⟩
    rcases ex with rfl | rfl <;> rcases ey with rfl | rfl <;> simp [squareQuad, gridPoint]
  · rintro ⟨i, c⟩ hm
    obtain ⟨x, y, hx, hy, rfl⟩ := (mem_screenQuadrilaterals fromNat hs).mp ⟨i, hm⟩
    simp [squareQuad, gridPoint_inj, hx, Nat.lt_succ_of_lt hx]

end

/-- The second square of a screen with 2 by 2 squares. -/
example : (screenQuadrilaterals (fun k => (k : Int)) 2).map (fun s => s.cells[1]?) =
    some (some (1, [1, 2, 4, 5])) := by decide +kernel

section
variable {n : Nat} {s : Shape ℝ}

/-- C34 (partial): the triangles of a screen cover exactly the square `[0, n/(n+1)]²` of the plane. The
documentation says `[0, 1]²`, which is wrong: see `C34_not_unit_square`. -/
theorem C34_triangles_partial (h : screenTriangles (fun k => (k : ℝ)) n = some s) (w : Vec) :
    (∃ c ∈ s.cells, ∃ f, s.InTriangle c.2 f w) ↔
    (0 ≤ w.1 ∧ w.1 ≤ (n : ℝ) / (n + 1)) ∧ (0 ≤ w.2.1 ∧ w.2.1 ≤ (n : ℝ) / (n + 1)) ∧ w.2.2 = 0 := by
  obtain ⟨hn, hp, -⟩ := screenTriangles_eq _ h
  constructor
  · rintro ⟨⟨i, c⟩, hc, f, hf⟩
    obtain ⟨x, y, hx, hy, rfl | rfl⟩ := (mem_screenTriangles _ h).mp ⟨i, hc⟩
    · obtain ⟨a, b, hb, hab, ha, rfl, -⟩ := (lower_iff hp hx hy f w).mp hf
      exact ⟨coord_range hx (by linarith) ha, coord_range hy hb (by linarith), rfl⟩
    · obtain ⟨a, b, hb, hab, ha, rfl, -⟩ := (upper_iff hp hx hy f w).mp hf
      exact ⟨coord_range hx hb (by linarith), coord_range hy (by linarith) ha, rfl⟩
  · rintro ⟨⟨h1, h2⟩, ⟨h3, h4⟩, h5⟩
    obtain ⟨x, hx, a, ha, ha', e1⟩ := coord_split hn h1 h2
    obtain ⟨y, hy, b, hb, hb', e2⟩ := coord_split hn h3 h4
    have ew : w = ((x + a) / (n + 1), (y + b) / (n + 1), 0) := by
      ext
      · exact e1
      · exact e2
      · exact h5
    rcases le_total b a with hab | hab
    · obtain ⟨i, hi⟩ := (mem_screenTriangles _ h).mpr ⟨x, y, hx, hy, Or.inl rfl⟩
      exact ⟨_, hi, _, (lower_iff hp hx hy _ w).mpr ⟨a, b, hb, hab, ha', ew, rfl⟩⟩
    · obtain ⟨i, hi⟩ := (mem_screenTriangles _ h).mpr ⟨x, y, hx, hy, Or.inr rfl⟩
      exact ⟨_, hi, _, (upper_iff hp hx hy _ w).mpr ⟨a, b, ha, hab, hb', ew, rfl⟩⟩

/-- C34 (partial) for quadrilaterals. -/
theorem C34_quadrilaterals_partial (h : screenQuadrilaterals (fun k => (k : ℝ)) n = some s) (w : Vec) :
    (∃ c ∈ s.cells, ∃ f, s.InQuadrilateral c.2 f w) ↔
    (0 ≤ w.1 ∧ w.1 ≤ (n : ℝ) / (n + 1)) ∧ (0 ≤ w.2.1 ∧ w.2.1 ≤ (n : ℝ) / (n + 1)) ∧ w.2.2 = 0 := by
  obtain ⟨hn, hp, -⟩ := screenQuadrilaterals_eq _ h
  constructor
  · rintro ⟨⟨i, c⟩, hc, f, hf⟩
    obtain ⟨x, y, hx, hy, rfl⟩ := (mem_screenQuadrilaterals _ h).mp ⟨i, hc⟩
    obtain ⟨a, b, ha, ha', hb, hb', rfl, -⟩ := (quad_iff hp hx hy f w).mp hf
    exact ⟨coord_range hx ha ha', coord_range hy hb hb', rfl⟩
  · rintro ⟨⟨h1, h2⟩, ⟨h3, h4⟩, h5⟩
    obtain ⟨x, hx, a, ha, ha', e1⟩ := coord_split hn h1 h2
    obtain ⟨y, hy, b, hb, hb', e2⟩ := coord_split hn h3 h4
    have ew : w = ((x + a) / (n + 1), (y + b) / (n + 1), 0) := by
      ext
      · exact e1
      · exact e2
      · exact h5
    obtain ⟨i, hi⟩ := (mem_screenQuadrilaterals _ h).mpr ⟨x, y, hx, hy, rfl⟩
    exact ⟨_, hi, _, (quad_iff hp hx hy _ w).mpr ⟨a, b, ha, ha', hb, hb', ew, rfl⟩⟩

/-- C34 is false: for every number of cells, the corner (1, 1, 0) of the unit square and all points with a
coordinate greater than n/(n+1) are in no cell. -/
theorem C34_not_unit_square (n : Nat) (hn : 0 < n) :
    (∃ s, screenTriangles (fun k => (k : ℝ)) n = some s ∧ ¬ ∃ c ∈ s.cells, ∃ f, s.InTriangle c.2 f (1, 1, 0)) ∧
    (∃ s, screenQuadrilaterals (fun k => (k : ℝ)) n = some s ∧
      ¬ ∃ c ∈ s.cells, ∃ f, s.InQuadrilateral c.2 f (1, 1, 0)) := by
  have h1 := covered_lt_one n
  obtain ⟨s, hs⟩ := screenTriangles_some (fun k => (k : ℝ)) hn
  obtain ⟨s', hs'⟩ := screenQuadrilaterals_some (fun k => (k : ℝ)) hn
  refine ⟨⟨s, hs, fun h => ?_⟩, ⟨s', hs', fun h => ?_⟩⟩
  · have := (C34_triangles_partial hs _).mp h
    exact absurd this.1.2 (by simpa using h1)
  · have := (C34_quadrilaterals_partial hs' _).mp h
    exact absurd this.1.2 (by simpa using h1)

/-- C35: the triangles of a screen are oriented upwards, their areas add up to the area of the covered square,
they do not overlap (two cells have in common only what is spanned by common corners), and every edge is in one
cell if it is on the boundary of the square and otherwise in two, in opposite directions. -/
theorem C35_triangles (h : screenTriangles (fun k => (k : ℝ)) n = some s) :
    (∀ c ∈ s.cells, (s.areaVector c.2).1 = 0 ∧ (s.areaVector c.2).2.1 = 0 ∧ 0 < (s.areaVector c.2).2.2) ∧
    (s.cells.map fun c => (s.areaVector c.2).2.2 / 2).sum = ((n : ℝ) / (n + 1)) * ((n : ℝ) / (n + 1)) ∧
    (∀ c ∈ s.cells, ∀ c' ∈ s.cells, ∀ f f' w, s.InTriangle c.2 f w → s.InTriangle c'.2 f' w →
      f = f' ∧ ∀ v, f v ≠ 0 → v ∈ c.2 ∧ v ∈ c'.2) ∧
    ∀ u v, (u, v) ∈ s.edges → s.edges.count (u, v) = 1 ∧ ∃ a b, s.at u = some a ∧ s.at v = some b ∧
      (OnBoundary ((n : ℝ) / (n + 1)) a b → s.edges.count (v, u) = 0) ∧
      (¬ OnBoundary ((n : ℝ) / (n + 1)) a b → s.edges.count (v, u) = 1) := by
  obtain ⟨hn, hp, hc⟩ := screenTriangles_eq _ h
  have hm : (n : ℝ) + 1 ≠ 0 := by positivity
  have area : ∀ c ∈ s.cells, s.areaVector c.2 = (0, 0, 1 / (((n : ℝ) + 1) * ((n : ℝ) + 1))) := by
    rintro ⟨i, c⟩ hc
    obtain ⟨x, y, hx, hy, hxy⟩ := (mem_screenTriangles _ h).mp ⟨i, hc⟩
    have p0 := screen_pos hp (by omega : x < n + 1) (by omega : y < n + 1)
    have p1 := screen_pos hp (by omega : x + 1 < n + 1) (by omega : y < n + 1)
    have p2 := screen_pos hp (by omega : x < n + 1) (by omega : y + 1 < n + 1)
    have p3 := screen_pos hp (by omega : x + 1 < n + 1) (by omega : y + 1 < n + 1)
    rcases hxy with rfl | rfl
    · simp only [lowerTri, Shape.areaVector, p0, p1, p3, Option.getD_some, Vec.cross]
      push_cast
      ext
      · simp
      · simp
      · simp; field_simp; ring
    · simp only [upperTri, Shape.areaVector, p0, p2, p3, Option.getD_some, Vec.cross]
      push_cast
      ext
      · simp
      · simp
      · simp; field_simp; ring
  refine ⟨?_, ?_, ?_, ?_⟩
  · intro c hc
    rw [area c hc]
    exact ⟨rfl, rfl, by positivity⟩
  · obtain ⟨s', hs', -, hcl, -⟩ := (C33_triangles (fun k => (k : ℝ)) n).2 hn
    obtain rfl : s = s' := Option.some.inj (h.symm.trans hs')
    rw [sum_const fun c hc => by rw [area c hc], hcl]
    push_cast
    field_simp
  · intro c hc c' hc' f f' w hf hf'
    have key : ∀ c ∈ s.cells, ∀ f, s.InTriangle c.2 f w → f = gridCoef triHat n w := by
      rintro ⟨i, c⟩ hc f hf
      obtain ⟨x, y, hx, hy, rfl | rfl⟩ := (mem_screenTriangles _ h).mp ⟨i, hc⟩
      · obtain ⟨a, b, -, -, -, -, e⟩ := (lower_iff hp hx hy f w).mp hf
        exact e
      · obtain ⟨a, b, -, -, -, -, e⟩ := (upper_iff hp hx hy f w).mp hf
        exact e
    have e : f = f' := (key c hc f hf).trans (key c' hc' f' hf').symm
    refine ⟨e, fun v hv => ⟨?_, ?_⟩⟩
    · by_contra hnm
      exact hv (hf.1.2.1 v hnm)
    · by_contra hnm
      rw [e] at hv
      exact hv (hf'.1.2.1 v hnm)
  · intro u v huv
    exact screen_edges (tri_screenEdges n) hp (screenTriangles_edges _ h) huv

/-- C35 for quadrilaterals. -/
theorem C35_quadrilaterals (h : screenQuadrilaterals (fun k => (k : ℝ)) n = some s) :
    (∀ c ∈ s.cells, (s.areaVector c.2).1 = 0 ∧ (s.areaVector c.2).2.1 = 0 ∧ 0 < (s.areaVector c.2).2.2) ∧
    (s.cells.map fun c => (s.areaVector c.2).2.2 / 2).sum = ((n : ℝ) / (n + 1)) * ((n : ℝ) / (n + 1)) ∧
    (∀ c ∈ s.cells, ∀ c' ∈ s.cells, ∀ f f' w, s.InQuadrilateral c.2 f w → s.InQuadrilateral c'.2 f' w →
      f = f' ∧ ∀ v, f v ≠ 0 → v ∈ c.2 ∧ v ∈ c'.2) ∧
    ∀ u v, (u, v) ∈ s.edges → s.edges.count (u, v) = 1 ∧ ∃ a b, s.at u = some a ∧ s.at v = some b ∧
      (OnBoundary ((n : ℝ) / (n + 1)) a b → s.edges.count (v, u) = 0) ∧
      (¬ OnBoundary ((n : ℝ) / (n + 1)) a b → s.edges.count (v, u) = 1) := by
  obtain ⟨hn, hp, hc⟩ := screenQuadrilaterals_eq _ h
  have hm : (n : ℝ) + 1 ≠ 0 := by positivity
  have area : ∀ c ∈ s.cells, s.areaVector c.2 = (0, 0, 2 / (((n : ℝ) + 1) * ((n : ℝ) + 1))) := by
    rintro ⟨i, c⟩ hc
    obtain ⟨x, y, hx, hy, rfl⟩ := (mem_screenQuadrilaterals _ h).mp ⟨i, hc⟩
    have p0 := screen_pos hp (by omega : x < n + 1) (by omega : y < n + 1)
    have p1 := screen_pos hp (by omega : x + 1 < n + 1) (by omega : y < n + 1)
    have p2 := screen_pos hp (by omega : x < n + 1) (by omega : y + 1 < n + 1)
    have p3 := screen_pos hp (by omega : x + 1 < n + 1) (by omega : y + 1 < n + 1)
    simp only [squareQuad, Shape.areaVector, p0, p1, p2, p3, Option.getD_some, Vec.cross]
    push_cast
    ext
    · simp
    · simp
    · simp; field_simp; ring
  refine ⟨?_, ?_, ?_, ?_⟩
  · intro c hc
    rw [area c hc]
    exact ⟨rfl, rfl, by positivity⟩
  · obtain ⟨s', hs', -, hcl, -⟩ := (C33_quadrilaterals (fun k => (k : ℝ)) n).2 hn
    obtain rfl : s = s' := Option.some.inj (h.symm.trans hs')
    rw [sum_const fun c hc => by rw [area c hc], hcl]
    push_cast
    field_simp
  · intro c hc c' hc' f f' w hf hf'
    have key : ∀ c ∈ s.cells, ∀ f, s.InQuadrilateral c.2 f w → f = gridCoef quadHat n w := by
      rintro ⟨i, c⟩ hc f hf
      obtain ⟨x, y, hx, hy, rfl⟩ := (mem_screenQuadrilaterals _ h).mp ⟨i, hc⟩
      obtain ⟨a, b, -, -, -, -, -, e⟩ := (quad_iff hp hx hy f w).mp hf
      exact e
    have e : f = f' := (key c hc f hf).trans (key c' hc' f' hf').symm
    refine ⟨e, fun v hv => ⟨?_, ?_⟩⟩
    · by_contra hnm
      exact hv (hf.1.2.1 v hnm)
    · by_contra hnm
      rw [e] at hv
      exact hv (hf'.1.2.1 v hnm)
  · intro u v huv
    exact screen_edges (quad_screenEdges n) hp (screenQuadrilaterals_edges _ h) huv

/-- The middle of the first square is in the screen, and it is in both of its triangles. -/
example : ∃ s, screenTriangles (fun k => (k : ℝ)) 1 = some s ∧
    ∃ f, s.InTriangle [0, 1, 3] f (1 / 4, 1 / 4, 0) ∧ s.InTriangle [0, 3, 2] f (1 / 4, 1 / 4, 0) := by
  obtain ⟨s, hs⟩ := screenTriangles_some (fun k => (k : ℝ)) (by norm_num : 0 < 1)
  have hp := (screenTriangles_eq _ hs).2.1
  refine ⟨s, hs, gridCoef triHat 1 (1 / 4, 1 / 4, 0), ?_, ?_⟩
  · exact (lower_iff hp (x := 0) (y := 0) (by norm_num) (by norm_num) _ _).mpr
      ⟨1 / 2, 1 / 2, by norm_num, le_refl _, by norm_num, by norm_num, rfl⟩
  · exact (upper_iff hp (x := 0) (y := 0) (by norm_num) (by norm_num) _ _).mpr
      ⟨1 / 2, 1 / 2, by norm_num, le_refl _, by norm_num, by norm_num, rfl⟩

end
end Bempp
