import Verif.Proofs.Screen
import Mathlib.Algebra.Order.Floor.Semiring
import Mathlib.Tactic.Module
/-
The points of the cells of a screen.
-/
set_option linter.unusedSectionVars false
set_option linter.unusedVariables false

namespace Bempp

section
variable {n : Nat} {s : Shape ℝ}

/-- The side length of the covered square. -/
noncomputable def covered (n : Nat) : ℝ := (n : ℝ) / (n + 1 : ℝ)

theorem screen_pos (hs : s.points = screenPoints (fun k => (k : ℝ)) n) {x y : Nat} (hx : x < n + 1)
    (hy : y < n + 1) : s.at (gridPoint n x y) = some ((x : ℝ) / (n + 1), (y : ℝ) / (n + 1), 0) := by
  have := screen_at (fun k => (k : ℝ)) hs hx hy
  rw [gridPoint, this]
  push_cast
  rfl

/-- The function that is 1 at the origin, 0 at all other points with integer coordinates and linear on triangles. -/
noncomputable def triHat (u v : ℝ) : ℝ := max 0 (1 - max |u| (max |v| |u - v|))

/-- The same for squares. -/
noncomputable def quadHat (u v : ℝ) : ℝ := max 0 (1 - |u|) * max 0 (1 - |v|)

theorem triHat_zero {u v : ℝ} (h : 1 ≤ u ∨ u ≤ -1 ∨ 1 ≤ v ∨ v ≤ -1 ∨ 1 ≤ u - v ∨ u - v ≤ -1) : triHat u v = 0 := by
  unfold triHat
  apply max_eq_left
  have h1 : |u| ≤ max |u| (max |v| |u - v|) := le_max_left _ _
  have h2 : |v| ≤ max |u| (max |v| |u - v|) := (le_max_left _ _).trans (le_max_right _ _)
  have h3 : |u - v| ≤ max |u| (max |v| |u - v|) := (le_max_right _ _).trans (le_max_right _ _)
  have a1 := le_abs_self u
  have a2 := neg_abs_le u
  have a3 := le_abs_self v
  have a4 := neg_abs_le v
  have a5 := le_abs_self (u - v)
  have a6 := neg_abs_le (u - v)
  rcases h with h | h | h | h | h | h <;> linarith

theorem quadHat_zero {u v : ℝ} (h : 1 ≤ u ∨ u ≤ -1 ∨ 1 ≤ v ∨ v ≤ -1) : quadHat u v = 0 := by
  unfold quadHat
  have a1 := le_abs_self u
  have a2 := neg_abs_le u
  have a3 := le_abs_self v
  have a4 := neg_abs_le v
  rcases h with h | h | h | h
  · rw [max_eq_left (by linarith : 1 - |u| ≤ 0), zero_mul]
  · rw [max_eq_left (by linarith : 1 - |u| ≤ 0), zero_mul]
  · rw [max_eq_left (by linarith : 1 - |v| ≤ 0), mul_zero]
  · rw [max_eq_left (by linarith : 1 - |v| ≤ 0), mul_zero]

theorem triHat_eq {u v c : ℝ} (h0 : 0 ≤ c) (h1 : |u| ≤ 1 - c) (h2 : |v| ≤ 1 - c) (h3 : |u - v| ≤ 1 - c)
    (h : |u| = 1 - c ∨ |v| = 1 - c ∨ |u - v| = 1 - c) : triHat u v = c := by
  unfold triHat
  have : max |u| (max |v| |u - v|) = 1 - c := by
    apply le_antisymm (max_le h1 (max_le h2 h3))
    rcases h with h | h | h
    · rw [← h]; exact le_max_left _ _
    · rw [← h]; exact (le_max_left _ _).trans (le_max_right _ _)
    · rw [← h]; exact (le_max_right _ _).trans (le_max_right _ _)
  rw [this, sub_sub_cancel, max_eq_right h0]

/-- The coefficients that belong to a point of the plane. -/
noncomputable def gridCoef (hat : ℝ → ℝ → ℝ) (n : Nat) (w : Vec) (v : Nat) : ℝ :=
  if v < (n + 1) * (n + 1) then
    hat ((n + 1) * w.1 - ((v % (n + 1) : Nat) : ℝ)) ((n + 1) * w.2.1 - ((v / (n + 1) : Nat) : ℝ)) else 0

theorem gridCoef_at (hat : ℝ → ℝ → ℝ) {n i j : Nat} (hi : i < n + 1) (hj : j < n + 1) (w : Vec) :
    gridCoef hat n w (gridPoint n i j) = hat ((n + 1) * w.1 - i) ((n + 1) * w.2.1 - j) := by
  unfold gridCoef
  rw [if_pos (gridPoint_lt hi hj)]
  unfold gridPoint
  rw [grid_mod hi, grid_div hi]

theorem nat_far {i x : Nat} (h : i ≠ x) (h' : i ≠ x + 1) : (i : ℝ) + 1 ≤ x ∨ (x : ℝ) + 2 ≤ i := by
  rcases Nat.lt_or_ge i x with h1 | h1
  · left; exact_mod_cast h1
  · right; exact_mod_cast (by omega : x + 2 ≤ i)

theorem scaled_coord (k a : ℝ) : ((n : ℝ) + 1) * ((k + a) / (n + 1)) = k + a := by
  have : (n : ℝ) + 1 ≠ 0 := by positivity
  field_simp

/-- The points of the lower triangle. -/
theorem lower_iff (hs : s.points = screenPoints (fun k => (k : ℝ)) n) {x y : Nat} (hx : x < n) (hy : y < n)
    (f : Nat → ℝ) (w : Vec) : s.InTriangle (lowerTri n x y) f w ↔
    ∃ a b : ℝ, 0 ≤ b ∧ b ≤ a ∧ a ≤ 1 ∧ w = ((x + a) / (n + 1), (y + b) / (n + 1), 0) ∧
      f = gridCoef triHat n w := by
  have hm : (n : ℝ) + 1 ≠ 0 := by positivity
  have p0 := screen_pos hs (by omega : x < n + 1) (by omega : y < n + 1)
  have p1 := screen_pos hs (by omega : x + 1 < n + 1) (by omega : y < n + 1)
  have p2 := screen_pos hs (by omega : x + 1 < n + 1) (by omega : y + 1 < n + 1)
  have vals : ∀ a b : ℝ, 0 ≤ b → b ≤ a → a ≤ 1 →
      gridCoef triHat n ((x + a) / (n + 1), (y + b) / (n + 1), 0) (gridPoint n x y) = 1 - a ∧
      gridCoef triHat n ((x + a) / (n + 1), (y + b) / (n + 1), 0) (gridPoint n (x + 1) y) = a - b ∧
      gridCoef triHat n ((x + a) / (n + 1), (y + b) / (n + 1), 0) (gridPoint n (x + 1) (y + 1)) = b ∧
      ∀ v, v ∉ lowerTri n x y → gridCoef triHat n ((x + a) / (n + 1), (y + b) / (n + 1), 0) v = 0 := by
    intro a b hb hab ha
    refine ⟨?_, ?_, ?_, ?_⟩
    · rw [gridCoef_at _ (by omega) (by omega)]
      simp only [scaled_coord]
      apply triHat_eq (by linarith)
      · rw [abs_le]; constructor <;> linarith
      · rw [abs_le]; constructor <;> linarith
      · rw [abs_le]; constructor <;> linarith
      · left; rw [abs_of_nonneg] <;> linarith
    · rw [gridCoef_at _ (by omega) (by omega)]
      push_cast
      simp only [scaled_coord]
      apply triHat_eq (by linarith)
      · rw [abs_le]; constructor <;> linarith
      · rw [abs_le]; constructor <;> linarith
      · rw [abs_le]; constructor <;> linarith
      · right; right; rw [abs_of_nonpos] <;> linarith
    · rw [gridCoef_at _ (by omega) (by omega)]
      push_cast
      simp only [scaled_coord]
      apply triHat_eq (by linarith)
      · rw [abs_le]; constructor <;> linarith
      · rw [abs_le]; constructor <;> linarith
      · rw [abs_le]; constructor <;> linarith
      · right; left; rw [abs_of_nonpos] <;> linarith
    · intro v hv
      by_cases hlt : v < (n + 1) * (n + 1)
      · obtain ⟨i, j, hi, hj, rfl⟩ := grid_split hlt
        rw [← gridPoint, gridCoef_at _ hi hj]
        simp only [scaled_coord]
        rw [← gridPoint] at hv
        simp only [lowerTri, List.mem_cons, List.not_mem_nil, or_false, not_or,
          gridPoint_inj hi (by omega : x < n + 1), gridPoint_inj hi (by omega : x + 1 < n + 1)] at hv
        apply triHat_zero
        by_cases hix : i = x
        · subst hix
          by_cases hjy : j = y + 1
          · subst hjy
            push_cast
            right; right; right; right; left
            linarith
          · have hjy' : j ≠ y := fun h => hv.1 ⟨rfl, h⟩
            rcases nat_far hjy' hjy with h | h
            · right; right; left; linarith
            · right; right; right; left; linarith
        · by_cases hix' : i = x + 1
          · subst hix'
            have h1 : j ≠ y := fun h => hv.2.1 ⟨rfl, h⟩
            have h2 : j ≠ y + 1 := fun h => hv.2.2 ⟨rfl, h⟩
            rcases nat_far h1 h2 with h | h
            · right; right; left; linarith
            · right; right; right; left; linarith
          · rcases nat_far hix hix' with h | h
            · left; linarith
            · right; left; linarith
      · unfold gridCoef
        rw [if_neg hlt]
  unfold Shape.InTriangle Shape.Combination
  simp only [lowerTri, List.map_cons, List.map_nil, List.sum_cons, List.sum_nil, p0, p1, p2, Option.getD_some]
  constructor
  · rintro ⟨⟨h0, hz, hw⟩, hsum⟩
    have k0 := h0 (gridPoint n x y)
    have k1 := h0 (gridPoint n (x + 1) y)
    have k2 := h0 (gridPoint n (x + 1) (y + 1))
    refine ⟨f (gridPoint n (x + 1) y) + f (gridPoint n (x + 1) (y + 1)), f (gridPoint n (x + 1) (y + 1)), k2,
      by linarith, by linarith, ?_, ?_⟩
    · rw [hw]
      have e0 : f (gridPoint n x y) =
        1 - f (gridPoint n (x + 1) y) - f (gridPoint n (x + 1) (y + 1)) := by linarith
      rw [e0]
      push_cast
      ext
      · simp; field_simp; ring
      · simp; field_simp; ring
      · simp
    · have ew : w = ((x + (f (gridPoint n (x + 1) y) + f (gridPoint n (x + 1) (y + 1)))) / (n + 1),
          (y + f (gridPoint n (x + 1) (y + 1))) / (n + 1), 0) := by
        rw [hw]
        have e0 : f (gridPoint n x y) =
          1 - f (gridPoint n (x + 1) y) - f (gridPoint n (x + 1) (y + 1)) := by linarith
        rw [e0]
        push_cast
        ext
        · simp; field_simp; ring
        · simp; field_simp; ring
        · simp
      obtain ⟨v0, v1, v2, v3⟩ := vals (f (gridPoint n (x + 1) y) + f (gridPoint n (x + 1) (y + 1)))
        (f (gridPoint n (x + 1) (y + 1))) k2 (by linarith) (by linarith)
      rw [← ew] at v0 v1 v2 v3
      funext v
      by_cases hv : v ∈ lowerTri n x y
      · simp only [lowerTri, List.mem_cons, List.not_mem_nil, or_false] at hv
        rcases hv with rfl | rfl | rfl
        · rw [v0]; linarith
        · rw [v1]; ring
        · rw [v2]
      · rw [v3 v hv]
        exact hz v hv
  · rintro ⟨a, b, hb, hab, ha, rfl, rfl⟩
    obtain ⟨v0, v1, v2, v3⟩ := vals a b hb hab ha
    refine ⟨⟨?_, v3, ?_⟩, ?_⟩
    · intro v
      unfold gridCoef triHat
      split
      · exact le_max_left _ _
      · exact le_refl _
    · rw [v0, v1, v2]
      push_cast
      ext
      · simp; field_simp; ring
      · simp; field_simp; ring
      · simp
    · rw [v0, v1, v2]; ring

/-- The points of the upper triangle. -/
theorem upper_iff (hs : s.points = screenPoints (fun k => (k : ℝ)) n) {x y : Nat} (hx : x < n) (hy : y < n)
    (f : Nat → ℝ) (w : Vec) : s.InTriangle (upperTri n x y) f w ↔
    ∃ a b : ℝ, 0 ≤ a ∧ a ≤ b ∧ b ≤ 1 ∧ w = ((x + a) / (n + 1), (y + b) / (n + 1), 0) ∧
      f = gridCoef triHat n w := by
  have hm : (n : ℝ) + 1 ≠ 0 := by positivity
  have p0 := screen_pos hs (by omega : x < n + 1) (by omega : y < n + 1)
  have p1 := screen_pos hs (by omega : x < n + 1) (by omega : y + 1 < n + 1)
  have p2 := screen_pos hs (by omega : x + 1 < n + 1) (by omega : y + 1 < n + 1)
  have vals : ∀ a b : ℝ, 0 ≤ a → a ≤ b → b ≤ 1 →
      gridCoef triHat n ((x + a) / (n + 1), (y + b) / (n + 1), 0) (gridPoint n x y) = 1 - b ∧
      gridCoef triHat n ((x + a) / (n + 1), (y + b) / (n + 1), 0) (gridPoint n x (y + 1)) = b - a ∧
      gridCoef triHat n ((x + a) / (n + 1), (y + b) / (n + 1), 0) (gridPoint n (x + 1) (y + 1)) = a ∧
      ∀ v, v ∉ upperTri n x y → gridCoef triHat n ((x + a) / (n + 1), (y + b) / (n + 1), 0) v = 0 := by
    intro a b hb hab ha
    refine ⟨?_, ?_, ?_, ?_⟩
    · rw [gridCoef_at _ (by omega) (by omega)]
      simp only [scaled_coord]
      apply triHat_eq (by linarith)
      · rw [abs_le]; constructor <;> linarith
      · rw [abs_le]; constructor <;> linarith
      · rw [abs_le]; constructor <;> linarith
      · right; left; rw [abs_of_nonneg] <;> linarith
    · rw [gridCoef_at _ (by omega) (by omega)]
      push_cast
      simp only [scaled_coord]
      apply triHat_eq (by linarith)
      · rw [abs_le]; constructor <;> linarith
      · rw [abs_le]; constructor <;> linarith
      · rw [abs_le]; constructor <;> linarith
      · right; right; rw [abs_of_nonneg] <;> linarith
    · rw [gridCoef_at _ (by omega) (by omega)]
      push_cast
      simp only [scaled_coord]
      apply triHat_eq (by linarith)
      · rw [abs_le]; constructor <;> linarith
      · rw [abs_le]; constructor <;> linarith
      · rw [abs_le]; constructor <;> linarith
      · left; rw [abs_of_nonpos] <;> linarith
    · intro v hv
      by_cases hlt : v < (n + 1) * (n + 1)
      · obtain ⟨i, j, hi, hj, rfl⟩ := grid_split hlt
        rw [← gridPoint, gridCoef_at _ hi hj]
        simp only [scaled_coord]
        rw [← gridPoint] at hv
        simp only [upperTri, List.mem_cons, List.not_mem_nil, or_false, not_or,
          gridPoint_inj hi (by omega : x < n + 1), gridPoint_inj hi (by omega : x + 1 < n + 1)] at hv
        apply triHat_zero
        by_cases hix : i = x + 1
        · subst hix
          by_cases hjy : j = y
          · subst hjy
            push_cast
            right; right; right; right; right
            linarith
          · have hjy' : j ≠ y + 1 := fun h => hv.2.1 ⟨rfl, h⟩
            rcases nat_far hjy hjy' with h | h
            · right; right; left; linarith
            · right; right; right; left; linarith
        · by_cases hix' : i = x
          · subst hix'
            have h1 : j ≠ y := fun h => hv.1 ⟨rfl, h⟩
            have h2 : j ≠ y + 1 := fun h => hv.2.2 ⟨rfl, h⟩
            rcases nat_far h1 h2 with h | h
            · right; right; left; linarith
            · right; right; right; left; linarith
          · rcases nat_far hix' hix with h | h
            · left; linarith
            · right; left; linarith
      · unfold gridCoef
        rw [if_neg hlt]
  unfold Shape.InTriangle Shape.Combination
  simp only [upperTri, List.map_cons, List.map_nil, List.sum_cons, List.sum_nil, p0, p1, p2, Option.getD_some]
  constructor
  · rintro ⟨⟨h0, hz, hw⟩, hsum⟩
    have k0 := h0 (gridPoint n x y)
    have k1 := h0 (gridPoint n x (y + 1))
    have k2 := h0 (gridPoint n (x + 1) (y + 1))
    have ew : w = ((x + f (gridPoint n (x + 1) (y + 1))) / (n + 1),
        (y + (f (gridPoint n (x + 1) (y + 1)) + f (gridPoint n x (y + 1)))) / (n + 1), 0) := by
      rw [hw]
      have e0 : f (gridPoint n x y) =
        1 - f (gridPoint n (x + 1) (y + 1)) - f (gridPoint n x (y + 1)) := by linarith
      rw [e0]
      push_cast
      ext
      · simp; field_simp; ring
      · simp; field_simp; ring
      · simp
    refine ⟨f (gridPoint n (x + 1) (y + 1)), f (gridPoint n (x + 1) (y + 1)) + f (gridPoint n x (y + 1)), k2,
      by linarith, by linarith, ew, ?_⟩
    obtain ⟨v0, v1, v2, v3⟩ := vals (f (gridPoint n (x + 1) (y + 1)))
      (f (gridPoint n (x + 1) (y + 1)) + f (gridPoint n x (y + 1))) k2 (by linarith) (by linarith)
    rw [← ew] at v0 v1 v2 v3
    funext v
    by_cases hv : v ∈ upperTri n x y
    · simp only [upperTri, List.mem_cons, List.not_mem_nil, or_false] at hv
      rcases hv with rfl | rfl | rfl
      · rw [v0]; linarith
      · rw [v2]
      · rw [v1]; ring
    · rw [v3 v hv]
      exact hz v hv
  · rintro ⟨a, b, hb, hab, ha, rfl, rfl⟩
    obtain ⟨v0, v1, v2, v3⟩ := vals a b hb hab ha
    refine ⟨⟨?_, v3, ?_⟩, ?_⟩
    · intro v
      unfold gridCoef triHat
      split
      · exact le_max_left _ _
      · exact le_refl _
    · rw [v0, v1, v2]
      push_cast
      ext
      · simp; field_simp; ring
      · simp; field_simp; ring
      · simp
    · rw [v0, v1, v2]; ring

/-- The points of a square. -/
theorem quad_iff (hs : s.points = screenPoints (fun k => (k : ℝ)) n) {x y : Nat} (hx : x < n) (hy : y < n)
    (f : Nat → ℝ) (w : Vec) : s.InQuadrilateral (squareQuad n x y) f w ↔
    ∃ a b : ℝ, 0 ≤ a ∧ a ≤ 1 ∧ 0 ≤ b ∧ b ≤ 1 ∧ w = ((x + a) / (n + 1), (y + b) / (n + 1), 0) ∧
      f = gridCoef quadHat n w := by
  have hm : (n : ℝ) + 1 ≠ 0 := by positivity
  have p0 := screen_pos hs (by omega : x < n + 1) (by omega : y < n + 1)
  have p1 := screen_pos hs (by omega : x + 1 < n + 1) (by omega : y < n + 1)
  have p2 := screen_pos hs (by omega : x < n + 1) (by omega : y + 1 < n + 1)
  have p3 := screen_pos hs (by omega : x + 1 < n + 1) (by omega : y + 1 < n + 1)
  have near : ∀ a : ℝ, 0 ≤ a → a ≤ 1 → max 0 (1 - |a|) = 1 - a := by
    intro a h0 h1
    rw [abs_of_nonneg h0, max_eq_right (by linarith)]
  have far : ∀ a : ℝ, 0 ≤ a → a ≤ 1 → max 0 (1 - |a - 1|) = a := by
    intro a h0 h1
    rw [abs_of_nonpos (by linarith), max_eq_right (by linarith)]
    ring
  have c0 : ∀ (k : Nat) (a : ℝ), (k : ℝ) + a - k = a := fun k a => by ring
  have c1 : ∀ (k : Nat) (a : ℝ), (k : ℝ) + a - (k + 1) = a - 1 := fun k a => by ring
  have vals : ∀ a b : ℝ, 0 ≤ a → a ≤ 1 → 0 ≤ b → b ≤ 1 →
      gridCoef quadHat n ((x + a) / (n + 1), (y + b) / (n + 1), 0) (gridPoint n x y) = (1 - a) * (1 - b) ∧
      gridCoef quadHat n ((x + a) / (n + 1), (y + b) / (n + 1), 0) (gridPoint n (x + 1) y) = a * (1 - b) ∧
      gridCoef quadHat n ((x + a) / (n + 1), (y + b) / (n + 1), 0) (gridPoint n x (y + 1)) = (1 - a) * b ∧
      gridCoef quadHat n ((x + a) / (n + 1), (y + b) / (n + 1), 0) (gridPoint n (x + 1) (y + 1)) = a * b ∧
      ∀ v, v ∉ squareQuad n x y → gridCoef quadHat n ((x + a) / (n + 1), (y + b) / (n + 1), 0) v = 0 := by
    intro a b ha ha' hb hb'
    refine ⟨?_, ?_, ?_, ?_, ?_⟩
    · rw [gridCoef_at _ (by omega) (by omega)]
      simp only [scaled_coord, quadHat, c0, near a ha ha', near b hb hb']
    · rw [gridCoef_at _ (by omega) (by omega)]
      push_cast
      simp only [scaled_coord, quadHat, c0, c1, far a ha ha', near b hb hb']
    · rw [gridCoef_at _ (by omega) (by omega)]
      push_cast
      simp only [scaled_coord, quadHat, c0, c1, near a ha ha', far b hb hb']
    · rw [gridCoef_at _ (by omega) (by omega)]
      push_cast
      simp only [scaled_coord, quadHat, c1, far a ha ha', far b hb hb']
    · intro v hv
      by_cases hlt : v < (n + 1) * (n + 1)
      · obtain ⟨i, j, hi, hj, rfl⟩ := grid_split hlt
        rw [← gridPoint, gridCoef_at _ hi hj]
        simp only [scaled_coord]
        rw [← gridPoint] at hv
        simp only [squareQuad, List.mem_cons, List.not_mem_nil, or_false, not_or,
          gridPoint_inj hi (by omega : x < n + 1), gridPoint_inj hi (by omega : x + 1 < n + 1)] at hv
        apply quadHat_zero
        by_cases hix : i = x ∨ i = x + 1
        · have h1 : j ≠ y := by
            rintro rfl
            rcases hix with h | h
            · exact hv.1 ⟨h, rfl⟩
            · exact hv.2.1 ⟨h, rfl⟩
          have h2 : j ≠ y + 1 := by
            rintro rfl
            rcases hix with h | h
            · exact hv.2.2.1 ⟨h, rfl⟩
            · exact hv.2.2.2 ⟨h, rfl⟩
          rcases nat_far h1 h2 with h | h
          · right; right; left; linarith
          · right; right; right; linarith
        · push Not at hix
          rcases nat_far hix.1 hix.2 with h | h
          · left; linarith
          · right; left; linarith
      · unfold gridCoef
        rw [if_neg hlt]
  unfold Shape.InQuadrilateral Shape.Combination
  simp only [squareQuad, List.map_cons, List.map_nil, List.sum_cons, List.sum_nil, p0, p1, p2, p3,
    Option.getD_some, List.cons.injEq, and_true]
  constructor
  · rintro ⟨⟨h0, hz, hw⟩, a, b, ha, ha', hb, hb', e0, e1, e2, e3⟩
    have ew : w = ((x + a) / (n + 1), (y + b) / (n + 1), 0) := by
      rw [hw, e0, e1, e2, e3]
      push_cast
      ext
      · simp; field_simp; ring
      · simp; field_simp; ring
      · simp
    refine ⟨a, b, ha, ha', hb, hb', ew, ?_⟩
    obtain ⟨v0, v1, v2, v3, v4⟩ := vals a b ha ha' hb hb'
    rw [← ew] at v0 v1 v2 v3 v4
    funext v
    by_cases hv : v ∈ squareQuad n x y
    · simp only [squareQuad, List.mem_cons, List.not_mem_nil, or_false] at hv
      rcases hv with rfl | rfl | rfl | rfl
      · rw [v0, e0]
      · rw [v1, e1]
      · rw [v2, e2]
      · rw [v3, e3]
    · rw [v4 v hv]
      exact hz v hv
  · rintro ⟨a, b, ha, ha', hb, hb', rfl, rfl⟩
    obtain ⟨v0, v1, v2, v3, v4⟩ := vals a b ha ha' hb hb'
    refine ⟨⟨?_, v4, ?_⟩, a, b, ha, ha', hb, hb', v0, v1, v2, v3⟩
    · intro v
      unfold gridCoef quadHat
      split
      · exact mul_nonneg (le_max_left _ _) (le_max_left _ _)
      · exact le_refl _
    · rw [v0, v1, v2, v3]
      push_cast
      ext
      · simp; field_simp; ring
      · simp; field_simp; ring
      · simp

theorem coord_split {u : ℝ} (hn : 0 < n) (h0 : 0 ≤ u) (h1 : u ≤ covered n) :
    ∃ x : Nat, x < n ∧ ∃ a : ℝ, 0 ≤ a ∧ a ≤ 1 ∧ u = (x + a) / (n + 1) := by
  have hm : (0 : ℝ) < (n : ℝ) + 1 := by positivity
  have hu : (n + 1) * u ≤ n := by
    unfold covered at h1
    rw [le_div_iff₀ hm] at h1
    linarith
  have hu0 : 0 ≤ (n + 1) * u := by positivity
  have key : ∀ (x : Nat) (a : ℝ), (n + 1) * u = x + a → u = (x + a) / (n + 1) := by
    intro x a h
    rw [← h]
    field_simp
  by_cases hx : Nat.floor (((n : ℝ) + 1) * u) < n
  · refine ⟨_, hx, (n + 1) * u - Nat.floor (((n : ℝ) + 1) * u), ?_, ?_, key _ _ (by ring)⟩
    · have := Nat.floor_le hu0
      linarith
    · have := Nat.lt_floor_add_one (((n : ℝ) + 1) * u)
      linarith
  · have hge : (n : ℝ) ≤ (n + 1) * u := by
      have h1 : (n : ℝ) ≤ Nat.floor (((n : ℝ) + 1) * u) := by exact_mod_cast Nat.not_lt.mp hx
      have := Nat.floor_le hu0
      linarith
    refine ⟨n - 1, by omega, 1, by norm_num, le_refl _, key _ _ ?_⟩
    have : ((n - 1 : Nat) : ℝ) = n - 1 := by
      rw [Nat.cast_sub (by omega)]; norm_num
    rw [this]
    linarith

theorem coord_range {x : Nat} (hx : x < n) {a : ℝ} (h0 : 0 ≤ a) (h1 : a ≤ 1) :
    0 ≤ ((x : ℝ) + a) / (n + 1) ∧ ((x : ℝ) + a) / (n + 1) ≤ covered n := by
  have hm : (0 : ℝ) < (n : ℝ) + 1 := by positivity
  have hx' : (x : ℝ) + 1 ≤ n := by exact_mod_cast hx
  refine ⟨by positivity, ?_⟩
  unfold covered
  apply div_le_div_of_nonneg_right _ hm.le
  linarith

theorem covered_lt_one (n : Nat) : (n : ℝ) / (n + 1) < 1 := by
  rw [div_lt_one (by positivity)]
  linarith

theorem side_boundary {d : (Nat × Nat) × (Nat × Nat)} {a b : Vec}
    (ha : a = ((d.1.1 : ℝ) / (n + 1), (d.1.2 : ℝ) / (n + 1), 0))
    (hb : b = ((d.2.1 : ℝ) / (n + 1), (d.2.2 : ℝ) / (n + 1), 0)) :
    OnBoundary ((n : ℝ) / (n + 1)) a b ↔ OnSide n d := by
  have hm : (n : ℝ) + 1 ≠ 0 := by positivity
  have z : ∀ k : Nat, (k : ℝ) / (n + 1) = 0 ↔ k = 0 := by
    intro k
    rw [div_eq_zero_iff]
    simp [hm]
  have o : ∀ k : Nat, (k : ℝ) / (n + 1) = (n : ℝ) / (n + 1) ↔ k = n := by
    intro k
    rw [div_left_inj' hm, Nat.cast_inj]
  subst ha hb
  unfold OnBoundary OnSide
  simp only [z, o]

/-- Edges of a screen. -/
theorem screen_edges {l : List ((Nat × Nat) × (Nat × Nat))} (hl : ScreenEdges n l)
    (hp : s.points = screenPoints (fun k => (k : ℝ)) n) (he : s.edges = l.map (code n)) {u v : Nat}
    (huv : (u, v) ∈ s.edges) : s.edges.count (u, v) = 1 ∧ ∃ a b, s.at u = some a ∧ s.at v = some b ∧
      (OnBoundary ((n : ℝ) / (n + 1)) a b → s.edges.count (v, u) = 0) ∧
      (¬ OnBoundary ((n : ℝ) / (n + 1)) a b → s.edges.count (v, u) = 1) := by
  have nd : s.edges.Nodup := by
    rw [he]
    apply List.Nodup.map_on _ hl.nodup
    intro d hd d' hd' hdd
    have k1 := hl.lt d hd
    have k2 := hl.lt d' hd'
    exact code_inj k1.1 k1.2.2.1 k2.1 k2.2.2.1 hdd
  refine ⟨List.count_eq_one_of_mem nd huv, ?_⟩
  rw [he] at huv
  obtain ⟨d, hd, e⟩ := List.mem_map.mp huv
  obtain ⟨k1, k2, k3, k4⟩ := hl.lt d hd
  obtain ⟨rfl, rfl⟩ := Prod.mk.inj e
  refine ⟨_, _, screen_pos hp k1 k2, screen_pos hp k3 k4, ?_, ?_⟩
  · intro hb
    rw [side_boundary (d := d) rfl rfl] at hb
    rw [List.count_eq_zero, he]
    intro hm
    obtain ⟨d', hd', e'⟩ := List.mem_map.mp hm
    have k' := hl.lt d' hd'
    have : d' = (d.2, d.1) := code_inj k'.1 k'.2.2.1 k3 k1 e'
    rw [this] at hd'
    exact (hl.swap d hd).mp hd' hb
  · intro hb
    rw [side_boundary (d := d) rfl rfl] at hb
    apply List.count_eq_one_of_mem nd
    rw [he]
    exact List.mem_map.mpr ⟨_, (hl.swap d hd).mpr hb, rfl⟩

theorem sum_const {α : Type} {l : List α} {f : α → ℝ} {r : ℝ} (h : ∀ x ∈ l, f x = r) :
    (l.map f).sum = l.length * r := by
  induction l with
  | nil => simp
  | cons a l ih =>
    rw [List.map_cons, List.sum_cons, h a (by simp), ih fun x hx => h x (by simp [hx]), List.length_cons]
    push_cast
    ring

end
end Bempp
