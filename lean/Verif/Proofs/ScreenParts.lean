import Verif.Spec.Symmetric
import Verif.Proofs.Screen
/-
A square block of a screen is a smaller screen.
-/
set_option linter.unusedVariables false

namespace Bempp

section
variable {T : Type} [Zero T] [Div T] (fromNat : Nat → T) {n : Nat} {s : Shape T}

theorem screenQuadrilaterals_list (h : screenQuadrilaterals fromNat n = some s) :
    s.cells = (List.range (n * n)).map fun k => (k, squareQuad n (k % n) (k / n)) := by
  rw [(screenQuadrilaterals_eq fromNat h).2.2, ← range_grid]
  apply List.flatMap_congr
  intro y hy
  apply List.map_congr_left
  intro x hx
  have hx := List.mem_range.mp hx
  rw [grid_mod hx, grid_div hx]

/-- The corners of triangle number `k`. -/
def halfSquare (n k : Nat) : List Nat :=
  if k % 2 = 0 then lowerTri n (k / 2 % n) (k / 2 / n) else upperTri n (k / 2 % n) (k / 2 / n)

theorem screenTriangles_list (h : screenTriangles fromNat n = some s) :
    s.cells = (List.range (2 * (n * n))).map fun k => (k, halfSquare n k) := by
  rw [(screenTriangles_eq fromNat h).2.2, ← range_double, List.map_flatMap, ← range_pairs]
  apply List.flatMap_congr
  intro y hy
  apply List.flatMap_congr
  intro x hx
  have hx := List.mem_range.mp hx
  have e1 : 2 * (y * n + x) % 2 = 0 := by omega
  have e2 : (2 * (y * n + x) + 1) % 2 = 1 := by omega
  have e3 : 2 * (y * n + x) / 2 = y * n + x := by omega
  have e4 : (2 * (y * n + x) + 1) / 2 = y * n + x := by omega
  simp only [List.map_cons, List.map_nil, halfSquare, e1, e2, e3, e4, grid_mod hx, grid_div hx]
  rfl

end

/-- The number in an array with `n` columns of the place that has the number `v` in a block with `m` columns whose
first place is in column `a` and row `b`. -/
def blockPlace (m n a b v : Nat) : Nat := (v / m + b) * n + (v % m + a)

theorem blockPlace_at {m n a b x y : Nat} (hx : x < m) : blockPlace m n a b (y * m + x) = (y + b) * n + (x + a) := by
  rw [blockPlace, grid_mod hx, grid_div hx]

theorem blockPlace_inj {m n a b v w : Nat} (hm : a + m ≤ n) (hv : v < m * m) (hw : w < m * m)
    (e : blockPlace m n a b v = blockPlace m n a b w) : v = w := by
  obtain ⟨x, y, hx, hy, rfl⟩ := grid_split hv
  obtain ⟨x', y', hx', hy', rfl⟩ := grid_split hw
  rw [blockPlace_at hx, blockPlace_at hx'] at e
  obtain ⟨e1, e2⟩ := grid_inj (by omega) (by omega) e
  obtain rfl : x = x' := by omega
  obtain rfl : y = y' := by omega
  rfl

theorem gridPoint_block {m n a b x y : Nat} (hx : x < m + 1) :
    blockPlace (m + 1) (n + 1) a b (gridPoint m x y) = gridPoint n (x + a) (y + b) :=
  blockPlace_at hx

theorem block_point {m n a b : Nat} {s s' : Shape ℝ} (ha : a + m ≤ n) (hb : b + m ≤ n)
    (hs : s.points = screenPoints (fun k => (k : ℝ)) m) (hs' : s'.points = screenPoints (fun k => (k : ℝ)) n)
    {v : Nat} {x : Vec} (hx : s.at v = some x) : s'.at (blockPlace (m + 1) (n + 1) a b v) =
      some (AffineMap3 ((m + 1) / (n + 1)) (fun i j => if i = j then 1 else 0)
        (fun i => if i = 0 then a / (n + 1) else if i = 1 then b / (n + 1) else 0) x) := by
  have hv : v < (m + 1) * (m + 1) := by
    by_contra hc
    have : s.points.length = (m + 1) * (m + 1) := by rw [hs, screenPoints_eq, List.length_map, List.length_range]
    unfold Shape.at at hx
    rw [List.getElem?_eq_none (by omega)] at hx
    cases hx
  obtain ⟨i, j, hi, hj, rfl⟩ := grid_split hv
  rw [screen_at _ hs hi hj] at hx
  obtain rfl := Option.some.inj hx
  rw [blockPlace_at hi, screen_at _ hs' (by omega) (by omega)]
  have h1 : ((m : ℝ) + 1) ≠ 0 := by positivity
  have h2 : ((n : ℝ) + 1) ≠ 0 := by positivity
  congr 1
  simp only [AffineMap3, if_true, if_false, one_mul, zero_mul, add_zero, zero_add, mul_zero, zero_ne_one, one_ne_zero,
    OfNat.zero_ne_ofNat, OfNat.one_ne_ofNat, OfNat.ofNat_ne_zero, OfNat.ofNat_ne_one]
  refine Prod.ext ?_ (Prod.ext ?_ rfl)
  · push_cast; field_simp
  · push_cast; field_simp

/-- A block of a screen of quadrilaterals. -/
theorem quadrilaterals_block {m n a b : Nat} {s s' : Shape ℝ} (ha : a + m ≤ n) (hb : b + m ≤ n)
    (hs : screenQuadrilaterals (fun k => (k : ℝ)) m = some s) (hs' : screenQuadrilaterals (fun k => (k : ℝ)) n = some s') :
    s.MovedInto s' (AffineMap3 ((m + 1) / (n + 1)) (fun i j => if i = j then 1 else 0)
      fun i => if i = 0 then a / (n + 1) else if i = 1 then b / (n + 1) else 0)
      (blockPlace (m + 1) (n + 1) a b) (blockPlace m n a b) := by
  obtain ⟨-, e1, -⟩ := screenQuadrilaterals_eq _ hs
  obtain ⟨-, e1', -⟩ := screenQuadrilaterals_eq _ hs'
  have e2 := screenQuadrilaterals_list _ hs
  have e2' := screenQuadrilaterals_list _ hs'
  have l1 : s.points.length = (m + 1) * (m + 1) := by rw [e1, screenPoints_eq, List.length_map, List.length_range]
  have l2 : s.cells.length = m * m := by rw [e2, List.length_map, List.length_range]
  refine ⟨fun v x hx => block_point ha hb e1 e1' hx, fun v w hv hw e => blockPlace_inj (by omega) (by omega) (by omega) e,
    fun k c hk => ?_, fun k l hk hl e => blockPlace_inj ha (by omega) (by omega) e⟩
  have hkl : k < m * m := by rw [← l2]; exact (List.getElem?_eq_some_iff.mp hk).1
  rw [e2, List.getElem?_map, List.getElem?_range hkl] at hk
  obtain rfl := Option.some.inj hk
  obtain ⟨x, y, hx, hy, rfl⟩ := grid_split hkl
  rw [blockPlace_at hx, e2', List.getElem?_map, List.getElem?_range (grid_lt (by omega) (by omega))]
  refine ⟨(y + b) * n + (x + a), ?_⟩
  dsimp only
  rw [Option.map_some, grid_mod hx, grid_div hx, grid_mod (by omega), grid_div (by omega)]
  congr 2
  simp only [squareQuad, List.map_cons, List.map_nil]
  rw [gridPoint_block (by omega), gridPoint_block (by omega), gridPoint_block (by omega), gridPoint_block (by omega)]
  simp only [show x + 1 + a = x + a + 1 by omega, show y + 1 + b = y + b + 1 by omega]

/-- A block of a screen of triangles. -/
theorem triangles_block {m n a b : Nat} {s s' : Shape ℝ} (ha : a + m ≤ n) (hb : b + m ≤ n)
    (hs : screenTriangles (fun k => (k : ℝ)) m = some s) (hs' : screenTriangles (fun k => (k : ℝ)) n = some s') :
    s.MovedInto s' (AffineMap3 ((m + 1) / (n + 1)) (fun i j => if i = j then 1 else 0)
      fun i => if i = 0 then a / (n + 1) else if i = 1 then b / (n + 1) else 0)
      (blockPlace (m + 1) (n + 1) a b) (fun k => 2 * blockPlace m n a b (k / 2) + k % 2) := by
  obtain ⟨-, e1, -⟩ := screenTriangles_eq _ hs
  obtain ⟨-, e1', -⟩ := screenTriangles_eq _ hs'
  have e2 := screenTriangles_list _ hs
  have e2' := screenTriangles_list _ hs'
  have l1 : s.points.length = (m + 1) * (m + 1) := by rw [e1, screenPoints_eq, List.length_map, List.length_range]
  have l2 : s.cells.length = 2 * (m * m) := by rw [e2, List.length_map, List.length_range]
  refine ⟨fun v x hx => block_point ha hb e1 e1' hx, fun v w hv hw e => blockPlace_inj (by omega) (by omega) (by omega) e,
    fun k c hk => ?_, fun k l hk hl e => ?_⟩
  · have hkl : k < 2 * (m * m) := by rw [← l2]; exact (List.getElem?_eq_some_iff.mp hk).1
    rw [e2, List.getElem?_map, List.getElem?_range hkl] at hk
    obtain rfl := Option.some.inj hk
    obtain ⟨x, y, hx, hy, e⟩ := grid_split (n := m) (v := k / 2) (by omega)
    have hlt : (y + b) * n + (x + a) < n * n := grid_lt (by omega) (by omega)
    dsimp only
    rw [e, blockPlace_at hx, e2', List.getElem?_map, List.getElem?_range (by omega)]
    refine ⟨2 * ((y + b) * n + (x + a)) + k % 2, ?_⟩
    rw [Option.map_some]
    congr 2
    unfold halfSquare
    rw [e, show (2 * ((y + b) * n + (x + a)) + k % 2) % 2 = k % 2 by omega,
      show (2 * ((y + b) * n + (x + a)) + k % 2) / 2 = (y + b) * n + (x + a) by omega, grid_mod hx, grid_div hx,
      grid_mod (by omega), grid_div (by omega)]
    split
    all_goals
      simp only [lowerTri, upperTri, List.map_cons, List.map_nil]
      rw [gridPoint_block (by omega), gridPoint_block (by omega), gridPoint_block (by omega)]
      simp only [show x + 1 + a = x + a + 1 by omega, show y + 1 + b = y + b + 1 by omega]
  · have h1 : k % 2 = l % 2 := by omega
    have h2 : blockPlace m n a b (k / 2) = blockPlace m n a b (l / 2) := by omega
    have := blockPlace_inj (b := b) ha (by omega) (by omega) h2
    omega

end Bempp
