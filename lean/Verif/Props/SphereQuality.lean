import Verif.Proofs.SphereQuality
/-
C85: the triangles of the regular spheres are well shaped at all levels.
-/
namespace Bempp

/-- One triangle: sides, angles at all corners, and distance of its plane from the origin. -/
theorem quality_of {n : Nat} {x y z : Vec} (h : NonObtuse (1 / 4 ^ n) x y z) (cx : cosine n ≤ Vec.dot x y)
    (cy : cosine n ≤ Vec.dot x z) (cz : cosine n ≤ Vec.dot y z) :
    2 / 4 ^ n ≤ Vec.distSq x y ∧ Vec.distSq x y ≤ 6 / (4 ^ n + 2) ∧ Real.pi / 6 ≤ Vec.angleAt x y z ∧
      Vec.angleAt x y z < Real.pi / 2 ∧
      4 ^ n / (4 ^ n + 2) * Vec.dot ((y - x).cross (z - x)) ((y - x).cross (z - x)) ≤
        Vec.dot x ((y - x).cross (z - x)) ^ 2 := by
  have h4 : (0 : ℝ) < 4 ^ n := by positivity
  have hm : (0 : ℝ) < 1 / 4 ^ n := by positivity
  have exy : Vec.distSq x y = 2 * (1 - Vec.dot x y) := dist_sq h.x1 h.y1
  have exz : Vec.distSq x z = 2 * (1 - Vec.dot x z) := dist_sq h.x1 h.z1
  have eyz : Vec.distSq y z = 2 * (1 - Vec.dot y z) := dist_sq h.y1 h.z1
  have lo : ∀ u : ℝ, u ≤ 1 - 1 / 4 ^ n → 2 / 4 ^ n ≤ 2 * (1 - u) := fun u hu => by
    rw [show (2 : ℝ) / 4 ^ n = 2 * (1 / 4 ^ n) by ring]
    linarith
  have up : ∀ u : ℝ, cosine n ≤ u → 2 * (1 - u) ≤ 6 / (4 ^ n + 2) := fun u hu => by
    rw [← one_sub_cosine]
    linarith
  have t : Vec.dot (y - x) (z - x) = 1 + Vec.dot y z - Vec.dot x y - Vec.dot x z := by
    have : Vec.dot (y - x) (z - x) = Vec.dot y z - Vec.dot x y - Vec.dot x z + Vec.dot x x := by
      simp only [Vec.dot, Prod.fst_sub, Prod.snd_sub]
      ring
    rw [this, h.x1]
    ring
  have tpos : 0 < Vec.dot (y - x) (z - x) := by
    rw [t]
    refine lt_of_lt_of_le ?_ h.flat
    exact mul_pos (by linarith [h.xym]) (by linarith [h.xzm])
  have eyx : Vec.distSq y x = Vec.distSq x y := by
    simp only [Vec.distSq, Vec.dot, Prod.fst_sub, Prod.snd_sub]
    ring
  have ezx : Vec.distSq z x = Vec.distSq x z := by
    simp only [Vec.distSq, Vec.dot, Prod.fst_sub, Prod.snd_sub]
    ring
  have G : Vec.dot ((y - x).cross (z - x)) ((y - x).cross (z - x)) =
      Vec.distSq x y * Vec.distSq x z - Vec.dot (y - x) (z - x) ^ 2 := by
    rw [lagrange, ← eyx, ← ezx]
    rfl
  have R := circumradius (α := Vec.distSq y z) (β := Vec.distSq x z) (γ := Vec.distSq x y) (M := 6 / (4 ^ n + 2))
    (by rw [eyz]; linarith [h.yzm]) (by rw [exz]; linarith [h.xzm]) (by rw [exy]; linarith [h.xym])
    (by rw [eyz]; exact up _ cz) (by rw [exz]; exact up _ cy) (by rw [exy]; exact up _ cx)
    (by rw [exy, exz, eyz]; linarith [h.flat'])
    (by rw [exy, exz, eyz]; have := h.swap.flat'; rw [dot_comm y x] at this; linarith)
    (by rw [exy, exz, eyz]; have := h.rotate.rotate.flat'; rw [dot_comm z x, dot_comm z y] at this; linarith)
  have G4 : 2 * (Vec.distSq y z * Vec.distSq x z + Vec.distSq x z * Vec.distSq x y + Vec.distSq x y * Vec.distSq y z) -
      Vec.distSq y z ^ 2 - Vec.distSq x z ^ 2 - Vec.distSq x y ^ 2 =
      4 * Vec.dot ((y - x).cross (z - x)) ((y - x).cross (z - x)) := by
    rw [G, t, exy, exz, eyz]
    ring
  rw [G4] at R
  have P := plane_distance h.x1 h.y1 h.z1
  have b1 := lo _ h.yzm
  rw [← eyz] at b1
  have p1 : 0 < Vec.distSq x y := by rw [exy]; linarith [h.xym]
  have p2 : 0 < Vec.distSq x z := by rw [exz]; linarith [h.xzm]
  have key : Vec.distSq x y * Vec.distSq x z ≤ 4 * Vec.dot ((y - x).cross (z - x)) ((y - x).cross (z - x)) := by
    set g := Vec.dot ((y - x).cross (z - x)) ((y - x).cross (z - x))
    have hprod := mul_pos p1 p2
    have r1 : 3 * (2 / 4 ^ n * (Vec.distSq x y * Vec.distSq x z)) ≤ 6 / (4 ^ n + 2) * (4 * g) := by
      have := mul_le_mul_of_nonneg_right b1 hprod.le
      linarith
    have r2 : (6 : ℝ) / (4 ^ n + 2) ≤ 6 / 4 ^ n := div_le_div_of_nonneg_left (by norm_num) h4 (by linarith)
    have g0 : 0 ≤ g := add_nonneg (add_nonneg (mul_self_nonneg _) (mul_self_nonneg _)) (mul_self_nonneg _)
    have r3 := mul_le_mul_of_nonneg_right r2 (show 0 ≤ 4 * g by linarith)
    have r4 : 6 / 4 ^ n * (Vec.distSq x y * Vec.distSq x z) ≤ 6 / 4 ^ n * (4 * g) := by
      rw [show (6 : ℝ) / 4 ^ n = 3 * (2 / 4 ^ n) by ring] at r3 ⊢
      linarith
    exact le_of_mul_le_mul_left r4 (by positivity)
  refine ⟨by rw [exy]; exact lo _ h.xym, by rw [exy]; exact up _ cx, ?_, ?_, ?_⟩
  · unfold Vec.angleAt
    rw [eyx, ezx]
    have hcos : Vec.dot (y - x) (z - x) / (Real.sqrt (Vec.distSq x y) * Real.sqrt (Vec.distSq x z)) ≤ Real.cos (Real.pi / 6) := by
      rw [Real.cos_pi_div_six, div_le_iff₀ (mul_pos (Real.sqrt_pos.mpr p1) (Real.sqrt_pos.mpr p2)), ← Real.sqrt_mul p1.le,
        div_mul_eq_mul_div, ← Real.sqrt_mul (by norm_num), le_div_iff₀ (by norm_num)]
      refine Real.le_sqrt_of_sq_le ?_
      linarith
    have := Real.arccos_le_arccos hcos
    rwa [Real.arccos_cos (by positivity) (by linarith [Real.pi_pos])] at this
  · unfold Vec.angleAt
    rw [Real.arccos_lt_pi_div_two, eyx, ezx]
    exact div_pos tpos (mul_pos (Real.sqrt_pos.mpr p1) (Real.sqrt_pos.mpr p2))
  · rw [show (4 : ℝ) ^ n / (4 ^ n + 2) = 1 - 6 / (4 ^ n + 2) / 3 by field_simp; ring]
    linarith

/-- **C85.** In `regular_sphere(n)`, in exact arithmetic: the square of the length of every side of every triangle is
between `2 / 4^n` and `6 / (4^n + 2)`, every angle is at least 30 degrees and less than 90 degrees, and the plane of every
triangle has a distance of at least `sqrt (4^n / (4^n + 2))` from the origin. The shapes of the triangles do not degenerate
when the grid is refined. -/
theorem C85_well_shaped (n : Nat) : ∃ s, realSphere n = some s ∧ ∀ c ∈ s.cells, ∃ i j k x y z,
    c.2 = [i, j, k] ∧ s.at i = some x ∧ s.at j = some y ∧ s.at k = some z ∧
    (∀ p q, (p, q) ∈ [(x, y), (y, z), (z, x)] → 2 / 4 ^ n ≤ Vec.distSq p q ∧ Vec.distSq p q ≤ 6 / (4 ^ n + 2)) ∧
    (∀ p q r, (p, q, r) ∈ [(x, y, z), (y, z, x), (z, x, y)] →
      Real.pi / 6 ≤ Vec.angleAt p q r ∧ Vec.angleAt p q r < Real.pi / 2) ∧
    4 ^ n / (4 ^ n + 2) * Vec.dot (Vec.cross (y - x) (z - x)) (Vec.cross (y - x) (z - x)) ≤
      Vec.dot x (Vec.cross (y - x) (z - x)) ^ 2 := by
  obtain ⟨s, e, h, hq⟩ := nonObtuse_state n
  refine ⟨s.shape, regularSphere_eq e, ?_⟩
  intro c hc
  obtain ⟨t, ht, ec⟩ := s.shape_mem hc
  obtain ⟨l0, l1, l2⟩ := h.inv.good.lt t ht
  rw [← h.inv.length] at l0 l1 l2
  have T := hq t ht
  obtain ⟨c1, c2, c3⟩ := h.width.le t ht
  refine ⟨t.p0, t.p1, t.p2, _, _, _, by rw [ec], SphereState.shape_pos l0, SphereState.shape_pos l1, SphereState.shape_pos l2, ?_⟩
  obtain ⟨a1, a2, a3, a4, a5⟩ := quality_of T c1 c3 c2
  obtain ⟨b1, b2, b3, b4, -⟩ := quality_of T.rotate c2 (by rwa [dot_comm]) (by rwa [dot_comm])
  obtain ⟨d1, d2, d3, d4, -⟩ := quality_of T.rotate.rotate (by rwa [dot_comm]) (by rwa [dot_comm]) c1
  refine ⟨?_, ?_, a5⟩
  · intro p q hpq
    simp only [List.mem_cons, Prod.mk.injEq, List.not_mem_nil, or_false] at hpq
    rcases hpq with ⟨rfl, rfl⟩ | ⟨rfl, rfl⟩ | ⟨rfl, rfl⟩
    · exact ⟨a1, a2⟩
    · exact ⟨b1, b2⟩
    · exact ⟨d1, d2⟩
  · intro p q r hpq
    simp only [List.mem_cons, Prod.mk.injEq, List.not_mem_nil, or_false] at hpq
    rcases hpq with ⟨rfl, rfl, rfl⟩ | ⟨rfl, rfl, rfl⟩ | ⟨rfl, rfl, rfl⟩
    · exact ⟨a3, a4⟩
    · exact ⟨b3, b4⟩
    · exact ⟨d3, d4⟩

/-! ### The hypotheses can be met -/

/-- C85 is about non-empty grids: the grid of level `n` has `8 * 4^n` triangles. -/
example (n : Nat) : ∃ s, realSphere n = some s ∧ s.cells.length = 8 * 4 ^ n ∧ ∃ c ∈ s.cells, c.2.length = 3 := by
  obtain ⟨s, hs, -, h, -, -⟩ := C30_sizes (1 / 2 : ℝ) Real.sqrt n
  obtain ⟨s', hs', h3, -⟩ := C31_closed_oriented (1 / 2 : ℝ) Real.sqrt n
  obtain rfl : s = s' := Option.some_inj.mp (hs.symm.trans hs')
  have hne : s.cells ≠ [] := by
    intro h0
    rw [h0] at h
    have : 0 < 4 ^ n := by positivity
    simp at h
  exact ⟨s, hs, h, _, List.head_mem hne, (h3 _ (List.head_mem hne)).1⟩

/-- C85, the octahedron: the angles of an equilateral triangle with sides of length `sqrt 2`. -/
example : Vec.distSq (1, 0, 0) (0, 1, 0) = 2 ∧ Vec.angleAt (1, 0, 0) (0, 1, 0) (0, 0, 1) = Real.pi / 3 := by
  constructor
  · norm_num [Vec.distSq, Vec.dot]
  · have e : Vec.dot ((0, 1, 0) - (1, 0, 0) : Vec) ((0, 0, 1) - (1, 0, 0)) /
        (Real.sqrt (Vec.distSq (0, 1, 0) (1, 0, 0)) * Real.sqrt (Vec.distSq (0, 0, 1) (1, 0, 0))) = Real.cos (Real.pi / 3) := by
      have h1 : Vec.distSq (0, 1, 0) (1, 0, 0) = 2 := by norm_num [Vec.distSq, Vec.dot]
      have h2 : Vec.distSq (0, 0, 1) (1, 0, 0) = 2 := by norm_num [Vec.distSq, Vec.dot]
      rw [h1, h2, Real.mul_self_sqrt (by norm_num), Real.cos_pi_div_three]
      norm_num [Vec.dot]
    rw [Vec.angleAt, e, Real.arccos_cos (by positivity) (by linarith [Real.pi_pos])]

end Bempp
