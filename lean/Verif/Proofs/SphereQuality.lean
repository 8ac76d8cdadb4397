import Verif.Props.SphereWidth
import Verif.Spec.Quality
/-
The angles and sides of the triangles of the regular spheres.
-/
namespace Bempp

/-- A triangle on the unit sphere: the angles of its spherical triangle are not obtuse, and the squares of its sides are
at least `2 m`. -/
structure NonObtuse (m : ℝ) (x y z : Vec) : Prop where
  x1 : Vec.dot x x = 1
  y1 : Vec.dot y y = 1
  z1 : Vec.dot z z = 1
  xy0 : 0 ≤ Vec.dot x y
  xz0 : 0 ≤ Vec.dot x z
  yz0 : 0 ≤ Vec.dot y z
  xym : Vec.dot x y ≤ 1 - m
  xzm : Vec.dot x z ≤ 1 - m
  yzm : Vec.dot y z ≤ 1 - m
  ax : Vec.dot x y * Vec.dot x z ≤ Vec.dot y z
  ay : Vec.dot x y * Vec.dot y z ≤ Vec.dot x z
  az : Vec.dot x z * Vec.dot y z ≤ Vec.dot x y

theorem NonObtuse.swap {m : ℝ} {x y z : Vec} (h : NonObtuse m x y z) : NonObtuse m y x z := by
  obtain ⟨h1, h2, h3, h4, h5, h6, h7, h8, h9, h10, h11, h12⟩ := h
  constructor <;> (try rw [dot_comm y x]) <;> first | assumption | (rw [mul_comm]; assumption)

theorem NonObtuse.rotate {m : ℝ} {x y z : Vec} (h : NonObtuse m x y z) : NonObtuse m y z x := by
  obtain ⟨h1, h2, h3, h4, h5, h6, h7, h8, h9, h10, h11, h12⟩ := h
  constructor <;> (try rw [dot_comm y x]) <;> (try rw [dot_comm z x]) <;> first | assumption | (rw [mul_comm]; assumption)

/-- The middle of a side. -/
theorem middle_half {a b : Vec} {r : ℝ} (ha : Vec.dot a a = 1) (hb : Vec.dot b b = 1) (hab : 0 ≤ Vec.dot a b)
    (hr : 0 < r) (he : Vec.dot (r • (a + b)) (r • (a + b)) = 1) :
    ∃ p : ℝ, 0 < p ∧ p ≤ 1 ∧ Vec.dot a b = 2 * p ^ 2 - 1 ∧ r * (2 * p) = 1 ∧ Vec.dot a (r • (a + b)) = p ∧
      Vec.dot b (r • (a + b)) = p := by
  have e1 : Vec.dot (r • (a + b)) (r • (a + b)) = r * r * (Vec.dot a a + Vec.dot b b + 2 * Vec.dot a b) := by
    simp [Vec.dot]
    ring
  have e2 : Vec.dot a (r • (a + b)) = r * (Vec.dot a a + Vec.dot a b) := by
    simp [Vec.dot]
    ring
  have e3 : Vec.dot b (r • (a + b)) = r * (Vec.dot b b + Vec.dot a b) := by
    simp [Vec.dot]
    ring
  have hle := dot_le_one ha hb
  rw [e1, ha, hb] at he
  rw [ha] at e2
  rw [hb] at e3
  generalize Vec.dot a b = u at *
  refine ⟨r * (1 + u), by positivity, ?_, ?_, ?_, e2, e3⟩
  · by_contra hcon
    push Not at hcon
    have : 1 < (r * (1 + u)) * (r * (1 + u)) := by nlinarith
    nlinarith
  · nlinarith
  · nlinarith

/-- The spherical triangle has no obtuse angle, hence neither has the flat one. -/
theorem NonObtuse.flat {m : ℝ} {x y z : Vec} (h : NonObtuse m x y z) :
    (1 - Vec.dot x y) * (1 - Vec.dot x z) ≤ 1 + Vec.dot y z - Vec.dot x y - Vec.dot x z := by
  nlinarith [h.ax]

/-- The square of the segment between the middles of two sides, in terms of half angles. -/
theorem middle_bound {p q r : ℝ} (hp : 0 < p) (hq : 0 < q) (hp1 : p ≤ 1) (hq1 : q ≤ 1) (hqr : p ^ 2 + r ^ 2 ≤ 1 + q ^ 2)
    (hpr : q ^ 2 + r ^ 2 ≤ 1 + p ^ 2) : p ^ 2 + q ^ 2 + r ^ 2 - 1 ≤ (1 + r ^ 2) * (p * q) := by
  have hpq : p * q ≤ 1 := by nlinarith
  rcases le_total q p with h | h
  · have h1 : (1 - p * q) * r ^ 2 ≤ (1 - p * q) * (1 + q ^ 2 - p ^ 2) :=
      mul_le_mul_of_nonneg_left (by linarith) (by linarith)
    have h2 : 0 ≤ q * ((p - q) * (2 - p ^ 2 - p * q)) :=
      mul_nonneg hq.le (mul_nonneg (by linarith) (by nlinarith))
    nlinarith
  · have h1 : (1 - p * q) * r ^ 2 ≤ (1 - p * q) * (1 + p ^ 2 - q ^ 2) :=
      mul_le_mul_of_nonneg_left (by linarith) (by linarith)
    have h2 : 0 ≤ p * ((q - p) * (2 - q ^ 2 - p * q)) :=
      mul_nonneg hp.le (mul_nonneg (by linarith) (by nlinarith))
    nlinarith

theorem half_bound {t m : ℝ} (h : 2 * t ^ 2 - 1 ≤ 1 - m) : t ≤ 1 - m / 4 := by
  nlinarith [sq_nonneg (1 - t)]

theorem edge_bound {a b c m : ℝ} (ha : 0 < a) (hb : 0 < b) (h : a ^ 2 + b ^ 2 + c ^ 2 - 1 ≤ (1 + c ^ 2) * (a * b))
    (hm : 2 * c ^ 2 - 1 ≤ 1 - m) : (a ^ 2 + b ^ 2 + c ^ 2 - 1) / (2 * a * b) ≤ 1 - m / 4 := by
  rw [div_le_iff₀ (by positivity)]
  have := mul_le_mul_of_nonneg_right hm (mul_nonneg ha.le hb.le)
  linarith

theorem old_corner {a b c : ℝ} (ha : 0 < a) (hb : 0 < b) (h : (2 * a ^ 2 - 1) * (2 * b ^ 2 - 1) ≤ 2 * c ^ 2 - 1) :
    a * b ≤ (a ^ 2 + b ^ 2 + c ^ 2 - 1) / (2 * a * b) := by
  rw [le_div_iff₀ (by positivity)]
  linarith

theorem new_corner {a b c : ℝ} (ha : 0 < a) (hb : 0 < b) (h : a ^ 2 + c ^ 2 ≤ 1 + b ^ 2) :
    a * ((a ^ 2 + b ^ 2 + c ^ 2 - 1) / (2 * a * b)) ≤ b := by
  rw [mul_div_assoc', div_le_iff₀ (by positivity)]
  have := mul_le_mul_of_nonneg_left h ha.le
  linarith

theorem middle_corner {a b c : ℝ} (ha : 0 < a) (hb : 0 < b) (hc : 0 < c) (h : b ^ 2 + c ^ 2 ≤ 1 + a ^ 2)
    (h0 : 0 ≤ a ^ 2 + b ^ 2 + c ^ 2 - 1) :
    (a ^ 2 + b ^ 2 + c ^ 2 - 1) / (2 * a * b) * ((a ^ 2 + b ^ 2 + c ^ 2 - 1) / (2 * a * c)) ≤
      (a ^ 2 + b ^ 2 + c ^ 2 - 1) / (2 * b * c) := by
  set S := a ^ 2 + b ^ 2 + c ^ 2 - 1 with hS
  have e : S / (2 * b * c) = S / (2 * a * b) * (2 * a ^ 2 / (2 * a * c)) := by
    field_simp
  rw [e]
  refine mul_le_mul_of_nonneg_left ?_ (by positivity)
  refine div_le_div_of_nonneg_right ?_ (by positivity)
  rw [hS]
  linarith

theorem middle_dot {x y z : Vec} {p q r r₁ r₂ : ℝ} (hx : Vec.dot x x = 1) (hu : Vec.dot x y = 2 * p ^ 2 - 1)
    (hv : Vec.dot x z = 2 * q ^ 2 - 1) (hw : Vec.dot y z = 2 * r ^ 2 - 1) (h₁ : r₁ * (2 * p) = 1) (h₂ : r₂ * (2 * q) = 1)
    (hp : 0 < p) (hq : 0 < q) :
    Vec.dot (r₁ • (x + y)) (r₂ • (x + z)) = (p ^ 2 + q ^ 2 + r ^ 2 - 1) / (2 * p * q) := by
  have c : Vec.dot (r₁ • (x + y)) (r₂ • (x + z)) = r₁ * r₂ * (Vec.dot x x + Vec.dot x z + Vec.dot x y + Vec.dot y z) := by
    simp [Vec.dot]
    ring
  rw [c, hx, hu, hv, hw, eq_div_iff (by positivity)]
  linear_combination (p ^ 2 + q ^ 2 + r ^ 2 - 1) * (r₂ * (2 * q) * h₁ + h₂)

theorem NonObtuse.flat' {m : ℝ} {x y z : Vec} (h : NonObtuse m x y z) :
    Vec.dot x y + Vec.dot x z ≤ 1 + Vec.dot y z := by
  have h1 := dot_le_one h.x1 h.y1
  have h2 := dot_le_one h.x1 h.z1
  have := mul_nonneg (sub_nonneg.mpr h1) (sub_nonneg.mpr h2)
  linarith [h.flat]

/-- The part of a triangle at a corner. -/
theorem NonObtuse.corner {m r₁ r₂ : ℝ} {x y z : Vec} (h : NonObtuse m x y z) (h₁ : 0 < r₁) (h₂ : 0 < r₂)
    (e₁ : Vec.dot (r₁ • (x + y)) (r₁ • (x + y)) = 1) (e₂ : Vec.dot (r₂ • (x + z)) (r₂ • (x + z)) = 1) :
    NonObtuse (m / 4) x (r₁ • (x + y)) (r₂ • (x + z)) := by
  obtain ⟨p, p0, p1, pu, pr, pa, pb⟩ := middle_half h.x1 h.y1 h.xy0 h₁ e₁
  obtain ⟨q, q0, q1, qu, qr, qa, qb⟩ := middle_half h.x1 h.z1 h.xz0 h₂ e₂
  obtain ⟨r, r0, hr⟩ : ∃ r : ℝ, 0 ≤ r ∧ Vec.dot y z = 2 * r ^ 2 - 1 :=
    ⟨Real.sqrt ((1 + Vec.dot y z) / 2), Real.sqrt_nonneg _, by
      rw [Real.sq_sqrt (by have := h.yz0; linarith)]; ring⟩
  have c := middle_dot h.x1 pu qu hr pr qr p0 q0
  have f1 := h.flat'
  have f2 := h.swap.flat'
  have f3 := h.rotate.rotate.flat'
  have n1 := h.xy0
  have n2 := h.xz0
  have n3 := h.yz0
  have a1 := h.ax
  rw [dot_comm y x] at f2
  rw [dot_comm z x, dot_comm z y] at f3
  have m3 := h.yzm
  rw [hr] at f1 f2 f3 n3 a1 m3
  rw [pu] at f1 f2 f3 n1 a1
  rw [qu] at f1 f2 f3 n2 a1
  have S0 : 0 ≤ p ^ 2 + q ^ 2 + r ^ 2 - 1 := by linarith
  refine ⟨h.x1, e₁, e₂, ?_, ?_, ?_, ?_, ?_, ?_, ?_, ?_, ?_⟩
  · rw [pa]; exact p0.le
  · rw [qa]; exact q0.le
  · rw [c]; positivity
  · rw [pa]; exact half_bound (by rw [← pu]; exact h.xym)
  · rw [qa]; exact half_bound (by rw [← qu]; exact h.xzm)
  · rw [c]
    exact edge_bound p0 q0 (middle_bound p0 q0 p1 q1 (by linarith) (by linarith)) m3
  · rw [pa, qa, c]
    exact old_corner p0 q0 a1
  · rw [pa, qa, c]
    exact new_corner p0 q0 (by linarith)
  · rw [pa, qa, c, show p ^ 2 + q ^ 2 + r ^ 2 - 1 = q ^ 2 + p ^ 2 + r ^ 2 - 1 by ring, show 2 * p * q = 2 * q * p by ring]
    exact new_corner q0 p0 (by linarith)

/-- The part in the middle of a triangle. -/
theorem NonObtuse.middle {m r₁ r₂ r₃ : ℝ} {x y z : Vec} (h : NonObtuse m x y z) (h₁ : 0 < r₁) (h₂ : 0 < r₂) (h₃ : 0 < r₃)
    (e₁ : Vec.dot (r₁ • (x + y)) (r₁ • (x + y)) = 1) (e₂ : Vec.dot (r₂ • (x + z)) (r₂ • (x + z)) = 1)
    (e₃ : Vec.dot (r₃ • (y + z)) (r₃ • (y + z)) = 1) :
    NonObtuse (m / 4) (r₁ • (x + y)) (r₂ • (x + z)) (r₃ • (y + z)) := by
  have A := h.corner h₁ h₂ e₁ e₂
  have B := h.rotate.corner h₃ h₁ e₃ (by rwa [add_comm y x])
  have C := h.rotate.rotate.corner h₂ h₃ (by rwa [add_comm z x]) (by rwa [add_comm z y])
  rw [add_comm y x] at B
  rw [add_comm z x, add_comm z y] at C
  obtain ⟨p, p0, p1, pu, pr, pa, pb⟩ := middle_half h.x1 h.y1 h.xy0 h₁ e₁
  obtain ⟨q, q0, q1, qu, qr, qa, qb⟩ := middle_half h.x1 h.z1 h.xz0 h₂ e₂
  obtain ⟨r, r0, r1, ru, rr, ra, rb⟩ := middle_half h.y1 h.z1 h.yz0 h₃ e₃
  have c12 := middle_dot h.x1 pu qu ru pr qr p0 q0
  have c13 := middle_dot h.y1 (by rwa [dot_comm]) ru qu pr rr p0 r0
  have c23 := middle_dot h.z1 (by rwa [dot_comm]) (by rwa [dot_comm]) pu qr rr q0 r0
  rw [add_comm y x] at c13
  rw [add_comm z x, add_comm z y] at c23
  have f1 := h.flat'
  have f2 := h.swap.flat'
  have f3 := h.rotate.rotate.flat'
  have n1 := h.xy0
  have n2 := h.xz0
  have n3 := h.yz0
  rw [dot_comm y x] at f2
  rw [dot_comm z x, dot_comm z y] at f3
  rw [ru] at f1 f2 f3 n3
  rw [pu] at f1 f2 f3 n1
  rw [qu] at f1 f2 f3 n2
  have S0 : 0 ≤ p ^ 2 + q ^ 2 + r ^ 2 - 1 := by linarith
  refine ⟨e₁, e₂, e₃, A.yz0, ?_, C.yz0, A.yzm, ?_, C.yzm, ?_, ?_, ?_⟩
  · rw [dot_comm]; exact B.yz0
  · rw [dot_comm]; exact B.yzm
  · rw [c12, c13, c23]
    have := middle_corner p0 q0 r0 (by linarith) S0
    convert this using 2 <;> ring
  · rw [c12, c13, c23]
    have := middle_corner q0 p0 r0 (by linarith) (by linarith)
    convert this using 2 <;> ring
  · rw [c12, c13, c23]
    have := middle_corner r0 p0 q0 (by linarith) (by linarith)
    convert this using 2 <;> ring

/-- No angle of a triangle of a regular sphere is obtuse, and no side is short. -/
theorem nonObtuse_state (n : Nat) :
    ∃ s, (List.range n).foldlM (fun s _ => refineLevel (1 / 2) Real.sqrt s) (octahedronStart (T := ℝ)) = some s ∧
      RealInv n s ∧ ∀ t ∈ s.cells, NonObtuse (1 / 4 ^ n) (s.pos t.p0) (s.pos t.p1) (s.pos t.p2) := by
  induction n with
  | zero =>
    refine ⟨_, rfl, ⟨⟨rfl, rfl, octahedron_good⟩, octahedron_outward, octahedron_covers, octahedron_unique,
      octahedron_width⟩, ?_⟩
    intro t ht
    change t ∈ octCells at ht
    simp only [octCells, List.mem_cons, List.not_mem_nil, or_false] at ht
    rcases ht with rfl | rfl | rfl | rfl | rfl | rfl | rfl | rfl <;>
      constructor <;> simp [octahedron_pos, Vec.dot]
  | succ n ih =>
    obtain ⟨s, e, h, hq⟩ := ih
    obtain ⟨s', e', h'⟩ := refineLevel_real h
    obtain ⟨s'', e'', -, -, hc, -, -⟩ :=
      refineLevel_eq (half := (1 / 2 : ℝ)) (sqrt := Real.sqrt) h.inv.length h.inv.good.lt
    obtain rfl : s' = s'' := Option.some.inj (e'.symm.trans e'')
    have hr := refined_points h.inv e'
    refine ⟨s', ?_, h', ?_⟩
    · rw [List.range_succ, List.foldlM_append, e]
      simpa using e'
    intro x hx
    rw [hc] at hx
    obtain ⟨t, ht, hx⟩ := List.mem_flatMap.mp hx
    obtain ⟨l0, l1, l2⟩ := h.inv.good.lt t ht
    obtain ⟨d1, d2, d3, -⟩ := h.inv.good.tri_edges ht
    have q0 := hr.old _ l0
    have q1 := hr.old _ l1
    have q2 := hr.old _ l2
    have q3 := hr.scaled d1
    have q4 := hr.scaled d2
    have q5 := hr.scaled d3
    have u : ∀ a b : Vec, a + b ≠ 0 → Vec.dot (scale a b • (a + b)) (scale a b • (a + b)) = 1 := fun a b hab => by
      rw [← newPoint_eq]
      exact newPoint_unit hab
    have u1 := u _ _ (h.outward.sum_ne d1)
    have u2 := u _ _ (h.outward.sum_ne d2)
    have u3 := u _ _ (h.outward.sum_ne d3)
    have p1 := scale_pos (h.outward.sum_ne d1)
    have p2 := scale_pos (h.outward.sum_ne d2)
    have p3 := scale_pos (h.outward.sum_ne d3)
    have T := hq t ht
    dsimp only at q3 q4 q5 u1 u2 u3 p1 p2 p3
    rw [show (1 : ℝ) / 4 ^ (n + 1) = 1 / 4 ^ n / 4 by rw [pow_succ]; field_simp]
    have A := T.corner p1 p3 u1 u3
    have B := T.rotate.corner p2 p1 u2 (by rwa [add_comm (s.pos t.p1)])
    have C := T.rotate.rotate.corner p3 p2 (by rwa [add_comm (s.pos t.p2)]) (by rwa [add_comm (s.pos t.p2)])
    have D := T.middle p1 p3 p2 u1 u3 u2
    rw [add_comm (s.pos t.p1) (s.pos t.p0)] at B
    rw [add_comm (s.pos t.p2) (s.pos t.p0), add_comm (s.pos t.p2) (s.pos t.p1)] at C
    rw [← q3, ← q5, ← q0] at A
    rw [← q3, ← q4, ← q1] at B
    rw [← q4, ← q5, ← q2] at C
    rw [← q3, ← q4, ← q5] at D
    simp only [subdivide, List.mem_cons, List.not_mem_nil, or_false] at hx
    rcases hx with rfl | rfl | rfl | rfl <;> dsimp only
    · exact A
    · exact B
    · exact C
    · exact D.rotate.rotate.swap.rotate

/-! ### Flat triangles with corners on the unit sphere -/

/-- The radius of the circle through the corners of a triangle without obtuse angle, with sides of squares at most `M`. -/
theorem circumradius {α β γ M : ℝ} (hα : 0 ≤ α) (hβ : 0 ≤ β) (hγ : 0 ≤ γ) (hαM : α ≤ M) (hβM : β ≤ M) (hγM : γ ≤ M)
    (h1 : α ≤ β + γ) (h2 : β ≤ α + γ) (h3 : γ ≤ α + β) :
    3 * (α * β * γ) ≤ M * (2 * (α * β + β * γ + γ * α) - α ^ 2 - β ^ 2 - γ ^ 2) := by
  have key : ∀ a b c : ℝ, 0 ≤ a → 0 ≤ b → a ≤ c → b ≤ c → c ≤ a + b →
      3 * (a * b) ≤ 2 * (a * b + b * c + c * a) - a ^ 2 - b ^ 2 - c ^ 2 := by
    intro a b c ha hb hac hbc hc
    nlinarith [mul_nonneg (sub_nonneg.mpr hac) (sub_nonneg.mpr hbc), mul_nonneg (sub_nonneg.mpr hac) (sub_nonneg.mpr hc),
      mul_nonneg (sub_nonneg.mpr hbc) (sub_nonneg.mpr hc)]
  set D := 2 * (α * β + β * γ + γ * α) - α ^ 2 - β ^ 2 - γ ^ 2 with hD
  have main : ∀ a b c : ℝ, 0 ≤ a → 0 ≤ b → a ≤ c → b ≤ c → c ≤ a + b → c ≤ M →
      2 * (a * b + b * c + c * a) - a ^ 2 - b ^ 2 - c ^ 2 = D → 3 * (a * b * c) ≤ M * D := by
    intro a b c ha hb hac hbc hc hM e
    have k := key a b c ha hb hac hbc hc
    rw [e] at k
    have hc0 : 0 ≤ c := ha.trans hac
    calc 3 * (a * b * c) = c * (3 * (a * b)) := by ring
      _ ≤ c * D := mul_le_mul_of_nonneg_left k hc0
      _ ≤ M * D := mul_le_mul_of_nonneg_right hM ((by positivity : (0 : ℝ) ≤ 3 * (a * b)).trans k)
  rcases le_total α γ with ag | ag <;> rcases le_total β γ with bg | bg <;> rcases le_total α β with ab | ab
  all_goals first
    | exact main α β γ hα hβ (by linarith) (by linarith) (by linarith) hγM (by rw [hD])
    | (have := main β γ α hβ hγ (by linarith) (by linarith) (by linarith) hαM (by rw [hD]; ring); linarith)
    | (have := main α γ β hα hγ (by linarith) (by linarith) (by linarith) hβM (by rw [hD]; ring); linarith)

theorem lagrange (a b : Vec) : Vec.dot (a.cross b) (a.cross b) = Vec.dot a a * Vec.dot b b - Vec.dot a b ^ 2 := by
  simp only [Vec.dot, Vec.cross]
  ring

/-- The distance of the plane of a triangle with corners on the unit sphere. -/
theorem plane_distance {x y z : Vec} (hx : Vec.dot x x = 1) (hy : Vec.dot y y = 1) (hz : Vec.dot z z = 1) :
    4 * Vec.dot x ((y - x).cross (z - x)) ^ 2 = 4 * Vec.dot ((y - x).cross (z - x)) ((y - x).cross (z - x)) -
      Vec.distSq x y * Vec.distSq x z * Vec.distSq y z := by
  have gram : Vec.dot x ((y - x).cross (z - x)) ^ 2 =
      Vec.dot x x * (Vec.dot y y * Vec.dot z z - Vec.dot y z ^ 2) - Vec.dot x y * (Vec.dot x y * Vec.dot z z - Vec.dot y z * Vec.dot x z) +
        Vec.dot x z * (Vec.dot x y * Vec.dot y z - Vec.dot y y * Vec.dot x z) := by
    simp only [Vec.dot, Vec.cross, Prod.fst_sub, Prod.snd_sub]
    ring
  have t : Vec.dot (y - x) (z - x) = Vec.dot y z - Vec.dot x y - Vec.dot x z + Vec.dot x x := by
    simp only [Vec.dot, Prod.fst_sub, Prod.snd_sub]
    ring
  rw [gram, lagrange, t, Vec.distSq, Vec.distSq, Vec.distSq, dist_sq hx hy, dist_sq hx hz, dist_sq hy hz, dist_sq hy hx, dist_sq hz hx,
    dot_comm y x, dot_comm z x, hx, hy, hz]
  ring

end Bempp
