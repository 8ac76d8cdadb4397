import Verif.Proofs.SphereGeometry
/-
The width of the triangles of a regular sphere.
-/
namespace Bempp

theorem scale_sq {a b : Vec} (ha : Vec.dot a a = 1) (hb : Vec.dot b b = 1) (h : a + b ≠ 0) :
    scale a b * scale a b * (2 + 2 * Vec.dot a b) = 1 := by
  have hu := newPoint_unit h
  rw [newPoint_eq] at hu
  have e : Vec.dot (scale a b • (a + b)) (scale a b • (a + b)) =
      scale a b * scale a b * (Vec.dot a a + Vec.dot b b + 2 * Vec.dot a b) := by
    simp [Vec.dot]
    ring
  rw [e, ha, hb] at hu
  linear_combination hu

theorem dot_comm (a b : Vec) : Vec.dot a b = Vec.dot b a := by
  unfold Vec.dot
  ring

/-- A corner and the middle of a side. -/
theorem dot_half {a b : Vec} {c c' : ℝ} (ha : Vec.dot a a = 1) (hb : Vec.dot b b = 1) (h : a + b ≠ 0) (h0 : 0 ≤ c)
    (hc : c' * (2 * (1 + c)) = 1 + 3 * c) (hp : c ≤ Vec.dot a b) :
    c' ≤ Vec.dot a (scale a b • (a + b)) := by
  have hs := scale_sq ha hb h
  have hpos := scale_pos h
  have e : Vec.dot a (scale a b • (a + b)) = scale a b * (Vec.dot a a + Vec.dot a b) := by
    simp [Vec.dot]
    ring
  rw [e, ha]
  generalize scale a b = σ at *
  generalize Vec.dot a b = p at *
  have hc' : c' = (1 + 3 * c) / (2 * (1 + c)) := by
    field_simp
    linarith
  have hq : c' ^ 2 ≤ (σ * (1 + p)) ^ 2 := by
    have e2 : (σ * (1 + p)) ^ 2 = (1 + p) / 2 := by
      linear_combination (1 + p) / 2 * hs
    rw [e2, hc', div_pow, div_le_iff₀ (by positivity)]
    have : (1 + 3 * c) ^ 2 ≤ (1 + c) / 2 * (2 * (1 + c)) ^ 2 := by
      have : 0 ≤ (1 - c) ^ 2 * (1 + 2 * c) := by positivity
      nlinarith
    refine this.trans ?_
    gcongr
  exact le_of_sq_le_sq hq (by nlinarith)

/-- The middles of two sides. -/
theorem dot_middle {a b d : Vec} {c c' : ℝ} (ha : Vec.dot a a = 1) (hb : Vec.dot b b = 1) (hd : Vec.dot d d = 1)
    (h : a + b ≠ 0) (h' : a + d ≠ 0) (h0 : 0 ≤ c) (h1 : c ≤ 1) (hc : c' * (2 * (1 + c)) = 1 + 3 * c)
    (hp : c ≤ Vec.dot a b) (hq : c ≤ Vec.dot a d) (hr : c ≤ Vec.dot b d) :
    c' ≤ Vec.dot (scale a b • (a + b)) (scale a d • (a + d)) := by
  have hs := scale_sq ha hb h
  have hs' := scale_sq ha hd h'
  have hpos := scale_pos h
  have hpos' := scale_pos h'
  have e : Vec.dot (scale a b • (a + b)) (scale a d • (a + d)) =
      scale a b * scale a d * (Vec.dot a a + Vec.dot a d + Vec.dot a b + Vec.dot b d) := by
    simp [Vec.dot]
    ring
  rw [e, ha]
  generalize scale a b = σ at *
  generalize scale a d = τ at *
  generalize Vec.dot a b = p at *
  generalize Vec.dot a d = q at *
  generalize Vec.dot b d = r at *
  have hk : 1 ≤ σ * τ * (2 + p + q) := by
    have : (1 : ℝ) ^ 2 ≤ (σ * τ * (2 + p + q)) ^ 2 := by
      have e2 : (1 : ℝ) ^ 2 = (σ * τ) ^ 2 * ((2 + 2 * p) * (2 + 2 * q)) := by
        linear_combination (-1 : ℝ) * hs - σ * σ * (2 + 2 * p) * hs'
      rw [e2, mul_pow (σ * τ)]
      refine mul_le_mul_of_nonneg_left ?_ (sq_nonneg _)
      nlinarith [sq_nonneg (p - q)]
    have h4 : 0 ≤ 2 + p + q := by linarith
    exact le_of_sq_le_sq this (by positivity)
  have hc' : c' = (1 + 3 * c) / (2 * (1 + c)) := by
    field_simp
    linarith
  have h2 : c' * (2 + p + q) ≤ 1 + q + p + r := by
    rw [hc', div_mul_eq_mul_div, div_le_iff₀ (by positivity)]
    nlinarith
  have h3 : 0 ≤ c' := by rw [hc']; positivity
  calc c' ≤ c' * (σ * τ * (2 + p + q)) := le_mul_of_one_le_right h3 hk
    _ = σ * τ * (c' * (2 + p + q)) := by ring
    _ ≤ _ := by gcongr

/-- The middles of two sides of an equilateral triangle. -/
theorem dot_middle_eq {a b d : Vec} {c c' : ℝ} (ha : Vec.dot a a = 1) (hb : Vec.dot b b = 1) (hd : Vec.dot d d = 1)
    (h : a + b ≠ 0) (h' : a + d ≠ 0) (h0 : 0 ≤ c) (hc : c' * (2 * (1 + c)) = 1 + 3 * c)
    (hp : Vec.dot a b = c) (hq : Vec.dot a d = c) (hr : Vec.dot b d = c) :
    Vec.dot (scale a b • (a + b)) (scale a d • (a + d)) = c' := by
  have hs := scale_sq ha hb h
  have hs' := scale_sq ha hd h'
  have hpos := scale_pos h
  have hpos' := scale_pos h'
  have e : Vec.dot (scale a b • (a + b)) (scale a d • (a + d)) =
      scale a b * scale a d * (Vec.dot a a + Vec.dot a d + Vec.dot a b + Vec.dot b d) := by
    simp [Vec.dot]
    ring
  rw [e, ha, hp, hq, hr]
  rw [hp] at hs
  rw [hq] at hs'
  generalize scale a b = σ at *
  generalize scale a d = τ at *
  have : σ = τ := by
    have : σ ^ 2 = τ ^ 2 := by
      have h2 : (2 + 2 * c) ≠ 0 := by positivity
      have : (σ ^ 2 - τ ^ 2) * (2 + 2 * c) = 0 := by linear_combination hs - hs'
      have := (mul_eq_zero.mp this).resolve_right h2
      linarith
    exact (pow_left_inj₀ hpos.le hpos'.le (by norm_num)).mp this
  subst this
  linear_combination (-σ * σ) * hc + c' * hs

section
variable {N N' : Nat} {cs : List Tri} {e : Nat → Nat → Nat} {pos pos' : Nat → Vec} {c c' : ℝ}

/-- The cosine of the angle between two corners of a triangle is at least `c`; for some triangle it is `c` for all
sides. -/
structure Close (c : ℝ) (cs : List Tri) (pos : Nat → Vec) : Prop where
  le : ∀ t ∈ cs, c ≤ Vec.dot (pos t.p0) (pos t.p1) ∧ c ≤ Vec.dot (pos t.p1) (pos t.p2) ∧
    c ≤ Vec.dot (pos t.p0) (pos t.p2)
  eq : ∃ t ∈ cs, Vec.dot (pos t.p0) (pos t.p1) = c ∧ Vec.dot (pos t.p1) (pos t.p2) = c ∧
    Vec.dot (pos t.p0) (pos t.p2) = c

theorem Close.refine (hg : GoodMesh N cs) (hr : Refined N cs e pos pos')
    (ho : Outward N cs pos) (h : Close c cs pos) (h0 : 0 ≤ c) (h1 : c ≤ 1) (hc : c' * (2 * (1 + c)) = 1 + 3 * c) :
    Close c' (cs.flatMap (subdivide e)) pos' := by
  have key : ∀ t ∈ cs, pos' t.p0 = pos t.p0 ∧ pos' t.p1 = pos t.p1 ∧ pos' t.p2 = pos t.p2 ∧
      pos' (e t.p0 t.p1) = scale (pos t.p0) (pos t.p1) • (pos t.p0 + pos t.p1) ∧
      pos' (e t.p1 t.p2) = scale (pos t.p1) (pos t.p2) • (pos t.p1 + pos t.p2) ∧
      pos' (e t.p0 t.p2) = scale (pos t.p0) (pos t.p2) • (pos t.p0 + pos t.p2) ∧
      Vec.dot (pos t.p0) (pos t.p0) = 1 ∧ Vec.dot (pos t.p1) (pos t.p1) = 1 ∧ Vec.dot (pos t.p2) (pos t.p2) = 1 ∧
      pos t.p0 + pos t.p1 ≠ 0 ∧ pos t.p1 + pos t.p2 ≠ 0 ∧ pos t.p0 + pos t.p2 ≠ 0 := by
    intro t ht
    obtain ⟨l0, l1, l2⟩ := hg.lt t ht
    obtain ⟨e1, e2, e3, -⟩ := hg.tri_edges ht
    exact ⟨hr.old _ l0, hr.old _ l1, hr.old _ l2, hr.scaled e1, hr.scaled e2, hr.scaled e3, ho.unit _ l0,
      ho.unit _ l1, ho.unit _ l2, ho.sum_ne e1, ho.sum_ne e2, ho.sum_ne e3⟩
  constructor
  · intro x hx
    obtain ⟨t, ht, hx⟩ := List.mem_flatMap.mp hx
    obtain ⟨q0, q1, q2, q3, q4, q5, u0, u1, u2, n1, n2, n3⟩ := key t ht
    obtain ⟨c1, c2, c3⟩ := h.le t ht
    generalize pos t.p0 = A at *
    generalize pos t.p1 = B at *
    generalize pos t.p2 = D at *
    have flip : ∀ x y : Vec, scale x y • (x + y) = scale y x • (y + x) := by
      intro x y
      rw [scale_comm, add_comm]
    have n1' : B + A ≠ 0 := by rwa [add_comm]
    have n2' : D + B ≠ 0 := by rwa [add_comm]
    have n3' : D + A ≠ 0 := by rwa [add_comm]
    have c1' : c ≤ Vec.dot B A := by rwa [dot_comm]
    have c2' : c ≤ Vec.dot D B := by rwa [dot_comm]
    have c3' : c ≤ Vec.dot D A := by rwa [dot_comm]
    have ab := dot_half u0 u1 n1 h0 hc c1
    have ba := dot_half u1 u0 n1' h0 hc c1'
    have bd := dot_half u1 u2 n2 h0 hc c2
    have db := dot_half u2 u1 n2' h0 hc c2'
    have ad := dot_half u0 u2 n3 h0 hc c3
    have da := dot_half u2 u0 n3' h0 hc c3'
    have ma := dot_middle u0 u1 u2 n1 n3 h0 h1 hc c1 c3 c2
    have mb := dot_middle u1 u0 u2 n1' n2 h0 h1 hc c1' c2 c3
    have md := dot_middle u2 u0 u1 n3' n2' h0 h1 hc c3' c2' c1
    rw [flip B A] at ba mb
    rw [flip D B] at db md
    rw [flip D A] at da md
    simp only [subdivide, List.mem_cons, List.not_mem_nil, or_false] at hx
    rcases hx with rfl | rfl | rfl | rfl <;> dsimp only
    · rw [q0, q3, q5]
      exact ⟨ab, ma, ad⟩
    · rw [q1, q4, q3]
      exact ⟨bd, by rw [dot_comm]; exact mb, ba⟩
    · rw [q2, q5, q4]
      exact ⟨da, md, db⟩
    · rw [q3, q4, q5]
      exact ⟨by rw [dot_comm]; exact md, by rw [dot_comm]; exact ma, by rw [dot_comm]; exact mb⟩
  · obtain ⟨t, ht, c1, c2, c3⟩ := h.eq
    obtain ⟨q0, q1, q2, q3, q4, q5, u0, u1, u2, n1, n2, n3⟩ := key t ht
    refine ⟨⟨e t.p1 t.p2, e t.p0 t.p2, e t.p0 t.p1⟩, List.mem_flatMap.mpr ⟨t, ht, by simp [subdivide]⟩, ?_⟩
    dsimp only
    rw [q3, q4, q5]
    generalize pos t.p0 = A at *
    generalize pos t.p1 = B at *
    generalize pos t.p2 = D at *
    have flip : ∀ x y : Vec, scale x y • (x + y) = scale y x • (y + x) := by
      intro x y
      rw [scale_comm, add_comm]
    have n1' : B + A ≠ 0 := by rwa [add_comm]
    have n2' : D + B ≠ 0 := by rwa [add_comm]
    have n3' : D + A ≠ 0 := by rwa [add_comm]
    have c1' : Vec.dot B A = c := by rwa [dot_comm]
    have c2' : Vec.dot D B = c := by rwa [dot_comm]
    have c3' : Vec.dot D A = c := by rwa [dot_comm]
    have ma := dot_middle_eq u0 u1 u2 n1 n3 h0 hc c1 c3 c2
    have mb := dot_middle_eq u1 u0 u2 n1' n2 h0 hc c1' c2 c3
    have md := dot_middle_eq u2 u0 u1 n3' n2' h0 hc c3' c2' c1
    rw [flip B A] at mb
    rw [flip D B, flip D A] at md
    exact ⟨by rw [dot_comm]; exact md, by rw [dot_comm]; exact ma, by rw [dot_comm]; exact mb⟩

/-- The smallest cosine after `n` rounds. -/
noncomputable def cosine (n : Nat) : ℝ := (4 ^ n - 1) / (4 ^ n + 2)

theorem cosine_nonneg (n : Nat) : 0 ≤ cosine n := by
  unfold cosine
  have : (1 : ℝ) ≤ 4 ^ n := one_le_pow₀ (by norm_num)
  have : (0 : ℝ) ≤ 4 ^ n - 1 := by linarith
  positivity

theorem cosine_le (n : Nat) : cosine n ≤ 1 := by
  unfold cosine
  rw [div_le_one (by positivity)]
  linarith

theorem cosine_succ (n : Nat) : cosine (n + 1) * (2 * (1 + cosine n)) = 1 + 3 * cosine n := by
  unfold cosine
  have : (0 : ℝ) < 4 ^ n := by positivity
  rw [pow_succ]
  field_simp
  ring

end
end Bempp
