import Verif.Proofs.ShapeRounding
/-
The computed points of `regular_sphere` are close to the exact ones.
-/
set_option linter.unusedSectionVars false

namespace Bempp

/-- The Euclidean norm. -/
noncomputable def Vec.len (a : Vec) : ℝ := Real.sqrt (Vec.dot a a)

theorem dot_self_nonneg (a : Vec) : 0 ≤ Vec.dot a a := by
  simp only [Vec.dot]
  nlinarith [mul_self_nonneg a.1, mul_self_nonneg a.2.1, mul_self_nonneg a.2.2]

theorem Vec.len_nonneg (a : Vec) : 0 ≤ a.len := Real.sqrt_nonneg _

theorem Vec.len_sq (a : Vec) : a.len * a.len = Vec.dot a a := Real.mul_self_sqrt (dot_self_nonneg a)

theorem dot_le_len (a b : Vec) : Vec.dot a b ≤ a.len * b.len := by
  apply le_of_sq_le_sq _ (mul_nonneg a.len_nonneg b.len_nonneg)
  have : (a.len * b.len) ^ 2 = Vec.dot a a * Vec.dot b b := by
    rw [← a.len_sq, ← b.len_sq]
    ring
  rw [this]
  simp only [Vec.dot]
  nlinarith [mul_self_nonneg (a.1 * b.2.1 - a.2.1 * b.1), mul_self_nonneg (a.1 * b.2.2 - a.2.2 * b.1),
    mul_self_nonneg (a.2.1 * b.2.2 - a.2.2 * b.2.1)]

theorem Vec.len_le {a : Vec} {r : ℝ} (hr : 0 ≤ r) (h : Vec.dot a a ≤ r * r) : a.len ≤ r := by
  unfold Vec.len
  rw [Real.sqrt_le_left hr, pow_two]
  exact h

theorem Vec.len_add (a b : Vec) : (a + b).len ≤ a.len + b.len := by
  apply Vec.len_le (add_nonneg a.len_nonneg b.len_nonneg)
  have e : Vec.dot (a + b) (a + b) = Vec.dot a a + Vec.dot b b + 2 * Vec.dot a b := by
    simp only [Vec.dot, Prod.fst_add, Prod.snd_add]
    ring
  have := dot_le_len a b
  rw [e, ← a.len_sq, ← b.len_sq]
  nlinarith

theorem Vec.len_smul {c : ℝ} (hc : 0 ≤ c) (a : Vec) : (c • a).len = c * a.len := by
  unfold Vec.len
  have e : Vec.dot (c • a) (c • a) = c ^ 2 * Vec.dot a a := by
    simp only [Vec.dot, Prod.smul_fst, Prod.smul_snd, smul_eq_mul]
    ring
  rw [e, Real.sqrt_mul (sq_nonneg c), Real.sqrt_sq hc]

theorem Vec.len_neg (a : Vec) : (-a).len = a.len := by
  simp [Vec.len, Vec.dot]

theorem Vec.len_sub_le (a b c : Vec) : (a - c).len ≤ (a - b).len + (b - c).len := by
  have := Vec.len_add (a - b) (b - c)
  rwa [sub_add_sub_cancel] at this

theorem Vec.len_lower (a b : Vec) : b.len - (a - b).len ≤ a.len := by
  have := Vec.len_add (b - a) a
  rw [sub_add_cancel, ← Vec.len_neg (b - a), neg_sub] at this
  linarith

theorem Vec.len_pos {a : Vec} (h : a ≠ 0) : 0 < a.len := Real.sqrt_pos.mpr (vec_sq_pos h)

/-- Coordinates changed by small factors. -/
theorem Vec.len_factors {x y : Vec} {r : ℝ} (hr : 0 ≤ r) (h1 : ∃ t, |t - 1| ≤ r ∧ x.1 = t * y.1)
    (h2 : ∃ t, |t - 1| ≤ r ∧ x.2.1 = t * y.2.1) (h3 : ∃ t, |t - 1| ≤ r ∧ x.2.2 = t * y.2.2) :
    (x - y).len ≤ r * y.len := by
  obtain ⟨t1, k1, e1⟩ := h1
  obtain ⟨t2, k2, e2⟩ := h2
  obtain ⟨t3, k3, e3⟩ := h3
  apply Vec.len_le (mul_nonneg hr y.len_nonneg)
  have key : ∀ t z : ℝ, |t - 1| ≤ r → (t * z - z) * (t * z - z) ≤ r * r * (z * z) := by
    intro t z ht
    have : (t - 1) * (t - 1) ≤ r * r := by
      rw [← abs_mul_abs_self (t - 1)]
      exact mul_le_mul ht ht (abs_nonneg _) hr
    have := mul_le_mul_of_nonneg_right this (mul_self_nonneg z)
    nlinarith
  have e : r * y.len * (r * y.len) = r * r * Vec.dot y y := by
    rw [← y.len_sq]
    ring
  rw [e]
  simp only [Vec.dot, Prod.fst_sub, Prod.snd_sub, e1, e2, e3]
  have := key _ y.1 k1
  have := key _ y.2.1 k2
  have := key _ y.2.2 k3
  nlinarith

/-- Moving two vectors to the sphere. -/
theorem unit_diff {x y : Vec} (hx : x ≠ 0) (hy : y ≠ 0) {k : ℝ} (hk : 0 < k) (hkk : k * k ≤ x.len * y.len) :
    ((1 / x.len) • x - (1 / y.len) • y).len ≤ (x - y).len / k := by
  have px := Vec.len_pos hx
  have py := Vec.len_pos hy
  apply Vec.len_le (div_nonneg (Vec.len_nonneg _) hk.le)
  rw [div_mul_div_comm, le_div_iff₀ (mul_pos hk hk), Vec.len_sq]
  have e : Vec.dot ((1 / x.len) • x - (1 / y.len) • y) ((1 / x.len) • x - (1 / y.len) • y) * (x.len * y.len) =
      2 * (x.len * y.len - Vec.dot x y) := by
    have e1 : Vec.dot ((1 / x.len) • x - (1 / y.len) • y) ((1 / x.len) • x - (1 / y.len) • y) =
        Vec.dot x x / (x.len * x.len) + Vec.dot y y / (y.len * y.len) - 2 * Vec.dot x y / (x.len * y.len) := by
      simp only [Vec.dot, Prod.fst_sub, Prod.snd_sub, Prod.smul_fst, Prod.smul_snd, smul_eq_mul]
      field_simp
      ring
    rw [e1, ← x.len_sq, ← y.len_sq, div_self (mul_pos px px).ne', div_self (mul_pos py py).ne']
    field_simp
    ring
  have e2 : Vec.dot (x - y) (x - y) = x.len * x.len + y.len * y.len - 2 * Vec.dot x y := by
    rw [x.len_sq, y.len_sq]
    simp only [Vec.dot, Prod.fst_sub, Prod.snd_sub]
    ring
  calc _ ≤ Vec.dot ((1 / x.len) • x - (1 / y.len) • y) ((1 / x.len) • x - (1 / y.len) • y) * (x.len * y.len) :=
        mul_le_mul_of_nonneg_left hkk (dot_self_nonneg _)
    _ = 2 * (x.len * y.len - Vec.dot x y) := e
    _ ≤ _ := by
      rw [e2]
      nlinarith [mul_self_nonneg (x.len - y.len)]

theorem rho_middle {u : ℝ} (h0 : 0 ≤ u) (h1 : u ≤ 1 / 128) :
    0 ≤ (1 + u) ^ 2 - 1 ∧ (1 + u) ^ 2 - 1 < 1 ∧ ((1 + u) ^ 2 - 1) / (1 - ((1 + u) ^ 2 - 1)) ≤ 5 / 2 * u := by
  have k : (1 + u) ^ 2 - 1 < 1 := by nlinarith
  refine ⟨by nlinarith, k, ?_⟩
  rw [div_le_iff₀ (by linarith)]
  nlinarith [mul_nonneg h0 h0, mul_nonneg (mul_nonneg h0 h0) h0]

theorem rho_normed {u : ℝ} (h0 : 0 ≤ u) (h1 : u ≤ 1 / 128) :
    (1 + u) / (1 - u) ^ 3 ≤ 1 + 9 / 2 * u ∧ 1 - 9 / 2 * u ≤ (1 - u) / (1 + u) ^ 3 := by
  have k2 := mul_nonneg h0 h0
  have k3 := mul_nonneg k2 h0
  have k4 := mul_nonneg k3 h0
  have j2 : u * u ≤ 1 / 128 * u := mul_le_mul_of_nonneg_right h1 h0
  have j3 : u * u * u ≤ 1 / 128 * (u * u) := by
    have := mul_le_mul_of_nonneg_right h1 k2
    linarith
  have j4 : u * u * u * u ≤ 1 / 128 * (u * u * u) := by
    have := mul_le_mul_of_nonneg_right h1 k3
    linarith
  constructor
  · rw [div_le_iff₀ (pow_pos (by linarith) 3)]
    nlinarith
  · rw [le_div_iff₀ (pow_pos (by linarith) 3)]
    nlinarith

/-- One new point: exact ends `a`, `b` on the sphere, computed ends `a'`, `b'` within `δ`. -/
theorem newPoint_close {u δ : ℝ} (h0 : 0 ≤ u) (h1 : u ≤ 1 / 128) {a b a' b' x p : Vec} {size : ℝ}
    (hm : 7 / 10 ≤ ((1 / 2 : ℝ) • (a + b)).len) (ha : (a' - a).len ≤ δ) (hb : (b' - b).len ≤ δ) (hd : δ ≤ 1 / 5)
    (hs : 0 < size) (hx : x ≠ 0) (hmid : Middle u a' b' x) (hn : Normed u x p size) :
    (p - (1 / ((1 / 2 : ℝ) • (a + b)).len) • ((1 / 2 : ℝ) • (a + b))).len ≤
      δ * (1 + 3 / 2 * δ) / ((1 / 2 : ℝ) • (a + b)).len + 7 * u := by
  have hδ : 0 ≤ δ := le_trans (Vec.len_nonneg _) ha
  set m : Vec := (1 / 2 : ℝ) • (a + b) with hmdef
  set m' : Vec := (1 / 2 : ℝ) • (a' + b') with hm'def
  have mm : (m' - m).len ≤ δ := by
    have e : m' - m = (1 / 2 : ℝ) • ((a' - a) + (b' - b)) := by
      rw [hmdef, hm'def, ← smul_sub]
      congr 1
      abel
    rw [e, Vec.len_smul (by norm_num)]
    have := Vec.len_add (a' - a) (b' - b)
    linarith
  have lm' := Vec.len_lower m' m
  have pm : 0 < m.len := by linarith
  have pm' : 0 < m'.len := by linarith
  have hm0 : m ≠ 0 := by
    intro e
    rw [e] at pm
    simp [Vec.len, Vec.dot] at pm
  have hm0' : m' ≠ 0 := by
    intro e
    rw [e] at pm'
    simp [Vec.len, Vec.dot] at pm'
  have px := Vec.len_pos hx
  obtain ⟨r0, r1, r2⟩ := rho_middle h0 h1
  set ρ := (1 + u) ^ 2 - 1 with hρ
  -- from the middle of the computed ends to the computed middle
  have xm : (x - m').len ≤ ρ * m'.len := by
    obtain ⟨k1, k2, k3⟩ := hmid
    refine Vec.len_factors r0 ?_ ?_ ?_
    · exact k1
    · exact k2
    · exact k3
  have lx := Vec.len_lower x m'
  have d2 : ((1 / x.len) • x - (1 / m'.len) • m').len ≤ 5 / 2 * u := by
    have kp : 0 < (1 - ρ) * m'.len := mul_pos (by linarith) pm'
    have kk : (1 - ρ) * m'.len * ((1 - ρ) * m'.len) ≤ x.len * m'.len := by
      have e1 : (1 - ρ) * m'.len ≤ x.len := by linarith
      have e2 : (1 - ρ) * m'.len ≤ m'.len := by nlinarith
      exact mul_le_mul e1 e2 kp.le px.le
    refine (unit_diff hx hm0' kp kk).trans ?_
    refine le_trans ?_ r2
    rw [div_le_div_iff₀ kp (by linarith)]
    have := mul_le_mul_of_nonneg_right xm (by linarith : 0 ≤ 1 - ρ)
    nlinarith
  -- from the computed middle to the computed point
  have d1 : (p - (1 / x.len) • x).len ≤ 9 / 2 * u := by
    obtain ⟨⟨l, r⟩, k1, k2, k3⟩ := hn
    change (1 - u) ^ 3 * x.len ≤ size at l
    change size ≤ (1 + u) ^ 3 * x.len at r
    obtain ⟨q1, q2⟩ := rho_normed h0 h1
    have lo3 : 0 < (1 - u) ^ 3 := pow_pos (by linarith) 3
    have hi3 : 0 < (1 + u) ^ 3 := pow_pos (by linarith) 3
    have f1 : x.len / size ≤ 1 / (1 - u) ^ 3 := by
      rw [div_le_div_iff₀ hs lo3]
      linarith
    have f2 : 1 / (1 + u) ^ 3 ≤ x.len / size := by
      rw [div_le_div_iff₀ hi3 hs]
      linarith
    have f0 : 0 ≤ x.len / size := div_nonneg px.le hs.le
    have key : ∀ t, |t - 1| ≤ u → |t * (x.len / size) - 1| ≤ 9 / 2 * u := by
      intro t ht
      obtain ⟨a1, a2⟩ := factor_bounds ht
      rw [abs_le]
      constructor
      · have : (1 - u) * (1 / (1 + u) ^ 3) ≤ t * (x.len / size) :=
          mul_le_mul a1 f2 (by positivity) (by linarith)
        have e : (1 - u) * (1 / (1 + u) ^ 3) = (1 - u) / (1 + u) ^ 3 := by ring
        linarith
      · have : t * (x.len / size) ≤ (1 + u) * (1 / (1 - u) ^ 3) :=
          mul_le_mul a2 f1 f0 (by linarith)
        have e : (1 + u) * (1 / (1 - u) ^ 3) = (1 + u) / (1 - u) ^ 3 := by ring
        linarith
    have one : ((1 / x.len) • x).len = 1 := by
      rw [Vec.len_smul (by positivity)]
      field_simp
    have := Vec.len_factors (x := p) (y := (1 / x.len) • x) (r := 9 / 2 * u) (by linarith) ?_ ?_ ?_
    · rwa [one, mul_one] at this
    · obtain ⟨t, ht, e⟩ := k1
      exact ⟨_, key t ht, by rw [e]; simp; field_simp⟩
    · obtain ⟨t, ht, e⟩ := k2
      exact ⟨_, key t ht, by rw [e]; simp; field_simp⟩
    · obtain ⟨t, ht, e⟩ := k3
      exact ⟨_, key t ht, by rw [e]; simp; field_simp⟩
  -- from the exact middle to the middle of the computed ends
  have d3 : ((1 / m'.len) • m' - (1 / m.len) • m).len ≤ δ * (1 + 3 / 2 * δ) / m.len := by
    have kp : 0 < m.len / (1 + 3 / 2 * δ) := by positivity
    have kk : m.len / (1 + 3 / 2 * δ) * (m.len / (1 + 3 / 2 * δ)) ≤ m'.len * m.len := by
      rw [div_mul_div_comm, div_le_iff₀ (by positivity)]
      have e1 : m.len * (1 - 3 / 2 * δ) ≤ m'.len := by nlinarith
      have e2 : 1 ≤ (1 - 3 / 2 * δ) * ((1 + 3 / 2 * δ) * (1 + 3 / 2 * δ)) := by
        have : 0 ≤ δ * (1 / 5 - δ) := mul_nonneg hδ (by linarith)
        nlinarith [mul_nonneg hδ hδ, mul_nonneg this hδ]
      have e3 := mul_le_mul_of_nonneg_right e1
        (by positivity : 0 ≤ m.len * ((1 + 3 / 2 * δ) * (1 + 3 / 2 * δ)))
      have e4 := mul_le_mul_of_nonneg_left e2 (mul_nonneg pm.le pm.le)
      nlinarith
    refine (unit_diff hm0' hm0 kp kk).trans ?_
    rw [div_div_eq_mul_div]
    exact div_le_div_of_nonneg_right (mul_le_mul_of_nonneg_right mm (by positivity)) pm.le
  have t1 := Vec.len_sub_le p ((1 / x.len) • x) ((1 / m.len) • m)
  have t2 := Vec.len_sub_le ((1 / x.len) • x) ((1 / m'.len) • m') ((1 / m.len) • m)
  linarith

/-! ### All levels -/

/-- The growth of the errors of old points. -/
noncomputable def growth (n : Nat) : ℝ := Real.sqrt (3 * 4 ^ n / (4 ^ n + 2))

theorem growth_bounds (n : Nat) : 1 ≤ growth n ∧ growth n ≤ 7 / 4 := by
  have p : (1 : ℝ) ≤ 4 ^ n := one_le_pow₀ (by norm_num)
  unfold growth
  constructor
  · rw [Real.one_le_sqrt, le_div_iff₀ (by linarith)]
    linarith
  · rw [Real.sqrt_le_left (by norm_num), div_le_iff₀ (by linarith)]
    nlinarith

theorem growth_succ (n : Nat) : growth (n + 1) * Real.sqrt ((1 + cosine n) / 2) = growth n := by
  have p : (1 : ℝ) ≤ 4 ^ n := one_le_pow₀ (by norm_num)
  unfold growth cosine
  rw [← Real.sqrt_mul (by positivity)]
  congr 1
  rw [pow_succ]
  field_simp
  ring

theorem newPoint_unit_eq (a b : Vec) :
    newPoint (1 / 2) Real.sqrt a b = (1 / ((1 / 2 : ℝ) • (a + b)).len) • ((1 / 2 : ℝ) • (a + b)) := by
  have e : ((1 / 2 : ℝ) • (a + b)).len = Real.sqrt (0 + 1 / 2 * (a.1 + b.1) * (1 / 2 * (a.1 + b.1)) +
      1 / 2 * (a.2.1 + b.2.1) * (1 / 2 * (a.2.1 + b.2.1)) + 1 / 2 * (a.2.2 + b.2.2) * (1 / 2 * (a.2.2 + b.2.2))) := by
    rw [zero_add]
    rfl
  rw [newPoint_eq, e, smul_smul]
  unfold scale
  congr 1
  ring

theorem middle_len {a b : Vec} {n : Nat} (ha : Vec.dot a a = 1) (hb : Vec.dot b b = 1) (h : cosine n ≤ Vec.dot a b) :
    Real.sqrt ((1 + cosine n) / 2) ≤ ((1 / 2 : ℝ) • (a + b)).len := by
  apply Real.sqrt_le_sqrt
  have e : Vec.dot ((1 / 2 : ℝ) • (a + b)) ((1 / 2 : ℝ) • (a + b)) =
      1 / 4 * (Vec.dot a a + Vec.dot b b + 2 * Vec.dot a b) := by
    simp only [Vec.dot, Prod.smul_fst, Prod.smul_snd, smul_eq_mul, Prod.fst_add, Prod.snd_add]
    ring
  rw [e, ha, hb]
  linarith

theorem sqrt_cosine (n : Nat) : 7 / 10 ≤ Real.sqrt ((1 + cosine n) / 2) := by
  apply Real.le_sqrt_of_sq_le
  have := cosine_nonneg n
  linarith

theorem Close.edge_le {c : ℝ} {cs : List Tri} {pos : Nat → Vec} (h : Close c cs pos) {d : Nat × Nat}
    (hd : d ∈ edgesOf cs) : c ≤ Vec.dot (pos d.1) (pos d.2) := by
  obtain ⟨t, ht, hd⟩ := mem_edgesOf.mp hd
  obtain ⟨k1, k2, k3⟩ := h.le t ht
  simp only [Tri.edges, List.mem_cons, List.not_mem_nil, or_false] at hd
  rcases hd with rfl | rfl | rfl
  · exact k1
  · exact k2
  · rw [dot_comm]
    exact k3

/-- The computed points after `n` rounds are close to the exact ones. -/
def CloseTo (u : ℝ) (n N : Nat) (pos pos' : Nat → Vec) : Prop :=
  ∀ i, i < N → (pos' i - pos i).len ≤ 9 * n * u * growth n

theorem CloseTo.small {u : ℝ} {n : Nat} (h0 : 0 ≤ u) (h1 : ((n + 1 : Nat) : ℝ) ^ 2 * u ≤ 1 / 128) :
    u ≤ 1 / 128 ∧ (n : ℝ) ^ 2 * u ≤ 1 / 128 ∧ (n : ℝ) * u ≤ 1 / 128 := by
  push_cast at h1
  have hn : (0 : ℝ) ≤ n := Nat.cast_nonneg n
  have a := mul_nonneg hn h0
  have b := mul_nonneg hn a
  refine ⟨by nlinarith, by nlinarith, by nlinarith⟩

theorem CloseTo.refine {u : ℝ} {n N N' : Nat} {cs : List Tri} {e : Nat → Nat → Nat} {x x' y y' : Nat → Vec}
    (h0 : 0 ≤ u) (h1 : ((n + 1 : Nat) : ℝ) ^ 2 * u ≤ 1 / 128) (hg : GoodMesh N cs) (hn : EdgeNumbers N N' cs e)
    (ho : Outward N cs x) (hc : Close (cosine n) cs x) (hr : Refined N cs e x x') (hf : RefinedFl u N cs e y y')
    (h : CloseTo u n N x y) : CloseTo u (n + 1) N' x' y' := by
  obtain ⟨hu, hn2, hn1⟩ := CloseTo.small h0 h1
  obtain ⟨g1, g2⟩ := growth_bounds n
  obtain ⟨g1', g2'⟩ := growth_bounds (n + 1)
  have hsucc := growth_succ n
  have hcos := sqrt_cosine n
  set c := Real.sqrt ((1 + cosine n) / 2) with hcdef
  have hc1 : c ≤ 1 := by
    rw [hcdef, Real.sqrt_le_left (by norm_num)]
    have := cosine_le n
    linarith
  have nn : (0 : ℝ) ≤ n := Nat.cast_nonneg n
  have nu := mul_nonneg nn h0
  have gg : growth n ≤ growth (n + 1) := by nlinarith
  have mono : 9 * n * u * growth n ≤ 9 * ((n + 1 : Nat) : ℝ) * u * growth (n + 1) := by
    push_cast
    have a : 9 * n * u * growth n ≤ 9 * n * u * growth (n + 1) := mul_le_mul_of_nonneg_left gg (by linarith)
    have b : 0 ≤ u * growth (n + 1) := mul_nonneg h0 (by linarith)
    nlinarith
  intro i hi
  by_cases hN : i < N
  · rw [hr.old i hN, hf.old i hN]
    exact (h i hN).trans mono
  · obtain ⟨d, hd, rfl⟩ := hn.surj i (by omega) hi
    obtain ⟨l1, l2, -⟩ := hg.edge_lt hd
    have hm := middle_len (ho.unit _ l1) (ho.unit _ l2) (hc.edge_le hd)
    set δ := 9 * n * u * growth n with hδdef
    have hδ0 : 0 ≤ δ := by positivity
    have hδ1 : δ ≤ 1 / 5 := by
      have : n * u * growth n ≤ 1 / 128 * (7 / 4) := mul_le_mul hn1 g2 (by linarith) (by norm_num)
      nlinarith
    have d1 := h _ l1
    have d2 := h _ l2
    -- the sum of the computed ends is not zero
    have ne : y d.1 + y d.2 ≠ 0 := by
      intro e0
      have e1 : x d.1 + x d.2 = -((y d.1 - x d.1) + (y d.2 - x d.2)) := by
        have : (y d.1 - x d.1) + (y d.2 - x d.2) = (y d.1 + y d.2) - (x d.1 + x d.2) := by abel
        rw [this, e0]
        abel
      have e2 := Vec.len_add (y d.1 - x d.1) (y d.2 - x d.2)
      rw [← Vec.len_neg, ← e1] at e2
      rw [Vec.len_smul (by norm_num)] at hm
      linarith
    obtain ⟨z, size, hs, hmid, hz, hnm⟩ := hf.new d hd ne
    have key := newPoint_close h0 hu (hcos.trans hm) d1 d2 hδ1 hs hz hmid hnm
    rw [hr.new d hd, newPoint_unit_eq]
    refine key.trans ?_
    have cpos : 0 < c := by linarith
    have e1 : δ * (1 + 3 / 2 * δ) / ((1 / 2 : ℝ) • (x d.1 + x d.2)).len ≤ δ * (1 + 3 / 2 * δ) / c :=
      div_le_div_of_nonneg_left (by positivity) cpos hm
    have e2 : δ * (1 + 3 / 2 * δ) / c = 9 * n * u * growth (n + 1) * (1 + 3 / 2 * δ) := by
      rw [hδdef, ← hsucc]
      field_simp
    have e3 : 9 * (n * u) * (3 / 2 * δ) ≤ 2 * u := by
      have : 9 * (n * u) * (3 / 2 * δ) = 243 / 2 * ((n : ℝ) ^ 2 * u) * u * growth n := by
        rw [hδdef]
        ring
      rw [this]
      have a : (n : ℝ) ^ 2 * u * growth n ≤ 1 / 128 * (7 / 4) :=
        mul_le_mul hn2 g2 (by linarith) (by norm_num)
      have b := mul_le_mul_of_nonneg_right a h0
      nlinarith
    have e4 : 9 * (n * u) * (3 / 2 * δ) * growth (n + 1) ≤ 2 * u * growth (n + 1) :=
      mul_le_mul_of_nonneg_right e3 (by linarith)
    have e5 : 7 * u ≤ 7 * u * growth (n + 1) := by nlinarith
    rw [e2] at e1
    push_cast
    nlinarith

/-! ### Orientation -/

theorem len_one {a : Vec} (h : Vec.dot a a = 1) : a.len = 1 := by
  rw [Vec.len, h, Real.sqrt_one]

theorem scale_ge {a b : Vec} (ha : Vec.dot a a = 1) (hb : Vec.dot b b = 1) (h : a + b ≠ 0) : 1 / 2 ≤ scale a b := by
  have e := scale_sq ha hb h
  have p := scale_pos h
  have q := dot_le_len a b
  rw [len_one ha, len_one hb, one_mul] at q
  by_contra hc
  have hc : scale a b < 1 / 2 := not_le.mp hc
  have : scale a b * scale a b < 1 / 4 := by nlinarith
  nlinarith [mul_pos p p]

/-- A lower bound for the volumes over the triangles. -/
def DetLow (n : Nat) (cs : List Tri) (pos : Nat → Vec) : Prop :=
  ∀ t ∈ cs, 1 / 4 ^ n ≤ det3 (pos t.p0) (pos t.p1) (pos t.p2)

theorem DetLow.refine {n N : Nat} {cs : List Tri} {e : Nat → Nat → Nat} {pos pos' : Nat → Vec} (hg : GoodMesh N cs)
    (hr : Refined N cs e pos pos') (ho : Outward N cs pos) (h : DetLow n cs pos) :
    DetLow (n + 1) (cs.flatMap (subdivide e)) pos' := by
  intro x hx
  obtain ⟨t, ht, hx⟩ := List.mem_flatMap.mp hx
  obtain ⟨l0, l1, l2⟩ := hg.lt t ht
  obtain ⟨e1, e2, e3, -, -, -⟩ := hg.tri_edges ht
  have s1 := hr.scaled e1
  have s2 := hr.scaled e2
  have s3 := hr.scaled e3
  have p1 := scale_ge (ho.unit _ l0) (ho.unit _ l1) (ho.sum_ne e1)
  have p2 := scale_ge (ho.unit _ l1) (ho.unit _ l2) (ho.sum_ne e2)
  have p3 := scale_ge (ho.unit _ l0) (ho.unit _ l2) (ho.sum_ne e3)
  have hd := h t ht
  have key : ∀ p q : ℝ, 1 / 2 ≤ p → 1 / 2 ≤ q → 1 / 4 ^ (n + 1) ≤ p * q * det3 (pos t.p0) (pos t.p1) (pos t.p2) := by
    intro p q hp hq
    have a : 1 / 4 ≤ p * q := by nlinarith
    have b : (0 : ℝ) < 1 / 4 ^ n := by positivity
    have c : (1 : ℝ) / 4 ^ (n + 1) = 1 / 4 * (1 / 4 ^ n) := by rw [pow_succ]; field_simp
    rw [c]
    exact mul_le_mul a hd b.le (by linarith)
  dsimp only at s1 s2 s3
  simp only [subdivide, List.mem_cons, List.not_mem_nil, or_false] at hx
  rcases hx with rfl | rfl | rfl | rfl <;> dsimp only
  · rw [hr.old _ l0, s1, s3, det3_corner]
    exact key _ _ p1 p3
  · rw [hr.old _ l1, s2, s1, add_comm (pos t.p0) (pos t.p1), det3_corner, det3_rotate]
    exact key _ _ p2 p1
  · rw [hr.old _ l2, s3, s2, add_comm (pos t.p0) (pos t.p2), add_comm (pos t.p1) (pos t.p2), det3_corner,
      det3_rotate, det3_rotate]
    exact key _ _ p3 p2
  · rw [s1, s2, s3, det3_middle]
    have := key (2 * scale (pos t.p1) (pos t.p2) * scale (pos t.p0) (pos t.p2)) (scale (pos t.p0) (pos t.p1))
      (by nlinarith) p1
    calc _ ≤ _ := this
      _ = _ := by ring

theorem det3_le (a b c : Vec) : |det3 a b c| ≤ a.len * b.len * c.len := by
  have e : Vec.dot (Vec.cross b c) (Vec.cross b c) = Vec.dot b b * Vec.dot c c - Vec.dot b c * Vec.dot b c := by
    simp only [Vec.dot, Vec.cross]
    ring
  have l : (Vec.cross b c).len ≤ b.len * c.len := by
    apply Vec.len_le (mul_nonneg b.len_nonneg c.len_nonneg)
    rw [e, ← b.len_sq, ← c.len_sq]
    nlinarith [mul_self_nonneg (Vec.dot b c)]
  have h1 := dot_le_len a (Vec.cross b c)
  have h2 := dot_le_len (-a) (Vec.cross b c)
  rw [Vec.len_neg] at h2
  have h3 : Vec.dot (-a) (Vec.cross b c) = -Vec.dot a (Vec.cross b c) := by
    simp only [Vec.dot, Prod.fst_neg, Prod.snd_neg]
    ring
  have h4 := mul_le_mul_of_nonneg_left l a.len_nonneg
  unfold det3
  rw [abs_le]
  constructor <;> linarith

theorem det3_close {a b c a' b' c' : Vec} {δ : ℝ} (ha : Vec.dot a a = 1) (hb : Vec.dot b b = 1)
    (ha' : (a' - a).len ≤ δ) (hb' : (b' - b).len ≤ δ) (hc' : (c' - c).len ≤ δ) (hc : Vec.dot c c = 1)
    (hd : δ ≤ 1 / 16) : det3 a b c - 4 * δ ≤ det3 a' b' c' := by
  have hδ : 0 ≤ δ := le_trans (Vec.len_nonneg _) ha'
  have e : det3 a' b' c' - det3 a b c = det3 (a' - a) b' c' + det3 a (b' - b) c' + det3 a b (c' - c) := by
    simp only [det3, Vec.dot, Vec.cross, Prod.fst_sub, Prod.snd_sub]
    ring
  have lb : b'.len ≤ 17 / 16 := by
    have := Vec.len_add (b' - b) b
    rw [sub_add_cancel, len_one hb] at this
    linarith
  have lc : c'.len ≤ 17 / 16 := by
    have := Vec.len_add (c' - c) c
    rw [sub_add_cancel, len_one hc] at this
    linarith
  have k1 := (abs_le.mp (det3_le (a' - a) b' c')).1
  have k2 := (abs_le.mp (det3_le a (b' - b) c')).1
  have k3 := (abs_le.mp (det3_le a b (c' - c))).1
  rw [len_one ha, one_mul] at k2
  rw [len_one ha, len_one hb, one_mul, one_mul] at k3
  have m1 : (a' - a).len * b'.len * c'.len ≤ δ * (17 / 16) * (17 / 16) :=
    mul_le_mul (mul_le_mul ha' lb b'.len_nonneg hδ) lc c'.len_nonneg (by positivity)
  have m2 : (b' - b).len * c'.len ≤ δ * (17 / 16) := mul_le_mul hb' lc c'.len_nonneg hδ
  nlinarith

end Bempp
