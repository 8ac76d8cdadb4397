import Verif.Proofs.ShapeClose
import Verif.Props.SphereWidth
import Verif.Props.Screen
import Verif.Props.Rounding
/-
Property C71: the shapes in floating point arithmetic.
-/
set_option linter.unusedSectionVars false

namespace Bempp

section
variable {u : ℝ} {A : Arith ℝ u} {sqrt : Fl A → Fl A} {fromNat : Nat → Fl A}

/-- The coordinates of the points. -/
noncomputable def SphereState.posFl (s : SphereState (Fl A)) (v : Nat) : Vec := realVec (s.points.getD v (0, 0, 0))

theorem SphereState.posFl_eq {s : SphereState (Fl A)} {v : Nat} {x : Fl A × Fl A × Fl A} (h : s.points[v]? = some x) :
    s.posFl v = realVec x := by
  simp [SphereState.posFl, List.getD, h]

theorem Middle.comm {a b x : Vec} (h : Middle u a b x) : Middle u b a x := by
  obtain ⟨h1, h2, h3⟩ := h
  exact ⟨by rwa [add_comm b.1], by rwa [add_comm b.2.1], by rwa [add_comm b.2.2]⟩

/-- One round in floating point arithmetic. -/
theorem refinedFl_points (h0 : 0 ≤ u) (h1 : u < 1) (hs : RoundedSqrt A sqrt) {n : Nat} {s s' : SphereState (Fl A)}
    (h : SphereInv n s) (e : refineLevel halfFl sqrt s = some s') :
    RefinedFl u s.pointN s.cells (look s.pointN (edgeKeys s.cells)) s.posFl s'.posFl := by
  obtain ⟨s'', e', hn, hl, hc, hold, hnew⟩ := refineLevel_eq (half := halfFl) (sqrt := sqrt) h.length h.good.lt
  obtain rfl : s' = s'' := Option.some.inj (e.symm.trans e')
  have good := h.good
  constructor
  · intro i hi
    simp only [SphereState.posFl, List.getD, hold i hi]
  · intro d hd hne
    have hk : sortPair d.1 d.2 ∈ edgeKeys s.cells := by
      obtain ⟨l1, l2, l3⟩ := good.edge_lt hd
      rw [mem_edgeKeys_iff good]
      unfold sortPair
      split
      · exact ⟨good.swap _ _ hd, by dsimp; omega⟩
      · exact ⟨hd, by dsimp; omega⟩
    have hi : (edgeKeys s.cells)[(edgeKeys s.cells).idxOf (sortPair d.1 d.2)]? = some (sortPair d.1 d.2) :=
      List.getElem?_eq_some_iff.mpr ⟨List.idxOf_lt_length_of_mem hk, List.getElem_idxOf _⟩
    obtain ⟨vi, vj, k1, k2, k3⟩ := hnew _ _ hi
    have q1 := SphereState.posFl_eq k1
    have q2 := SphereState.posFl_eq k2
    have key : ∀ a b : Fl A × Fl A × Fl A, (realVec a = s.posFl d.1 ∧ realVec b = s.posFl d.2 ∨
        realVec a = s.posFl d.2 ∧ realVec b = s.posFl d.1) →
        s'.points[s.pointN + (edgeKeys s.cells).idxOf (sortPair d.1 d.2)]? = some (newPoint halfFl sqrt a b) →
        ∃ x size, 0 < size ∧ Middle u (s.posFl d.1) (s.posFl d.2) x ∧ x ≠ 0 ∧
          Normed u x (s'.posFl (look s.pointN (edgeKeys s.cells) d.1 d.2)) size := by
      intro a b hab k
      have q3 : s'.posFl (look s.pointN (edgeKeys s.cells) d.1 d.2) = realVec (newPoint halfFl sqrt a b) :=
        SphereState.posFl_eq k
      rw [q3]
      rcases hab with ⟨ea, eb⟩ | ⟨ea, eb⟩
      · obtain ⟨x, size, hp, hm, hx, hN⟩ := newPoint_middle h0 h1 hs a b (by rwa [ea, eb])
        rw [ea, eb] at hm
        exact ⟨x, size, hp, hm, hx, hN⟩
      · obtain ⟨x, size, hp, hm, hx, hN⟩ := newPoint_middle h0 h1 hs a b (by rwa [ea, eb, add_comm])
        rw [ea, eb] at hm
        exact ⟨x, size, hp, hm.comm, hx, hN⟩
    have hij : realVec vi = s.posFl d.1 ∧ realVec vj = s.posFl d.2 ∨
        realVec vi = s.posFl d.2 ∧ realVec vj = s.posFl d.1 := by
      rw [← q1, ← q2]
      unfold sortPair
      split
      · exact Or.inr ⟨rfl, rfl⟩
      · exact Or.inl ⟨rfl, rfl⟩
    rcases k3 with k3 | k3
    · exact key vi vj hij k3
    · exact key vj vi (by tauto) k3

theorem octahedron_posFl (v : Nat) : (octahedronStart (T := Fl A)).posFl v = (octahedronStart (T := ℝ)).pos v := by
  have e0 : (0 : Fl A).val = 0 := rfl
  have e1 : (1 : Fl A).val = 1 := rfl
  have e2 : (-1 : Fl A).val = -1 := rfl
  rcases v with _ | _ | _ | _ | _ | _ | v <;>
    simp [SphereState.posFl, SphereState.pos, octahedronStart, List.getD, realVec, e0, e1, e2]

theorem lowSq_le_one (h0 : 0 ≤ u) (h1 : u < 1) : lowSq u ≤ 1 ∧ 1 ≤ highSq u := by
  have p3 : 1 ≤ (1 + u) ^ 3 := one_le_pow₀ (by linarith)
  have q3 : (1 - u) ^ 3 ≤ 1 := pow_le_one₀ (by linarith) (by linarith)
  have q0 : 0 < (1 - u) ^ 3 := pow_pos (by linarith) 3
  constructor
  · unfold lowSq
    apply pow_le_one₀
    · have : 0 ≤ 1 - u := by linarith
      positivity
    · rw [div_le_one (by linarith)]
      linarith
  · unfold highSq
    apply one_le_pow₀
    rw [le_div_iff₀ q0]
    linarith

/-- All levels: norms and angles. -/
theorem acute_state (h0 : 0 ≤ u) (h1 : u ≤ 1 / 64) (hs : RoundedSqrt A sqrt) (n : Nat) :
    ∃ s, (List.range n).foldlM (fun s _ => refineLevel halfFl sqrt s) (octahedronStart (T := Fl A)) = some s ∧
      SphereInv n s ∧ Acute s.pointN s.cells (lowSq u) (highSq u) s.posFl := by
  obtain ⟨b1, b2⟩ := lowSq_le_one h0 (by linarith)
  induction n with
  | zero =>
    refine ⟨_, rfl, ⟨rfl, rfl, octahedron_good⟩, ?_, ?_, ?_⟩
    · intro i hi
      rw [octahedron_posFl, octahedron_outward.unit i hi]
      exact b1
    · intro i hi
      rw [octahedron_posFl, octahedron_outward.unit i hi]
      exact b2
    · intro t ht
      rw [octahedron_posFl, octahedron_posFl, octahedron_posFl]
      have := octahedron_width.le t ht
      have e : cosine 0 = 0 := by simp [cosine]
      rwa [e] at this
  | succ n ih =>
    obtain ⟨s, e, h, ha⟩ := ih
    obtain ⟨s', e', h'⟩ := refineLevel_inv (half := (halfFl : Fl A)) (sqrt := sqrt) h
    refine ⟨s', ?_, h', ?_⟩
    · rw [List.range_succ, List.foldlM_append, e]
      simpa using e'
    · obtain ⟨s'', e'', hn, hl, hc, -, -⟩ := refineLevel_eq (half := (halfFl : Fl A)) (sqrt := sqrt) h.length h.good.lt
      obtain rfl : s' = s'' := Option.some.inj (e'.symm.trans e'')
      rw [hn, hc]
      exact ha.refine h0 (by linarith) (enough_of_small h0 h1) h.good (look_numbers h.good)
        (refinedFl_points h0 (by linarith) hs h e')

/-- All levels: the computed and the exact points. -/
theorem close_state (h0 : 0 ≤ u) (hs : RoundedSqrt A sqrt) (n : Nat) (h1 : (n : ℝ) ^ 2 * u ≤ 1 / 128) :
    ∃ s r, (List.range n).foldlM (fun s _ => refineLevel halfFl sqrt s) (octahedronStart (T := Fl A)) = some s ∧
      (List.range n).foldlM (fun s _ => refineLevel (1 / 2) Real.sqrt s) (octahedronStart (T := ℝ)) = some r ∧
      SphereInv n s ∧ RealInv n r ∧ s.pointN = r.pointN ∧ s.cells = r.cells ∧ DetLow n r.cells r.pos ∧
      CloseTo u n r.pointN r.pos s.posFl := by
  induction n with
  | zero =>
    refine ⟨_, _, rfl, rfl, ⟨rfl, rfl, octahedron_good⟩, ⟨⟨rfl, rfl, octahedron_good⟩, octahedron_outward,
      octahedron_covers, octahedron_unique, octahedron_width⟩, rfl, rfl, ?_, ?_⟩
    · intro t ht
      have : t ∈ octCells := ht
      simp only [octCells, List.mem_cons, List.not_mem_nil, or_false] at this
      rcases this with rfl | rfl | rfl | rfl | rfl | rfl | rfl | rfl <;>
        simp [octahedron_pos, det3, Vec.dot, Vec.cross]
    · intro i hi
      rw [octahedron_posFl, sub_self]
      simp [Vec.len, Vec.dot]
  | succ n ih =>
    obtain ⟨hu, hn2, -⟩ := CloseTo.small h0 h1
    obtain ⟨s, r, e, f, h, hr, en, ec, hd, hc⟩ := ih hn2
    obtain ⟨s', e', h'⟩ := refineLevel_inv (half := (halfFl : Fl A)) (sqrt := sqrt) h
    obtain ⟨r', f', hr'⟩ := refineLevel_real hr
    obtain ⟨s'', e'', hn, -, hcs, -, -⟩ := refineLevel_eq (half := (halfFl : Fl A)) (sqrt := sqrt) h.length h.good.lt
    obtain rfl : s' = s'' := Option.some.inj (e'.symm.trans e'')
    obtain ⟨r'', f'', hm, -, hcr, -, -⟩ :=
      refineLevel_eq (half := (1 / 2 : ℝ)) (sqrt := Real.sqrt) hr.inv.length hr.inv.good.lt
    obtain rfl : r' = r'' := Option.some.inj (f'.symm.trans f'')
    have good := hr.inv.good
    have hrp := refined_points hr.inv f'
    have hfp := refinedFl_points h0 (by linarith) hs h e'
    rw [en, ec] at hfp
    refine ⟨s', r', ?_, ?_, h', hr', ?_, ?_, ?_, ?_⟩
    · rw [List.range_succ, List.foldlM_append, e]
      simpa using e'
    · rw [List.range_succ, List.foldlM_append, f]
      simpa using f'
    · rw [hn, hm, en, ec]
    · rw [hcs, hcr, en, ec]
    · rw [hcr]
      exact hd.refine good hrp hr.outward
    · rw [hm]
      exact hc.refine h0 h1 good (look_numbers good) hr.outward hr.width hrp hfp

theorem values_at (s : Shape (Fl A)) (v : Nat) : s.values.at v = (s.at v).map realVec := by
  simp only [Shape.at, Shape.values, List.getElem?_map, Option.map_map]
  rfl

theorem SphereState.shape_posFl {s : SphereState (Fl A)} {v : Nat} (h : v < s.points.length) :
    s.shape.values.at v = some (s.posFl v) := by
  rw [values_at, s.shape_at, List.getElem?_eq_getElem h, Option.map_some,
    SphereState.posFl_eq (List.getElem?_eq_getElem h)]

theorem SphereState.mem_values {s : SphereState (Fl A)} {p : Nat × Vec} (hp : p ∈ s.shape.values.points) :
    ∃ i, i < s.points.length ∧ p.2 = s.posFl i := by
  obtain ⟨q, hq, rfl⟩ := List.mem_map.mp hp
  simp only [SphereState.shape, List.mem_map] at hq
  obtain ⟨⟨x, i⟩, hx, rfl⟩ := hq
  have := List.mem_zipIdx' hx
  refine ⟨i, this.1, ?_⟩
  rw [SphereState.posFl_eq (List.getElem?_eq_getElem this.1), ← this.2]
  rfl

/-- C71: let every operation and the square root have a relative error of at most `u ≤ 1/64`. At every level, all
points of `regular_sphere` have a norm between `(1 - u) / (1 + u)^3` and `(1 + u) / (1 - u)^3`: errors of earlier
levels do not add up. The ends of every edge are at an angle of at most 90 degrees, so no division is by zero. -/
theorem C71_norms (h0 : 0 ≤ u) (h1 : u ≤ 1 / 64) (hs : RoundedSqrt A sqrt) (n : Nat) :
    ∃ s, regularSphere halfFl sqrt n = some s ∧
      (∀ p ∈ s.values.points, ((1 - u) / (1 + u) ^ 3) ^ 2 ≤ Vec.dot p.2 p.2 ∧
        Vec.dot p.2 p.2 ≤ ((1 + u) / (1 - u) ^ 3) ^ 2) ∧
      ∀ d ∈ s.edges, ∃ a b, s.values.at d.1 = some a ∧ s.values.at d.2 = some b ∧ 0 ≤ Vec.dot a b := by
  obtain ⟨s, e, h, ha⟩ := acute_state h0 h1 hs n
  refine ⟨s.shape, regularSphere_eq e, ?_, ?_⟩
  · intro p hp
    obtain ⟨i, hi, e⟩ := SphereState.mem_values hp
    rw [e]
    rw [h.length] at hi
    exact ⟨ha.low i hi, ha.high i hi⟩
  · intro d hd
    rw [s.shape_edges] at hd
    obtain ⟨l1, l2, -⟩ := h.good.edge_lt hd
    exact ⟨_, _, SphereState.shape_posFl (by rwa [h.length]), SphereState.shape_posFl (by rwa [h.length]), ha.edge hd⟩

/-- C71: as long as `n^2 * u ≤ 1/128`, the computed sphere of level `n` has the cells of the exact one, and every
point has a distance of at most `16 * n * u` from the exact point. -/
theorem C71_close (h0 : 0 ≤ u) (hs : RoundedSqrt A sqrt) (n : Nat) (h1 : (n : ℝ) ^ 2 * u ≤ 1 / 128) :
    ∃ s r, regularSphere halfFl sqrt n = some s ∧ realSphere n = some r ∧ s.cells = r.cells ∧
      s.points.length = r.points.length ∧
      ∀ v, v < r.points.length → ∃ a b, s.values.at v = some a ∧ r.at v = some b ∧
        Real.sqrt (Vec.dot (a - b) (a - b)) ≤ 16 * n * u := by
  obtain ⟨s, r, e, f, h, hr, en, ec, hd, hc⟩ := close_state h0 hs n h1
  refine ⟨s.shape, r.shape, regularSphere_eq e, regularSphere_eq f, ?_, ?_, ?_⟩
  · simp only [SphereState.shape, ec]
  · rw [s.shape_points, r.shape_points, h.length, hr.inv.length, en]
  · intro v hv
    rw [r.shape_points] at hv
    refine ⟨_, _, SphereState.shape_posFl (by rwa [h.length, en, ← hr.inv.length]), SphereState.shape_pos hv, ?_⟩
    refine (hc v (by rwa [← hr.inv.length])).trans ?_
    have := (growth_bounds n).2
    have : (n : ℝ) * u * growth n ≤ n * u * (7 / 4) :=
      mul_le_mul_of_nonneg_left this (mul_nonneg (Nat.cast_nonneg n) h0)
    have := mul_nonneg (Nat.cast_nonneg (α := ℝ) n) h0
    nlinarith

/-- C71: as long as `64 * n * 4^n * u ≤ 1` (level 21 for 53 binary digits), the normals of all cells of the computed
sphere point away from the origin. -/
theorem C71_outward (h0 : 0 ≤ u) (hs : RoundedSqrt A sqrt) (n : Nat) (h1 : 64 * n * 4 ^ n * u ≤ 1) :
    ∃ s, regularSphere halfFl sqrt n = some s ∧
    ∀ c ∈ s.cells, ∃ i j k x y z, c.2 = [i, j, k] ∧ s.values.at i = some x ∧ s.values.at j = some y ∧
      s.values.at k = some z ∧ 0 < Vec.dot (Vec.cross (y - x) (z - x)) x ∧ 0 < Vec.dot (Vec.cross (y - x) (z - x)) y ∧
      0 < Vec.dot (Vec.cross (y - x) (z - x)) z := by
  have p4 : (1 : ℝ) ≤ 4 ^ n := one_le_pow₀ (by norm_num)
  have nn : (0 : ℝ) ≤ n := Nat.cast_nonneg n
  have nu := mul_nonneg nn h0
  have n4 : (n : ℝ) ≤ 4 ^ n := by
    have : n < 4 ^ n := Nat.lt_pow_self (by norm_num)
    exact_mod_cast this.le
  have hsq : (n : ℝ) ^ 2 * u ≤ 1 / 128 := by
    rcases Nat.eq_zero_or_pos n with rfl | hn
    · simp
    · have hn1 : (1 : ℝ) ≤ n := by exact_mod_cast hn
      have n44 : 2 * (n : ℝ) ≤ 4 ^ n := by
        have key : ∀ m : Nat, 2 * m ≤ 4 ^ m := by
          intro m
          induction m with
          | zero => simp
          | succ m ih => rw [pow_succ]; have := Nat.one_le_pow m 4 (by norm_num); omega
        exact_mod_cast key n
      have := mul_le_mul_of_nonneg_left n44 nu
      nlinarith
  obtain ⟨s, r, e, f, h, hr, en, ec, hd, hc⟩ := close_state h0 hs n hsq
  refine ⟨s.shape, regularSphere_eq e, ?_⟩
  intro c hm
  obtain ⟨t, ht, hct⟩ := SphereState.shape_mem hm
  obtain ⟨l0, l1, l2⟩ := h.good.lt t ht
  refine ⟨_, _, _, _, _, _, hct, SphereState.shape_posFl (by rwa [h.length]),
    SphereState.shape_posFl (by rwa [h.length]), SphereState.shape_posFl (by rwa [h.length]), ?_⟩
  have key : ∀ a b c : Vec, Vec.dot (Vec.cross (b - a) (c - a)) a = det3 a b c ∧
      Vec.dot (Vec.cross (b - a) (c - a)) b = det3 a b c ∧ Vec.dot (Vec.cross (b - a) (c - a)) c = det3 a b c := by
    intro a b c
    refine ⟨?_, ?_, ?_⟩ <;> simp only [det3, Vec.dot, Vec.cross, Prod.fst_sub, Prod.snd_sub] <;> ring
  obtain ⟨k1, k2, k3⟩ := key (s.posFl t.p0) (s.posFl t.p1) (s.posFl t.p2)
  rw [k1, k2, k3, and_self, and_self]
  rw [en] at l0 l1 l2
  rw [ec] at ht
  have g := (growth_bounds n).2
  have g0 := (growth_bounds n).1
  have bound : 9 * n * u * growth n ≤ 63 / 4 * (n * u) := by
    have := mul_le_mul_of_nonneg_left g nu
    nlinarith
  have nu4 : 64 * (n * u) ≤ 1 / 4 ^ n := by
    rw [le_div_iff₀ (by linarith)]
    calc _ = _ := by ring
      _ ≤ _ := h1
  have inv1 : (1 : ℝ) / 4 ^ n ≤ 1 := by
    rw [div_le_one (by linarith)]
    exact p4
  have inv0 : (0 : ℝ) < 1 / 4 ^ n := by positivity
  have := det3_close (hr.outward.unit _ l0) (hr.outward.unit _ l1) (hc _ l0) (hc _ l1) (hc _ l2)
    (hr.outward.unit _ l2) (by
      rcases Nat.eq_zero_or_pos n with rfl | hn
      · simp
      · have : (4 : ℝ) ≤ 4 ^ n := by
          calc (4 : ℝ) = 4 ^ 1 := by norm_num
            _ ≤ _ := pow_le_pow_right₀ (by norm_num) hn
        have : (1 : ℝ) / 4 ^ n ≤ 1 / 4 := one_div_le_one_div_of_le (by norm_num) this
        linarith)
  have := hd t ht
  linarith

/-! ### Screens -/

/-- The coordinate of a point of a screen. -/
noncomputable def screenCoord (fromNat : Nat → Fl A) (n x : Nat) : ℝ := (fromNat x / fromNat (n + 1) : Fl A).val

theorem screenCoord_eq (h0 : 0 ≤ u) (h1 : u < 1) (hf : RoundedNat A fromNat) (n x : Nat) :
    ∃ t m : ℝ, 0 < m ∧ (1 - u) * (n + 1) ≤ m ∧ m ≤ (1 + u) * (n + 1) ∧ m = (fromNat (n + 1)).val ∧
      (1 - u) ^ 2 ≤ t ∧ t ≤ (1 + u) ^ 2 ∧ screenCoord fromNat n x = t * (x / m) := by
  have em := hf.err (n + 1)
  push_cast at em
  have nn : (0 : ℝ) ≤ n := Nat.cast_nonneg n
  obtain ⟨a, b⟩ := abs_le.mp em
  have hm : 0 < (fromNat (n + 1)).val := by nlinarith
  have ex := hf.err x
  have ex' : |(fromNat x).val - x| ≤ u * |(x : ℝ)| := by rwa [abs_of_nonneg (Nat.cast_nonneg x : (0 : ℝ) ≤ x)]
  obtain ⟨t, ht, e⟩ := factor_of_err h0 ex'
  have ed : |(fromNat x / fromNat (n + 1) : Fl A).val - (fromNat x).val / (fromNat (n + 1)).val| ≤
      u * |(fromNat x).val / (fromNat (n + 1)).val| := A.div_err _ _ hm.ne'
  obtain ⟨t', ht', e'⟩ := factor_of_err h0 ed
  obtain ⟨c1, c2⟩ := factor_bounds ht
  obtain ⟨c1', c2'⟩ := factor_bounds ht'
  refine ⟨t' * t, _, hm, by linarith, by linarith, rfl, ?_, ?_, ?_⟩
  · rw [pow_two]
    exact mul_le_mul c1' c1 (by linarith) (by linarith)
  · rw [pow_two]
    exact mul_le_mul c2' c2 (by linarith) (by linarith)
  · rw [screenCoord, e', e]
    ring

/-- Coordinates grow strictly from 0 and are the exact ones up to a relative error of `4 * u`. -/
theorem screenCoord_grid (h0 : 0 ≤ u) (hf : RoundedNat A fromNat) {n : Nat} (hn : 0 < n) (h1 : (n + 1) * u ≤ 1 / 8) :
    screenCoord fromNat n 0 = 0 ∧
    (∀ x y, x < y → y ≤ n → screenCoord fromNat n x < screenCoord fromNat n y) ∧
    ∀ x : Nat, |screenCoord fromNat n x - x / (n + 1)| ≤ 4 * u * (x / (n + 1)) := by
  have hn1 : (1 : ℝ) ≤ n := by exact_mod_cast hn
  have hu : u ≤ 1 / 16 := by nlinarith
  refine ⟨?_, ?_, ?_⟩
  · obtain ⟨t, m, -, -, -, -, -, -, e⟩ := screenCoord_eq h0 (by linarith) hf n 0
    rw [e]
    simp
  · intro x y hxy hyn
    obtain ⟨t, m, hm, -, -, em, -, b, e⟩ := screenCoord_eq h0 (by linarith) hf n x
    obtain ⟨t', m', -, -, -, em', a', -, e'⟩ := screenCoord_eq h0 (by linarith) hf n y
    obtain rfl : m' = m := em'.trans em.symm
    rw [e, e', ← mul_div_assoc, ← mul_div_assoc, div_lt_div_iff_of_pos_right hm]
    have hx0 : (0 : ℝ) ≤ x := Nat.cast_nonneg x
    have hxy' : (x : ℝ) + 1 ≤ y := by exact_mod_cast hxy
    have hy' : (y : ℝ) ≤ n := by exact_mod_cast hyn
    have k1 : t * x ≤ (1 + u) ^ 2 * x := mul_le_mul_of_nonneg_right b hx0
    have k2 : (1 - u) ^ 2 * (x + 1) ≤ t' * y := mul_le_mul a' hxy' (by linarith) (le_trans (sq_nonneg _) a')
    have xu : (x : ℝ) * u ≤ 1 / 8 := by nlinarith
    nlinarith
  · intro x
    obtain ⟨t, m, hm, l, r, em, a, b, e⟩ := screenCoord_eq h0 (by linarith) hf n x
    have hx0 : (0 : ℝ) ≤ x := Nat.cast_nonneg x
    have n1 : (0 : ℝ) < n + 1 := by linarith
    have e2 : screenCoord fromNat n x = t * ((n + 1) / m) * (x / (n + 1)) := by
      rw [e]
      field_simp
    have q0 : (0 : ℝ) ≤ x / (n + 1) := by positivity
    have f1 : (n + 1) / m ≤ 1 / (1 - u) := by
      rw [div_le_div_iff₀ hm (by linarith)]
      linarith
    have f2 : 1 / (1 + u) ≤ (n + 1) / m := by
      rw [div_le_div_iff₀ (by linarith) hm]
      linarith
    have g1 : t * ((n + 1) / m) ≤ 1 + 4 * u := by
      have : t * ((n + 1) / m) ≤ (1 + u) ^ 2 * (1 / (1 - u)) :=
        mul_le_mul b f1 (by positivity) (by positivity)
      refine this.trans ?_
      rw [mul_one_div, div_le_iff₀ (by linarith)]
      nlinarith
    have g2 : 1 - 4 * u ≤ t * ((n + 1) / m) := by
      have : (1 - u) ^ 2 * (1 / (1 + u)) ≤ t * ((n + 1) / m) :=
        mul_le_mul a f2 (by positivity) (le_trans (sq_nonneg _) a)
      refine le_trans ?_ this
      rw [mul_one_div, le_div_iff₀ (by linarith)]
      nlinarith
    have e3 : screenCoord fromNat n x - x / (n + 1) = (t * ((n + 1) / m) - 1) * (x / (n + 1)) := by
      rw [e2]
      ring
    rw [e3, abs_mul, abs_of_nonneg q0]
    refine mul_le_mul_of_nonneg_right ?_ q0
    rw [abs_le]
    constructor <;> linarith

theorem screen_values_at {s : Shape (Fl A)} {n : Nat} (hs : s.points = screenPoints fromNat n) {x y : Nat}
    (hx : x < n + 1) (hy : y < n + 1) :
    s.values.at (y * (n + 1) + x) = some (screenCoord fromNat n x, screenCoord fromNat n y, 0) := by
  rw [values_at, screen_at fromNat hs hx hy]
  rfl

/-- C71: as long as `(n + 1) * u ≤ 1/8`, the points of both screens are a grid: there are numbers `g 0 = 0 < g 1 < …
< g n`, which are the exact ones up to a relative error of `4 * u`, such that point `y * (n + 1) + x` is
`(g x, g y, 0)`. All cells have a positive area and face the same side. -/
theorem C71_screens (h0 : 0 ≤ u) (hf : RoundedNat A fromNat) {n : Nat} {s : Shape (Fl A)}
    (hs : screenTriangles fromNat n = some s ∨ screenQuadrilaterals fromNat n = some s)
    (h1 : (n + 1) * u ≤ 1 / 8) :
    (∃ g : Nat → ℝ, g 0 = 0 ∧ (∀ x y, x < y → y ≤ n → g x < g y) ∧
      (∀ x : Nat, |g x - x / (n + 1)| ≤ 4 * u * (x / (n + 1))) ∧
      ∀ x y, x ≤ n → y ≤ n → s.values.at (y * (n + 1) + x) = some (g x, g y, 0)) ∧
    ∀ c ∈ s.values.cells, ∃ a, 0 < a ∧ s.values.areaVector c.2 = (0, 0, a) := by
  have hp : 0 < n ∧ s.points = screenPoints fromNat n := by
    rcases hs with hs | hs
    · exact ⟨(screenTriangles_eq _ hs).1, (screenTriangles_eq _ hs).2.1⟩
    · exact ⟨(screenQuadrilaterals_eq _ hs).1, (screenQuadrilaterals_eq _ hs).2.1⟩
  obtain ⟨k1, k2, k3⟩ := screenCoord_grid h0 hf hp.1 h1
  refine ⟨⟨screenCoord fromNat n, k1, k2, k3, fun x y hx hy => screen_values_at hp.2 (by omega) (by omega)⟩, ?_⟩
  have at' : ∀ x y, x ≤ n → y ≤ n →
      s.values.at (gridPoint n x y) = some (screenCoord fromNat n x, screenCoord fromNat n y, 0) :=
    fun x y hx hy => screen_values_at hp.2 (by omega) (by omega)
  have area : ∀ x y, x < n → y < n → 0 < (screenCoord fromNat n (x + 1) - screenCoord fromNat n x) *
      (screenCoord fromNat n (y + 1) - screenCoord fromNat n y) := by
    intro x y hx hy
    have := k2 x (x + 1) (by omega) (by omega)
    have := k2 y (y + 1) (by omega) (by omega)
    exact mul_pos (by linarith) (by linarith)
  rintro ⟨i, c⟩ hc
  change (i, c) ∈ s.cells at hc
  rcases hs with hs | hs
  · obtain ⟨x, y, hx, hy, rfl | rfl⟩ := (mem_screenTriangles fromNat hs).mp ⟨i, hc⟩
    · refine ⟨_, area x y hx hy, ?_⟩
      simp only [lowerTri, Shape.areaVector, at' x y (by omega) (by omega), at' (x + 1) y (by omega) (by omega),
        at' (x + 1) (y + 1) (by omega) (by omega), Option.getD_some, Vec.cross, Prod.fst_sub, Prod.snd_sub]
      ext <;> simp
    · refine ⟨_, area x y hx hy, ?_⟩
      simp only [upperTri, Shape.areaVector, at' x y (by omega) (by omega), at' x (y + 1) (by omega) (by omega),
        at' (x + 1) (y + 1) (by omega) (by omega), Option.getD_some, Vec.cross, Prod.fst_sub, Prod.snd_sub]
      ext <;> simp
  · obtain ⟨x, y, hx, hy, rfl⟩ := (mem_screenQuadrilaterals fromNat hs).mp ⟨i, hc⟩
    refine ⟨2 * _, mul_pos two_pos (area x y hx hy), ?_⟩
    simp only [squareQuad, Shape.areaVector, at' x y (by omega) (by omega), at' x (y + 1) (by omega) (by omega),
      at' (x + 1) y (by omega) (by omega),
      at' (x + 1) (y + 1) (by omega) (by omega), Option.getD_some, Vec.cross, Prod.fst_sub, Prod.snd_sub]
    ext
    · simp
    · simp
    · simp only
      ring

end

/-! ### 53 binary digits -/

namespace Examples

noncomputable def sqrt53 (x : Fl real53) : Fl real53 := round53 (Real.sqrt x.val)
noncomputable def nat53 (k : Nat) : Fl real53 := round53 k

theorem sqrt53_rounded : RoundedSqrt real53 sqrt53 :=
  ⟨fun x _ => by
    have := round53_err (Real.sqrt x.val)
    rwa [abs_of_nonneg (Real.sqrt_nonneg _)] at this⟩

theorem nat53_rounded : RoundedNat real53 nat53 :=
  ⟨fun k => by
    have := round53_err (k : ℝ)
    rwa [abs_of_nonneg (Nat.cast_nonneg k : (0 : ℝ) ≤ k)] at this⟩

/-- All levels have norms within `1 ± 2^-50`. -/
example (n : Nat) : ∃ s, regularSphere halfFl sqrt53 n = some s ∧
    ∀ p ∈ s.values.points, (1 - 2⁻¹ ^ 50) ^ 2 ≤ Vec.dot p.2 p.2 ∧ Vec.dot p.2 p.2 ≤ (1 + 2⁻¹ ^ 50) ^ 2 := by
  obtain ⟨s, e, h, -⟩ := C71_norms (by positivity) (by norm_num) sqrt53_rounded n
  refine ⟨s, e, fun p hp => ⟨le_trans ?_ (h p hp).1, (h p hp).2.trans ?_⟩⟩ <;> norm_num

/-- Level 21 is within `2^-44` of the exact sphere and outward oriented. -/
example : ∃ s r, regularSphere halfFl sqrt53 21 = some s ∧ realSphere 21 = some r ∧ s.cells = r.cells ∧
    s.points.length = r.points.length ∧ ∀ v, v < r.points.length → ∃ a b, s.values.at v = some a ∧
      r.at v = some b ∧ Real.sqrt (Vec.dot (a - b) (a - b)) ≤ 16 * (21 : Nat) * 2⁻¹ ^ 53 :=
  C71_close (by positivity) sqrt53_rounded 21 (by norm_num)

example := C71_outward (by positivity) sqrt53_rounded 21 (by norm_num)

/-- Screens with up to `2^50 - 1` cells along a side. -/
example (n : Nat) (h0 : 0 < n) (h1 : n + 1 ≤ 2 ^ 50) : ∃ s, screenTriangles nat53 n = some s ∧
    ∀ c ∈ s.values.cells, ∃ a, 0 < a ∧ s.values.areaVector c.2 = (0, 0, a) := by
  obtain ⟨s, hs⟩ := screenTriangles_some nat53 h0
  refine ⟨s, hs, (C71_screens (by positivity) nat53_rounded (Or.inl hs) ?_).2⟩
  have : (n : ℝ) + 1 ≤ 2 ^ 50 := by exact_mod_cast h1
  calc _ ≤ (2 : ℝ) ^ 50 * 2⁻¹ ^ 53 := mul_le_mul_of_nonneg_right this (by positivity)
    _ ≤ _ := by norm_num

end Examples
end Bempp
