import Verif.Proofs.Sphere
import Verif.Spec.Shapes
import Mathlib.Tactic.Ring
import Mathlib.Tactic.Linarith
import Mathlib.Tactic.LinearCombination
import Mathlib.Tactic.Positivity
import Mathlib.Tactic.FieldSimp
import Mathlib.Tactic.Module
import Mathlib.Algebra.BigOperators.Group.Finset.Basic
/-
The geometry of refinement: new points are multiples of the sum of the end points of an edge.
-/
set_option linter.unusedSectionVars false
set_option linter.unusedVariables false

namespace Bempp

/-- The determinant of three vectors. -/
noncomputable def det3 (a b c : Vec) : ℝ := Vec.dot a (Vec.cross b c)

/-- The factor from the sum of two points to the new point between them. -/
noncomputable def scale (a b : Vec) : ℝ :=
  1 / 2 / Real.sqrt (0 + 1 / 2 * (a.1 + b.1) * (1 / 2 * (a.1 + b.1)) +
    1 / 2 * (a.2.1 + b.2.1) * (1 / 2 * (a.2.1 + b.2.1)) + 1 / 2 * (a.2.2 + b.2.2) * (1 / 2 * (a.2.2 + b.2.2)))

theorem scale_comm (a b : Vec) : scale a b = scale b a := by
  unfold scale
  rw [add_comm a.1, add_comm a.2.1, add_comm a.2.2]

theorem newPoint_comm (a b : Vec) : newPoint (1 / 2) Real.sqrt a b = newPoint (1 / 2) Real.sqrt b a := by
  unfold newPoint
  rw [add_comm a.1, add_comm a.2.1, add_comm a.2.2]

theorem newPoint_eq (a b : Vec) : newPoint (1 / 2) Real.sqrt a b = scale a b • (a + b) := by
  unfold newPoint scale
  ext <;> simp <;> ring

theorem vec_sq_pos {x : Vec} (h : x ≠ 0) : 0 < x.1 * x.1 + x.2.1 * x.2.1 + x.2.2 * x.2.2 := by
  by_contra hn
  apply h
  have h1 := mul_self_nonneg x.1
  have h2 := mul_self_nonneg x.2.1
  have h3 := mul_self_nonneg x.2.2
  have e1 : x.1 * x.1 = 0 := by linarith
  have e2 : x.2.1 * x.2.1 = 0 := by linarith
  have e3 : x.2.2 * x.2.2 = 0 := by linarith
  ext
  · simpa using e1
  · simpa using e2
  · simpa using e3

theorem half_sq (a b : Vec) : (0 : ℝ) + 1 / 2 * (a.1 + b.1) * (1 / 2 * (a.1 + b.1)) +
    1 / 2 * (a.2.1 + b.2.1) * (1 / 2 * (a.2.1 + b.2.1)) + 1 / 2 * (a.2.2 + b.2.2) * (1 / 2 * (a.2.2 + b.2.2)) =
    1 / 4 * ((a + b).1 * (a + b).1 + (a + b).2.1 * (a + b).2.1 + (a + b).2.2 * (a + b).2.2) := by
  simp only [Prod.fst_add, Prod.snd_add]
  ring

theorem scale_pos {a b : Vec} (h : a + b ≠ 0) : 0 < scale a b := by
  unfold scale
  rw [half_sq]
  have := vec_sq_pos h
  positivity

theorem newPoint_unit {a b : Vec} (h : a + b ≠ 0) :
    Vec.dot (newPoint (1 / 2) Real.sqrt a b) (newPoint (1 / 2) Real.sqrt a b) = 1 := by
  have hp := vec_sq_pos h
  rw [newPoint_eq]
  unfold scale Vec.dot
  rw [half_sq]
  set q := (a + b).1 * (a + b).1 + (a + b).2.1 * (a + b).2.1 + (a + b).2.2 * (a + b).2.2 with hq
  have hs : Real.sqrt (1 / 4 * q) * Real.sqrt (1 / 4 * q) = 1 / 4 * q := Real.mul_self_sqrt (by positivity)
  have hs0 : Real.sqrt (1 / 4 * q) ≠ 0 := by positivity
  simp only [Prod.smul_fst, Prod.smul_snd, smul_eq_mul]
  generalize Real.sqrt (1 / 4 * q) = r at hs hs0
  field_simp
  linear_combination (-1 : ℝ) * hq - 4 * hs

theorem add_ne_zero_of_det {a b c : Vec} (h : 0 < det3 a b c) : a + b ≠ 0 ∧ b + c ≠ 0 ∧ a + c ≠ 0 := by
  have key : ∀ x y : Vec, x + y = 0 → x.1 = -y.1 ∧ x.2.1 = -y.2.1 ∧ x.2.2 = -y.2.2 := by
    intro x y e
    have e1 := congrArg (fun v : Vec => v.1) e
    have e2 := congrArg (fun v : Vec => v.2.1) e
    have e3 := congrArg (fun v : Vec => v.2.2) e
    simp at e1 e2 e3
    exact ⟨by linarith, by linarith, by linarith⟩
  unfold det3 Vec.dot Vec.cross at h
  refine ⟨fun e => ?_, fun e => ?_, fun e => ?_⟩
  · obtain ⟨e1, e2, e3⟩ := key _ _ e
    rw [e1, e2, e3] at h
    ring_nf at h
    exact lt_irrefl _ h
  · obtain ⟨e1, e2, e3⟩ := key _ _ e
    rw [e1, e2, e3] at h
    ring_nf at h
    exact lt_irrefl _ h
  · obtain ⟨e1, e2, e3⟩ := key _ _ e
    rw [e1, e2, e3] at h
    ring_nf at h
    exact lt_irrefl _ h

theorem det3_corner (a b c : Vec) (p q : ℝ) : det3 a (p • (a + b)) (q • (a + c)) = p * q * det3 a b c := by
  simp [det3, Vec.dot, Vec.cross]
  ring

theorem det3_middle (a b c : Vec) (p q r : ℝ) :
    det3 (p • (b + c)) (q • (a + c)) (r • (a + b)) = 2 * (p * q * r) * det3 a b c := by
  simp [det3, Vec.dot, Vec.cross]
  ring

theorem det3_rotate (a b c : Vec) : det3 b c a = det3 a b c := by
  simp [det3, Vec.dot, Vec.cross]
  ring

section
variable {N N' : Nat} {cs : List Tri} {e : Nat → Nat → Nat} {pos pos' : Nat → Vec}

/-- The positions of the points of a refined triangulation. -/
structure Refined (N : Nat) (cs : List Tri) (e : Nat → Nat → Nat) (pos pos' : Nat → Vec) : Prop where
  old : ∀ i, i < N → pos' i = pos i
  new : ∀ d ∈ edgesOf cs, pos' (e d.1 d.2) = newPoint (1 / 2) Real.sqrt (pos d.1) (pos d.2)

/-- All points are on the unit sphere and all triangles are seen positively oriented from outside. -/
structure Outward (N : Nat) (cs : List Tri) (pos : Nat → Vec) : Prop where
  unit : ∀ i, i < N → Vec.dot (pos i) (pos i) = 1
  det : ∀ t ∈ cs, 0 < det3 (pos t.p0) (pos t.p1) (pos t.p2)

theorem Outward.sum_ne (h : Outward N cs pos) {d : Nat × Nat} (hd : d ∈ edgesOf cs) :
    pos d.1 + pos d.2 ≠ 0 := by
  obtain ⟨t, ht, hd⟩ := mem_edgesOf.mp hd
  obtain ⟨h1, h2, h3⟩ := add_ne_zero_of_det (h.det t ht)
  simp only [Tri.edges, List.mem_cons, List.not_mem_nil, or_false] at hd
  rcases hd with rfl | rfl | rfl
  · exact h1
  · exact h2
  · simpa [add_comm] using h3

theorem Refined.scaled (hr : Refined N cs e pos pos') {d : Nat × Nat} (hd : d ∈ edgesOf cs) :
    pos' (e d.1 d.2) = scale (pos d.1) (pos d.2) • (pos d.1 + pos d.2) := by
  rw [hr.new d hd, newPoint_eq]

/-- The six directed edges of a triangle of a good mesh. -/
theorem GoodMesh.tri_edges (hg : GoodMesh N cs) {t : Tri} (ht : t ∈ cs) :
    (t.p0, t.p1) ∈ edgesOf cs ∧ (t.p1, t.p2) ∈ edgesOf cs ∧ (t.p0, t.p2) ∈ edgesOf cs ∧
    (t.p1, t.p0) ∈ edgesOf cs ∧ (t.p2, t.p1) ∈ edgesOf cs ∧ (t.p2, t.p0) ∈ edgesOf cs := by
  have h1 : (t.p0, t.p1) ∈ edgesOf cs := mem_edgesOf.mpr ⟨t, ht, by simp [Tri.edges]⟩
  have h2 : (t.p1, t.p2) ∈ edgesOf cs := mem_edgesOf.mpr ⟨t, ht, by simp [Tri.edges]⟩
  have h3 : (t.p2, t.p0) ∈ edgesOf cs := mem_edgesOf.mpr ⟨t, ht, by simp [Tri.edges]⟩
  exact ⟨h1, h2, hg.swap _ _ h3, hg.swap _ _ h1, hg.swap _ _ h2, h3⟩

/-- Refinement keeps points on the sphere and triangles oriented. -/
theorem Outward.refine (hg : GoodMesh N cs) (he : EdgeNumbers N N' cs e) (hr : Refined N cs e pos pos')
    (h : Outward N cs pos) : Outward N' (cs.flatMap (subdivide e)) pos' := by
  constructor
  · intro i hi
    by_cases hN : i < N
    · rw [hr.old i hN]
      exact h.unit i hN
    · obtain ⟨d, hd, rfl⟩ := he.surj i (by omega) hi
      rw [hr.new d hd]
      exact newPoint_unit (h.sum_ne hd)
  · intro x hx
    obtain ⟨t, ht, hx⟩ := List.mem_flatMap.mp hx
    obtain ⟨l0, l1, l2⟩ := hg.lt t ht
    obtain ⟨e1, e2, e3, e1', e2', e3'⟩ := hg.tri_edges ht
    have s1 := hr.scaled e1
    have s2 := hr.scaled e2
    have s3 := hr.scaled e3
    have p1 := scale_pos (h.sum_ne e1)
    have p2 := scale_pos (h.sum_ne e2)
    have p3 := scale_pos (h.sum_ne e3)
    have hd := h.det t ht
    dsimp only at s1 s2 s3 p1 p2 p3
    simp only [subdivide, List.mem_cons, List.not_mem_nil, or_false] at hx
    rcases hx with rfl | rfl | rfl | rfl <;> dsimp only
    · rw [hr.old _ l0, s1, s3, det3_corner]
      positivity
    · rw [hr.old _ l1, s2, s1, add_comm (pos t.p0) (pos t.p1), det3_corner, det3_rotate]
      positivity
    · rw [hr.old _ l2, s3, s2, add_comm (pos t.p0) (pos t.p2), add_comm (pos t.p1) (pos t.p2), det3_corner,
        det3_rotate, det3_rotate]
      positivity
    · rw [s1, s2, s3, det3_middle]
      positivity

/-- `x` is the combination of the corners of `t` with coefficients `f`. -/
structure Rep (pos : Nat → Vec) (t : Tri) (f : Nat → ℝ) (x : Vec) : Prop where
  nonneg : ∀ v, 0 ≤ f v
  zero : ∀ v, v ∉ t.verts → f v = 0
  eq : x = f t.p0 • pos t.p0 + f t.p1 • pos t.p1 + f t.p2 • pos t.p2

/-- The cones over the triangles cover space. -/
def Covers (cs : List Tri) (pos : Nat → Vec) : Prop := ∀ x, ∃ t ∈ cs, ∃ f, Rep pos t f x

/-- Representations are unique. -/
def UniqueRep (cs : List Tri) (pos : Nat → Vec) : Prop :=
  ∀ t ∈ cs, ∀ t' ∈ cs, ∀ f f' x, Rep pos t f x → Rep pos t' f' x → f = f'

/-- The sum of the coefficients. -/
noncomputable def Tri.total (t : Tri) (f : Nat → ℝ) : ℝ := f t.p0 + f t.p1 + f t.p2

theorem total_eq {t t' : Tri} (hne : t.p0 ≠ t.p1 ∧ t.p1 ≠ t.p2 ∧ t.p0 ≠ t.p2)
    (hne' : t'.p0 ≠ t'.p1 ∧ t'.p1 ≠ t'.p2 ∧ t'.p0 ≠ t'.p2) {f : Nat → ℝ} (h : ∀ v, v ∉ t.verts → f v = 0)
    (h' : ∀ v, v ∉ t'.verts → f v = 0) : t.total f = t'.total f := by
  have key : ∀ {t : Tri}, t.p0 ≠ t.p1 ∧ t.p1 ≠ t.p2 ∧ t.p0 ≠ t.p2 → t.total f = ∑ v ∈ t.verts, f v := by
    intro t hne
    obtain ⟨h1, h2, h3⟩ := hne
    rw [Tri.verts, Finset.sum_insert (by simp [h1, h3]), Finset.sum_insert (by simp [h2]), Finset.sum_singleton,
      Tri.total, add_assoc]
  rw [key hne, key hne']
  have a : ∑ v ∈ t.verts, f v = ∑ v ∈ t.verts ∪ t'.verts, f v :=
    Finset.sum_subset Finset.subset_union_left fun v _ hv => h v hv
  have b : ∑ v ∈ t'.verts, f v = ∑ v ∈ t.verts ∪ t'.verts, f v :=
    Finset.sum_subset Finset.subset_union_right fun v _ hv => h' v hv
  rw [a, b]

/-- The coefficient of an old point in the refined triangulation. -/
noncomputable def oldCoef (S g : ℝ) : ℝ := max 0 (2 * g - S)

/-- The coefficient (times the scale) of the new point of an edge. -/
noncomputable def newCoef (S g h : ℝ) : ℝ := max 0 (min (min g h) (g + h - S / 2))

theorem newCoef_comm (S g h : ℝ) : newCoef S g h = newCoef S h g := by
  unfold newCoef
  rw [min_comm g h, add_comm g h]

theorem newCoef_zero_left (S : ℝ) {h : ℝ} (hh : 0 ≤ h) : newCoef S 0 h = 0 := by
  unfold newCoef
  apply max_eq_left
  exact (min_le_left _ _).trans (min_le_left _ _)

theorem newCoef_zero_right (S : ℝ) {h : ℝ} (hh : 0 ≤ h) : newCoef S h 0 = 0 := by
  rw [newCoef_comm]
  exact newCoef_zero_left S hh

theorem coef_corner {A B C : ℝ} (hA : 0 ≤ A) (hB : 0 ≤ B) (hC : 0 ≤ C) :
    oldCoef (A + B + C + B + C) (A + B + C) = A ∧ oldCoef (A + B + C + B + C) B = 0 ∧
    oldCoef (A + B + C + B + C) C = 0 ∧
    newCoef (A + B + C + B + C) (A + B + C) B = B ∧ newCoef (A + B + C + B + C) (A + B + C) C = C ∧
    newCoef (A + B + C + B + C) B C = 0 := by
  unfold oldCoef newCoef
  refine ⟨?_, ?_, ?_, ?_, ?_, ?_⟩
  · rw [max_eq_right] <;> linarith
  · rw [max_eq_left]; linarith
  · rw [max_eq_left]; linarith
  · rw [min_eq_right (by linarith : B ≤ A + B + C), min_eq_left (by linarith), max_eq_right hB]
  · rw [min_eq_right (by linarith : C ≤ A + B + C), min_eq_left (by linarith), max_eq_right hC]
  · apply max_eq_left
    exact (min_le_right _ _).trans (by linarith)

theorem coef_middle {P Q R : ℝ} (hP : 0 ≤ P) (hQ : 0 ≤ Q) (hR : 0 ≤ R) :
    oldCoef (Q + R + (P + R) + (P + Q)) (Q + R) = 0 ∧ oldCoef (Q + R + (P + R) + (P + Q)) (P + R) = 0 ∧
    oldCoef (Q + R + (P + R) + (P + Q)) (P + Q) = 0 ∧
    newCoef (Q + R + (P + R) + (P + Q)) (Q + R) (P + R) = R ∧
    newCoef (Q + R + (P + R) + (P + Q)) (Q + R) (P + Q) = Q ∧
    newCoef (Q + R + (P + R) + (P + Q)) (P + R) (P + Q) = P := by
  unfold oldCoef newCoef
  refine ⟨?_, ?_, ?_, ?_, ?_, ?_⟩
  · rw [max_eq_left]; linarith
  · rw [max_eq_left]; linarith
  · rw [max_eq_left]; linarith
  · rw [min_eq_right, max_eq_right]
    · linarith
    · linarith
    · apply le_min <;> linarith
  · rw [min_eq_right, max_eq_right]
    · linarith
    · linarith
    · apply le_min <;> linarith
  · rw [min_eq_right, max_eq_right]
    · linarith
    · linarith
    · apply le_min <;> linarith

/-- A function of three points. -/
def three (a b c : Nat) (x y z : ℝ) (v : Nat) : ℝ := if v = a then x else if v = b then y else if v = c then z else 0

theorem three_nonneg {a b c : Nat} {x y z : ℝ} (hx : 0 ≤ x) (hy : 0 ≤ y) (hz : 0 ≤ z) (v : Nat) :
    0 ≤ three a b c x y z v := by
  unfold three
  split
  · exact hx
  · split
    · exact hy
    · split
      · exact hz
      · exact le_refl _

theorem three_a (a b c : Nat) (x y z : ℝ) : three a b c x y z a = x := by simp [three]

theorem three_b {a b : Nat} (c : Nat) (x y z : ℝ) (h : b ≠ a) : three a b c x y z b = y := by simp [three, h]

theorem three_c {a b c : Nat} (x y z : ℝ) (h : c ≠ a) (h' : c ≠ b) : three a b c x y z c = z := by
  simp [three, h, h']

theorem three_zero {a b c v : Nat} (x y z : ℝ) (h : v ≠ a) (h' : v ≠ b) (h'' : v ≠ c) :
    three a b c x y z v = 0 := by
  simp [three, h, h', h'']

/-- What is left of a representation by a part of a triangle with corners `a b c`. -/
structure Pushed (N : Nat) (cs : List Tri) (e : Nat → Nat → Nat) (pos : Nat → Vec) (a b c : Nat) (f : Nat → ℝ)
    (x : Vec) (g : Nat → ℝ) : Prop where
  nonneg : ∀ v, 0 ≤ g v
  zero : ∀ v, v ≠ a → v ≠ b → v ≠ c → g v = 0
  eq : x = g a • pos a + g b • pos b + g c • pos c
  fa : f a = oldCoef (g a + g b + g c) (g a)
  fb : f b = oldCoef (g a + g b + g c) (g b)
  fc : f c = oldCoef (g a + g b + g c) (g c)
  fab : scale (pos a) (pos b) * f (e a b) = newCoef (g a + g b + g c) (g a) (g b)
  fac : scale (pos a) (pos c) * f (e a c) = newCoef (g a + g b + g c) (g a) (g c)
  fbc : scale (pos b) (pos c) * f (e b c) = newCoef (g a + g b + g c) (g b) (g c)

/-- A triangle with its corners in any order. -/
structure Corners (N : Nat) (cs : List Tri) (a b c : Nat) : Prop where
  la : a < N
  lb : b < N
  lc : c < N
  hab : a ≠ b
  hbc : b ≠ c
  hac : a ≠ c
  ab : (a, b) ∈ edgesOf cs
  bc : (b, c) ∈ edgesOf cs
  ac : (a, c) ∈ edgesOf cs

theorem Corners.numbers (hc : Corners N cs a b c) (he : EdgeNumbers N N' cs e) :
    e a b ≠ e b c ∧ e a b ≠ e a c ∧ e a c ≠ e b c := by
  obtain ⟨_, _, _, h1, h2, h3, i1, i2, i3⟩ := hc
  refine ⟨fun h => ?_, fun h => ?_, fun h => ?_⟩
  · have := he.inj _ i1 _ i2 h; dsimp at this; omega
  · have := he.inj _ i1 _ i3 h; dsimp at this; omega
  · have := he.inj _ i3 _ i2 h; dsimp at this; omega

theorem Corners.push_corner (hc : Corners N cs a b c) (he : EdgeNumbers N N' cs e) (hr : Refined N cs e pos pos')
    (ho : Outward N cs pos) {f : Nat → ℝ} {x : Vec} (h0 : ∀ v, 0 ≤ f v)
    (hz : ∀ v, v ≠ a → v ≠ e a b → v ≠ e a c → f v = 0)
    (hx : x = f a • pos' a + f (e a b) • pos' (e a b) + f (e a c) • pos' (e a c)) :
    ∃ g, Pushed N cs e pos a b c f x g := by
  obtain ⟨n1, n2, n3⟩ := hc.numbers he
  have gab := he.ge a b
  have gac := he.ge a c
  have gbc := he.ge b c
  have ha := hc.la
  have hb := hc.lb
  have hc' := hc.lc
  have pab := scale_pos (ho.sum_ne hc.ab)
  have pac := scale_pos (ho.sum_ne hc.ac)
  dsimp only at pab pac
  have kA := h0 a
  have kB : 0 ≤ scale (pos a) (pos b) * f (e a b) := mul_nonneg pab.le (h0 _)
  have kC : 0 ≤ scale (pos a) (pos c) * f (e a c) := mul_nonneg pac.le (h0 _)
  obtain ⟨c1, c2, c3, c4, c5, c6⟩ := coef_corner kA kB kC
  have fb : f b = 0 := hz b (Ne.symm hc.hab) (by omega) (by omega)
  have fc : f c = 0 := hz c (Ne.symm hc.hac) (by omega) (by omega)
  have fbc : f (e b c) = 0 := hz _ (by omega) (Ne.symm n1) (Ne.symm n3)
  have ga := three_a a b c (f a + scale (pos a) (pos b) * f (e a b) + scale (pos a) (pos c) * f (e a c))
    (scale (pos a) (pos b) * f (e a b)) (scale (pos a) (pos c) * f (e a c))
  have gb := three_b c (f a + scale (pos a) (pos b) * f (e a b) + scale (pos a) (pos c) * f (e a c))
    (scale (pos a) (pos b) * f (e a b)) (scale (pos a) (pos c) * f (e a c)) (Ne.symm hc.hab)
  have gc := three_c (f a + scale (pos a) (pos b) * f (e a b) + scale (pos a) (pos c) * f (e a c))
    (scale (pos a) (pos b) * f (e a b)) (scale (pos a) (pos c) * f (e a c)) (Ne.symm hc.hac) (Ne.symm hc.hbc)
  refine ⟨_, three_nonneg (a := a) (b := b) (c := c) (add_nonneg (add_nonneg kA kB) kC) kB kC,
    fun v h1 h2 h3 => three_zero _ _ _ h1 h2 h3, ?_, ?_, ?_, ?_, ?_, ?_, ?_⟩
  · rw [ga, gb, gc, hx, hr.old a ha]
    have s1 := hr.scaled hc.ab
    have s2 := hr.scaled hc.ac
    dsimp only at s1 s2
    rw [s1, s2]
    module
  all_goals rw [ga, gb, gc]
  · exact c1.symm
  · rw [fb]; exact c2.symm
  · rw [fc]; exact c3.symm
  · exact c4.symm
  · exact c5.symm
  · rw [fbc, mul_zero]; exact c6.symm

theorem Corners.push_middle (hc : Corners N cs a b c) (he : EdgeNumbers N N' cs e) (hr : Refined N cs e pos pos')
    (ho : Outward N cs pos) {f : Nat → ℝ} {x : Vec} (h0 : ∀ v, 0 ≤ f v)
    (hz : ∀ v, v ≠ e b c → v ≠ e a c → v ≠ e a b → f v = 0)
    (hx : x = f (e b c) • pos' (e b c) + f (e a c) • pos' (e a c) + f (e a b) • pos' (e a b)) :
    ∃ g, Pushed N cs e pos a b c f x g := by
  have gab := he.ge a b
  have gac := he.ge a c
  have gbc := he.ge b c
  have ha := hc.la
  have hb := hc.lb
  have hc' := hc.lc
  have pab := scale_pos (ho.sum_ne hc.ab)
  have pac := scale_pos (ho.sum_ne hc.ac)
  have pbc := scale_pos (ho.sum_ne hc.bc)
  dsimp only at pab pac pbc
  have kR : 0 ≤ scale (pos a) (pos b) * f (e a b) := mul_nonneg pab.le (h0 _)
  have kQ : 0 ≤ scale (pos a) (pos c) * f (e a c) := mul_nonneg pac.le (h0 _)
  have kP : 0 ≤ scale (pos b) (pos c) * f (e b c) := mul_nonneg pbc.le (h0 _)
  obtain ⟨c1, c2, c3, c4, c5, c6⟩ := coef_middle kP kQ kR
  have fa : f a = 0 := hz a (by omega) (by omega) (by omega)
  have fb : f b = 0 := hz b (by omega) (by omega) (by omega)
  have fc : f c = 0 := hz c (by omega) (by omega) (by omega)
  have ga := three_a a b c (scale (pos a) (pos c) * f (e a c) + scale (pos a) (pos b) * f (e a b))
    (scale (pos b) (pos c) * f (e b c) + scale (pos a) (pos b) * f (e a b))
    (scale (pos b) (pos c) * f (e b c) + scale (pos a) (pos c) * f (e a c))
  have gb := three_b c (scale (pos a) (pos c) * f (e a c) + scale (pos a) (pos b) * f (e a b))
    (scale (pos b) (pos c) * f (e b c) + scale (pos a) (pos b) * f (e a b))
    (scale (pos b) (pos c) * f (e b c) + scale (pos a) (pos c) * f (e a c)) (Ne.symm hc.hab)
  have gc := three_c (scale (pos a) (pos c) * f (e a c) + scale (pos a) (pos b) * f (e a b))
    (scale (pos b) (pos c) * f (e b c) + scale (pos a) (pos b) * f (e a b))
    (scale (pos b) (pos c) * f (e b c) + scale (pos a) (pos c) * f (e a c)) (Ne.symm hc.hac) (Ne.symm hc.hbc)
  refine ⟨_, three_nonneg (a := a) (b := b) (c := c) (add_nonneg kQ kR) (add_nonneg kP kR) (add_nonneg kP kQ),
    fun v h1 h2 h3 => three_zero _ _ _ h1 h2 h3, ?_, ?_, ?_, ?_, ?_, ?_, ?_⟩
  · rw [ga, gb, gc, hx]
    have s1 := hr.scaled hc.ab
    have s2 := hr.scaled hc.ac
    have s3 := hr.scaled hc.bc
    dsimp only at s1 s2 s3
    rw [s1, s2, s3]
    module
  all_goals rw [ga, gb, gc]
  · rw [fa]; exact c1.symm
  · rw [fb]; exact c2.symm
  · rw [fc]; exact c3.symm
  · exact c4.symm
  · exact c5.symm
  · exact c6.symm

theorem Pushed.rotate (he : EdgeNumbers N N' cs e) {f g : Nat → ℝ} {x : Vec} (h : Pushed N cs e pos a b c f x g) :
    Pushed N cs e pos b c a f x g := by
  have s : g b + g c + g a = g a + g b + g c := by ring
  refine ⟨h.nonneg, fun v h1 h2 h3 => h.zero v h3 h1 h2, ?_, ?_, ?_, ?_, ?_, ?_, ?_⟩
  · rw [h.eq]; abel
  all_goals rw [s]
  · exact h.fb
  · exact h.fc
  · exact h.fa
  · exact h.fbc
  · rw [he.comm, scale_comm, newCoef_comm]; exact h.fab
  · rw [he.comm, scale_comm, newCoef_comm]; exact h.fac

theorem Tri.not_mem_verts {t : Tri} {v : Nat} : v ∉ t.verts ↔ v ≠ t.p0 ∧ v ≠ t.p1 ∧ v ≠ t.p2 := by
  simp [Tri.verts]

theorem GoodMesh.corners (hg : GoodMesh N cs) {t : Tri} (ht : t ∈ cs) :
    Corners N cs t.p0 t.p1 t.p2 ∧ Corners N cs t.p1 t.p2 t.p0 ∧ Corners N cs t.p2 t.p0 t.p1 := by
  obtain ⟨l0, l1, l2⟩ := hg.lt t ht
  obtain ⟨n0, n1, n2⟩ := hg.ne t ht
  obtain ⟨e1, e2, e3, e1', e2', e3'⟩ := hg.tri_edges ht
  exact ⟨⟨l0, l1, l2, n0, n1, n2, e1, e2, e3⟩, ⟨l1, l2, l0, n1, Ne.symm n2, Ne.symm n0, e2, e3', e1'⟩,
    ⟨l2, l0, l1, Ne.symm n2, n0, Ne.symm n1, e3', e1, e2'⟩⟩

/-- A representation by a part of a triangle comes from one by the triangle. -/
theorem push_part (hg : GoodMesh N cs) (he : EdgeNumbers N N' cs e) (hr : Refined N cs e pos pos')
    (ho : Outward N cs pos) {t y : Tri} (ht : t ∈ cs) (hy : y ∈ subdivide e t) {f : Nat → ℝ} {x : Vec}
    (h : Rep pos' y f x) : ∃ g, Pushed N cs e pos t.p0 t.p1 t.p2 f x g := by
  obtain ⟨c0, c1, c2⟩ := hg.corners ht
  simp only [subdivide, List.mem_cons, List.not_mem_nil, or_false] at hy
  have hz := h.zero
  have hx := h.eq
  rcases hy with rfl | rfl | rfl | rfl <;> dsimp only at hx
  · exact c0.push_corner he hr ho h.nonneg (fun v h1 h2 h3 => hz v (Tri.not_mem_verts.mpr ⟨h1, h2, h3⟩)) hx
  · have hx' := hx
    rw [he.comm t.p0 t.p1] at hx'
    obtain ⟨g, k⟩ := c1.push_corner he hr ho h.nonneg (fun v h1 h2 h3 => hz v (Tri.not_mem_verts.mpr ⟨h1, h2, by
      dsimp only; rw [he.comm t.p0]; exact h3⟩)) hx'
    exact ⟨g, (k.rotate he).rotate he⟩
  · have hx' := hx
    rw [he.comm t.p0 t.p2, he.comm t.p1 t.p2] at hx'
    obtain ⟨g, k⟩ := c2.push_corner he hr ho h.nonneg (fun v h1 h2 h3 => hz v (Tri.not_mem_verts.mpr ⟨h1, by
      dsimp only; rw [he.comm t.p0]; exact h2, by dsimp only; rw [he.comm t.p1]; exact h3⟩)) hx'
    exact ⟨g, k.rotate he⟩
  · exact c0.push_middle he hr ho h.nonneg (fun v h1 h2 h3 => hz v (Tri.not_mem_verts.mpr ⟨h1, h2, h3⟩)) hx

/-- The coefficients of the part are determined by those of the triangle. -/
theorem push_formula (hg : GoodMesh N cs) (he : EdgeNumbers N N' cs e) {t y : Tri} (ht : t ∈ cs)
    (hy : y ∈ subdivide e t) {f g : Nat → ℝ} {x : Vec} (h : Rep pos' y f x)
    (hp : Pushed N cs e pos t.p0 t.p1 t.p2 f x g) :
    Rep pos t g x ∧ (∀ v, v < N → f v = oldCoef (t.total g) (g v)) ∧
    (∀ d ∈ edgesOf cs, scale (pos d.1) (pos d.2) * f (e d.1 d.2) = newCoef (t.total g) (g d.1) (g d.2)) ∧
    ∀ v, N' ≤ v → f v = 0 := by
  obtain ⟨c0, -, -⟩ := hg.corners ht
  have hsub : ∀ n ∈ y.verts, N ≤ n → ∃ d ∈ t.edges, n = e d.1 d.2 := (subdivide_verts hg he ht hy).2
  have hold : ∀ n ∈ y.verts, n < N → n = t.p0 ∨ n = t.p1 ∨ n = t.p2 := by
    have q1 := he.ge t.p0 t.p1
    have q2 := he.ge t.p0 t.p2
    have q3 := he.ge t.p1 t.p2
    intro n hn hlt
    simp only [subdivide, List.mem_cons, List.not_mem_nil, or_false] at hy
    rcases hy with rfl | rfl | rfl | rfl <;> simp only [Tri.verts, Finset.mem_insert, Finset.mem_singleton] at hn <;>
      omega
  have hS : 0 ≤ t.total g := add_nonneg (add_nonneg (hp.nonneg _) (hp.nonneg _)) (hp.nonneg _)
  refine ⟨⟨hp.nonneg, fun v hv => ?_, hp.eq⟩, ?_, ?_, ?_⟩
  · obtain ⟨h1, h2, h3⟩ := Tri.not_mem_verts.mp hv
    exact hp.zero v h1 h2 h3
  · intro v hv
    by_cases h0 : v = t.p0
    · subst h0; exact hp.fa
    by_cases h1 : v = t.p1
    · subst h1; exact hp.fb
    by_cases h2 : v = t.p2
    · subst h2; exact hp.fc
    rw [hp.zero v h0 h1 h2, h.zero v fun hm => by
      rcases hold v hm hv with h | h | h
      · exact h0 h
      · exact h1 h
      · exact h2 h]
    unfold oldCoef
    rw [max_eq_left]
    linarith
  · intro d hd
    obtain ⟨d1, d2, dne⟩ := hg.edge_lt hd
    by_cases hin : (d.1 = t.p0 ∨ d.1 = t.p1 ∨ d.1 = t.p2) ∧ (d.2 = t.p0 ∨ d.2 = t.p1 ∨ d.2 = t.p2)
    · have hab := hp.fab
      have hac := hp.fac
      have hbc := hp.fbc
      have hba : scale (pos t.p1) (pos t.p0) * f (e t.p1 t.p0) = newCoef (t.total g) (g t.p1) (g t.p0) := by
        rw [he.comm, scale_comm, newCoef_comm]; exact hab
      have hca : scale (pos t.p2) (pos t.p0) * f (e t.p2 t.p0) = newCoef (t.total g) (g t.p2) (g t.p0) := by
        rw [he.comm, scale_comm, newCoef_comm]; exact hac
      have hcb : scale (pos t.p2) (pos t.p1) * f (e t.p2 t.p1) = newCoef (t.total g) (g t.p2) (g t.p1) := by
        rw [he.comm, scale_comm, newCoef_comm]; exact hbc
      obtain ⟨i1, i2⟩ := hin
      rcases i1 with i1 | i1 | i1 <;> rcases i2 with i2 | i2 | i2 <;> rw [i1, i2] <;>
        first
        | exact absurd (i1.trans i2.symm) dne
        | exact hab
        | exact hac
        | exact hbc
        | exact hba
        | exact hca
        | exact hcb
    · have fz : f (e d.1 d.2) = 0 := by
        apply h.zero
        intro hm
        obtain ⟨d', hd', eq⟩ := hsub _ hm (he.ge _ _)
        have hv : (d'.1 = t.p0 ∨ d'.1 = t.p1 ∨ d'.1 = t.p2) ∧ (d'.2 = t.p0 ∨ d'.2 = t.p1 ∨ d'.2 = t.p2) := by
          simp only [Tri.edges, List.mem_cons, List.not_mem_nil, or_false] at hd'
          rcases hd' with rfl | rfl | rfl <;> simp
        have hd'' : d' ∈ edgesOf cs := mem_edgesOf.mpr ⟨t, ht, hd'⟩
        rcases he.inj _ hd _ hd'' eq with ⟨i1, i2⟩ | ⟨i1, i2⟩
        · rw [i1, i2] at hin; exact hin hv
        · rw [i1, i2] at hin; exact hin hv.symm
      rw [fz, mul_zero]
      by_cases i1 : d.1 = t.p0 ∨ d.1 = t.p1 ∨ d.1 = t.p2
      · have i2 : ¬ (d.2 = t.p0 ∨ d.2 = t.p1 ∨ d.2 = t.p2) := fun i2 => hin ⟨i1, i2⟩
        push Not at i2
        rw [hp.zero _ i2.1 i2.2.1 i2.2.2, newCoef_zero_right _ (hp.nonneg _)]
      · push Not at i1
        rw [hp.zero _ i1.1 i1.2.1 i1.2.2, newCoef_zero_left _ (hp.nonneg _)]
  · intro v hv
    apply h.zero
    intro hm
    by_cases hN : v < N
    · obtain ⟨d, hd⟩ : ∃ d, d ∈ edgesOf cs := ⟨_, c0.ab⟩
      have := he.ge d.1 d.2
      have := he.lt d hd
      omega
    · obtain ⟨d, hd, rfl⟩ := hsub v hm (by omega)
      have := he.lt d (mem_edgesOf.mpr ⟨t, ht, hd⟩)
      omega

/-- Refinement keeps representations unique. -/
theorem UniqueRep.refine (hg : GoodMesh N cs) (he : EdgeNumbers N N' cs e) (hr : Refined N cs e pos pos')
    (ho : Outward N cs pos) (hu : UniqueRep cs pos) : UniqueRep (cs.flatMap (subdivide e)) pos' := by
  intro y hy y' hy' f f' x h h'
  obtain ⟨t, ht, hy⟩ := List.mem_flatMap.mp hy
  obtain ⟨t', ht', hy'⟩ := List.mem_flatMap.mp hy'
  obtain ⟨g, k⟩ := push_part hg he hr ho ht hy h
  obtain ⟨g', k'⟩ := push_part hg he hr ho ht' hy' h'
  obtain ⟨r, a1, a2, a3⟩ := push_formula hg he ht hy h k
  obtain ⟨r', b1, b2, b3⟩ := push_formula hg he ht' hy' h' k'
  obtain rfl := hu t ht t' ht' g g' x r r'
  have hS : t.total g = t'.total g := total_eq (hg.ne t ht) (hg.ne t' ht') r.zero r'.zero
  funext v
  by_cases hN : v < N
  · rw [a1 v hN, b1 v hN, hS]
  by_cases hN' : v < N'
  · obtain ⟨d, hd, rfl⟩ := he.surj v (by omega) hN'
    have e1 := a2 d hd
    have e2 := b2 d hd
    rw [hS] at e1
    have p := scale_pos (ho.sum_ne hd)
    exact mul_left_cancel₀ p.ne' (e1.trans e2.symm)
  · rw [a3 v (by omega), b3 v (by omega)]

theorem Corners.cover_corner (hc : Corners N cs a b c) (he : EdgeNumbers N N' cs e) (hr : Refined N cs e pos pos')
    (ho : Outward N cs pos) {g : Nat → ℝ} {x : Vec} (h0 : ∀ v, 0 ≤ g v)
    (hx : x = g a • pos a + g b • pos b + g c • pos c) (hd : g b + g c ≤ g a) :
    ∃ f, Rep pos' ⟨a, e a b, e a c⟩ f x := by
  obtain ⟨n1, n2, n3⟩ := hc.numbers he
  have gab := he.ge a b
  have gac := he.ge a c
  have ha := hc.la
  have pab := scale_pos (ho.sum_ne hc.ab)
  have pac := scale_pos (ho.sum_ne hc.ac)
  dsimp only at pab pac
  refine ⟨three a (e a b) (e a c) (g a - g b - g c) (g b / scale (pos a) (pos b)) (g c / scale (pos a) (pos c)),
    three_nonneg (by linarith) (div_nonneg (h0 _) pab.le) (div_nonneg (h0 _) pac.le), ?_, ?_⟩
  · intro v hv
    obtain ⟨h1, h2, h3⟩ := Tri.not_mem_verts.mp hv
    exact three_zero _ _ _ h1 h2 h3
  · dsimp only
    rw [three_a, three_b _ _ _ _ (by omega : e a b ≠ a), three_c _ _ _ (by omega : e a c ≠ a) (Ne.symm n2)]
    have s1 := hr.scaled hc.ab
    have s2 := hr.scaled hc.ac
    dsimp only at s1 s2
    rw [s1, s2, hr.old a ha, smul_smul, smul_smul, div_mul_cancel₀ _ pab.ne', div_mul_cancel₀ _ pac.ne', hx]
    module

theorem Corners.cover_middle (hc : Corners N cs a b c) (he : EdgeNumbers N N' cs e) (hr : Refined N cs e pos pos')
    (ho : Outward N cs pos) {g : Nat → ℝ} {x : Vec}
    (hx : x = g a • pos a + g b • pos b + g c • pos c) (h1 : g a ≤ g b + g c) (h2 : g b ≤ g a + g c)
    (h3 : g c ≤ g a + g b) : ∃ f, Rep pos' ⟨e b c, e a c, e a b⟩ f x := by
  obtain ⟨n1, n2, n3⟩ := hc.numbers he
  have pab := scale_pos (ho.sum_ne hc.ab)
  have pac := scale_pos (ho.sum_ne hc.ac)
  have pbc := scale_pos (ho.sum_ne hc.bc)
  dsimp only at pab pac pbc
  refine ⟨three (e b c) (e a c) (e a b) ((g b + g c - g a) / 2 / scale (pos b) (pos c))
    ((g a + g c - g b) / 2 / scale (pos a) (pos c)) ((g a + g b - g c) / 2 / scale (pos a) (pos b)),
    three_nonneg (div_nonneg (by linarith) pbc.le) (div_nonneg (by linarith) pac.le)
      (div_nonneg (by linarith) pab.le), ?_, ?_⟩
  · intro v hv
    obtain ⟨h1, h2, h3⟩ := Tri.not_mem_verts.mp hv
    exact three_zero _ _ _ h1 h2 h3
  · dsimp only
    rw [three_a, three_b _ _ _ _ n3, three_c _ _ _ n1 n2]
    have s1 := hr.scaled hc.ab
    have s2 := hr.scaled hc.ac
    have s3 := hr.scaled hc.bc
    dsimp only at s1 s2 s3
    rw [s1, s2, s3, smul_smul, smul_smul, smul_smul, div_mul_cancel₀ _ pab.ne', div_mul_cancel₀ _ pac.ne',
      div_mul_cancel₀ _ pbc.ne', hx]
    module

/-- Refinement leaves no gaps. -/
theorem Covers.refine (hg : GoodMesh N cs) (he : EdgeNumbers N N' cs e) (hr : Refined N cs e pos pos')
    (ho : Outward N cs pos) (hu : Covers cs pos) : Covers (cs.flatMap (subdivide e)) pos' := by
  intro x
  obtain ⟨t, ht, g, h⟩ := hu x
  obtain ⟨c0, c1, c2⟩ := hg.corners ht
  have hx := h.eq
  by_cases h0 : g t.p1 + g t.p2 ≤ g t.p0
  · obtain ⟨f, k⟩ := c0.cover_corner he hr ho h.nonneg hx h0
    exact ⟨_, List.mem_flatMap.mpr ⟨t, ht, by simp [subdivide]⟩, f, k⟩
  by_cases h1 : g t.p2 + g t.p0 ≤ g t.p1
  · obtain ⟨f, k⟩ := c1.cover_corner he hr ho (x := x) h.nonneg (by rw [hx]; abel) h1
    rw [he.comm t.p1 t.p0] at k
    exact ⟨_, List.mem_flatMap.mpr ⟨t, ht, by simp [subdivide]⟩, f, k⟩
  by_cases h2 : g t.p0 + g t.p1 ≤ g t.p2
  · obtain ⟨f, k⟩ := c2.cover_corner he hr ho (x := x) h.nonneg (by rw [hx]; abel) h2
    rw [he.comm t.p2 t.p0, he.comm t.p2 t.p1] at k
    exact ⟨_, List.mem_flatMap.mpr ⟨t, ht, by simp [subdivide]⟩, f, k⟩
  obtain ⟨f, k⟩ := c0.cover_middle he hr ho hx (by linarith) (by linarith) (by linarith)
  exact ⟨_, List.mem_flatMap.mpr ⟨t, ht, by simp [subdivide]⟩, f, k⟩

end
end Bempp
