import Verif.Proofs.Sphere
import Verif.Spec.Touching
import Mathlib.Algebra.BigOperators.Ring.Finset
import Mathlib.Algebra.BigOperators.Intervals
import Mathlib.Tactic.Ring
/-
Triangles at a point, and triangles that touch a triangle, in closed triangulations.
-/
namespace Bempp

theorem sum_ite_countP {α : Type} (l : List α) (p : α → Prop) [DecidablePred p] :
    (l.map fun a => if p a then 1 else 0).sum = l.countP fun a => decide (p a) := by
  induction l with
  | nil => rfl
  | cons a l ih =>
    rw [List.map_cons, List.sum_cons, ih, List.countP_cons]
    by_cases h : p a <;> simp [h, Nat.add_comm]

theorem sum_map_finset {α : Type} (l : List α) (N : Nat) (f : α → Nat → Nat) :
    (l.map fun a => ∑ v ∈ Finset.range N, f a v).sum = ∑ v ∈ Finset.range N, (l.map fun a => f a v).sum := by
  induction l with
  | nil => simp
  | cons a l ih => simp [ih, Finset.sum_add_distrib]

/-- The number of triangles at a point. -/
def degreeAt (cs : List Tri) (v : Nat) : Nat := cs.countP fun t => decide (v ∈ t.verts)

section
variable {N N' : Nat} {cs : List Tri} {e : Nat → Nat → Nat}

theorem degree_refine_old (h : GoodMesh N cs) (he : EdgeNumbers N N' cs e) {v : Nat} (hv : v < N) :
    degreeAt (cs.flatMap (subdivide e)) v = degreeAt cs v := by
  unfold degreeAt
  rw [List.countP_flatMap, ← sum_ite_countP]
  congr 1
  apply List.map_congr_left
  intro t ht
  have hne := h.ne t ht
  have g0 := he.ge t.p1 t.p2
  have g1 := he.ge t.p0 t.p2
  have g2 := he.ge t.p0 t.p1
  have n0 : v ≠ e t.p1 t.p2 := by omega
  have n1 : v ≠ e t.p0 t.p2 := by omega
  have n2 : v ≠ e t.p0 t.p1 := by omega
  simp only [Function.comp, subdivide, List.countP_cons, List.countP_nil, Tri.verts, Finset.mem_insert, Finset.mem_singleton, n0, n1,
    n2, or_false, decide_eq_true_eq, if_false, decide_false, Bool.false_eq_true]
  split_ifs <;> omega

theorem degree_refine_new (h : GoodMesh N cs) (he : EdgeNumbers N N' cs e) {v : Nat} (hv : N ≤ v) (hv' : v < N') :
    degreeAt (cs.flatMap (subdivide e)) v = 6 := by
  have h1 : degreeAt (cs.flatMap (subdivide e)) v = 3 * (edgesOf cs).countP fun d => decide (e d.1 d.2 = v) := by
    unfold degreeAt edgesOf
    rw [List.countP_flatMap, List.countP_flatMap, ← List.sum_map_mul_left]
    congr 1
    apply List.map_congr_left
    intro t ht
    have hlt := h.lt t ht
    obtain ⟨n01, n02, n12⟩ := edge_numbers_ne h he ht
    have a0 : v ≠ t.p0 := by omega
    have a1 : v ≠ t.p1 := by omega
    have a2 : v ≠ t.p2 := by omega
    simp only [Function.comp, subdivide, List.countP_cons, List.countP_nil, Tri.verts, Finset.mem_insert, Finset.mem_singleton, a0,
      a1, a2, Tri.edges, false_or, decide_eq_true_eq, he.comm t.p2 t.p0]
    split_ifs <;> omega
  obtain ⟨d, hd, rfl⟩ := he.surj v hv hv'
  have hlt := h.edge_lt hd
  have h2 : ((edgesOf cs).filter fun d' => decide (e d'.1 d'.2 = e d.1 d.2)).Perm [d, (d.2, d.1)] := by
    rw [List.perm_ext_iff_of_nodup (h.nodup.filter _)]
    · intro d'
      simp only [List.mem_filter, decide_eq_true_eq, List.mem_cons, List.not_mem_nil, or_false]
      constructor
      · rintro ⟨h3, h4⟩
        rcases he.inj _ h3 _ hd h4 with h5 | h5
        · exact Or.inl (Prod.ext h5.1 h5.2)
        · exact Or.inr (Prod.ext h5.1 h5.2)
      · rintro (rfl | rfl)
        · exact ⟨hd, rfl⟩
        · exact ⟨h.swap _ _ hd, he.comm _ _⟩
    · simp only [List.nodup_cons, List.mem_singleton, List.not_mem_nil, not_false_eq_true, List.nodup_nil, and_true]
      intro c
      exact hlt.2.2 (congrArg Prod.fst c)
  rw [h1, List.countP_eq_length_filter, h2.length_eq]
  rfl

/-- Two triangles have the same points, or not all. -/
theorem all_mem_iff {t t' : Tri} (h : t.p0 ≠ t.p1 ∧ t.p1 ≠ t.p2 ∧ t.p0 ≠ t.p2)
    (h' : t'.p0 ≠ t'.p1 ∧ t'.p1 ≠ t'.p2 ∧ t'.p0 ≠ t'.p2) :
    (t.p0 ∈ t'.verts ∧ t.p1 ∈ t'.verts ∧ t.p2 ∈ t'.verts) ↔ t'.verts = t.verts := by
  constructor
  · rintro ⟨h0, h1, h2⟩
    have hsub : t.verts ⊆ t'.verts := by
      intro x hx
      simp only [Tri.verts, Finset.mem_insert, Finset.mem_singleton] at hx
      rcases hx with rfl | rfl | rfl <;> assumption
    have card : ∀ u : Tri, u.p0 ≠ u.p1 ∧ u.p1 ≠ u.p2 ∧ u.p0 ≠ u.p2 → u.verts.card = 3 := by
      intro u hu
      unfold Tri.verts
      rw [Finset.card_insert_of_notMem (by simp [hu.1, hu.2.2]), Finset.card_insert_of_notMem (by simp [hu.2.1]),
        Finset.card_singleton]
    exact (Finset.eq_of_subset_of_card_le hsub (by rw [card t h, card t' h'])).symm
  · intro e
    rw [e]
    simp [Tri.verts]

/-- A triangle has two points in common with an edge exactly when the edge, or its reverse, is an edge of it. -/
theorem both_mem_iff {t : Tri} {u v : Nat} (huv : u ≠ v) :
    (u ∈ t.verts ∧ v ∈ t.verts) ↔ (u, v) ∈ t.edges ∨ (v, u) ∈ t.edges := by
  simp only [Tri.verts, Tri.edges, Finset.mem_insert, Finset.mem_singleton, List.mem_cons, List.not_mem_nil, or_false,
    Prod.mk.injEq]
  omega

/-- Two triangles at each edge. -/
theorem GoodMesh.two_at_edge (h : GoodMesh N cs) {u v : Nat} (hd : (u, v) ∈ edgesOf cs) :
    (cs.countP fun t => decide (u ∈ t.verts ∧ v ∈ t.verts)) = 2 := by
  have hne : u ≠ v := (h.edge_lt hd).2.2
  have hc : ∀ d ∈ edgesOf cs, (cs.map fun t => t.edges.count d).sum = 1 := by
    intro d hd
    have := List.count_eq_one_of_mem h.nodup hd
    unfold edgesOf at this
    rw [List.count_flatMap] at this
    exact this
  have key : (cs.countP fun t => decide (u ∈ t.verts ∧ v ∈ t.verts)) =
      (cs.map fun t => t.edges.count (u, v) + t.edges.count (v, u)).sum := by
    rw [← sum_ite_countP]
    congr 1
    apply List.map_congr_left
    intro t ht
    have hn := h.ne t ht
    have hnd : t.edges.Nodup := by
      simp only [Tri.edges, List.nodup_cons, List.mem_cons, List.not_mem_nil, or_false, Prod.mk.injEq, not_or, List.nodup_nil,
        and_true, not_false_eq_true]
      omega
    have hrev : ¬ ((u, v) ∈ t.edges ∧ (v, u) ∈ t.edges) := fun c =>
      Tri.edges_not_reverse hn c.1 c.2 ⟨rfl, rfl⟩
    rw [if_congr (both_mem_iff hne) rfl rfl]
    by_cases a : (u, v) ∈ t.edges
    · have b : (v, u) ∉ t.edges := fun b => hrev ⟨a, b⟩
      rw [List.count_eq_one_of_mem hnd a, List.count_eq_zero_of_not_mem b, if_pos (Or.inl a)]
    · by_cases b : (v, u) ∈ t.edges
      · rw [List.count_eq_one_of_mem hnd b, List.count_eq_zero_of_not_mem a, if_pos (Or.inr b)]
      · rw [List.count_eq_zero_of_not_mem a, List.count_eq_zero_of_not_mem b, if_neg (by simp [a, b])]
  rw [key, List.sum_map_add, hc _ hd, hc _ (h.swap _ _ hd)]

/-- Only one triangle has the points of a triangle. -/
theorem GoodMesh.one_same (h : GoodMesh N cs) {t : Tri} (ht : t ∈ cs) :
    (cs.countP fun t' => decide (t'.verts = t.verts)) = 1 := by
  have hp := h.verts
  clear h
  induction cs with
  | nil => simp at ht
  | cons a l ih =>
    rw [List.pairwise_cons] at hp
    rw [List.countP_cons]
    rcases List.mem_cons.mp ht with rfl | ht
    · rw [if_pos (by simp), List.countP_eq_zero.mpr]
      intro b hb
      simpa using (hp.1 b hb).symm
    · rw [ih ht hp.2, if_neg]
      simpa using hp.1 t ht

/-- The number of triangles that touch a triangle. -/
def touchAt (cs : List Tri) (t : Tri) : Nat :=
  cs.countP fun t' => decide (t.p0 ∈ t'.verts ∨ t.p1 ∈ t'.verts ∨ t.p2 ∈ t'.verts)

/-- Inclusion and exclusion. -/
theorem GoodMesh.touch (h : GoodMesh N cs) {t : Tri} (ht : t ∈ cs) :
    touchAt cs t + 5 = degreeAt cs t.p0 + degreeAt cs t.p1 + degreeAt cs t.p2 := by
  have e0 := h.two_at_edge (h.of_edge ht (d := (t.p0, t.p1)) (by simp [Tri.edges])).1
  have e1 := h.two_at_edge (h.of_edge ht (d := (t.p1, t.p2)) (by simp [Tri.edges])).1
  have e2 := h.two_at_edge (h.of_edge ht (d := (t.p2, t.p0)) (by simp [Tri.edges])).1
  have e3 := h.one_same ht
  have key : degreeAt cs t.p0 + degreeAt cs t.p1 + degreeAt cs t.p2 + (cs.countP fun t' => decide (t'.verts = t.verts)) =
      touchAt cs t + ((cs.countP fun t' => decide (t.p0 ∈ t'.verts ∧ t.p1 ∈ t'.verts)) +
        (cs.countP fun t' => decide (t.p1 ∈ t'.verts ∧ t.p2 ∈ t'.verts)) +
        (cs.countP fun t' => decide (t.p2 ∈ t'.verts ∧ t.p0 ∈ t'.verts))) := by
    unfold degreeAt touchAt
    simp only [← sum_ite_countP, ← List.sum_map_add]
    congr 1
    apply List.map_congr_left
    intro t' ht'
    rw [if_congr (all_mem_iff (h.ne t ht) (h.ne t' ht')).symm rfl rfl]
    by_cases a : t.p0 ∈ t'.verts <;> by_cases b : t.p1 ∈ t'.verts <;> by_cases c : t.p2 ∈ t'.verts <;> simp [a, b, c]
  omega

/-- The sum over the triangles of the sum over their points. -/
theorem GoodMesh.sum_degrees (h : GoodMesh N cs) :
    (cs.map fun t => degreeAt cs t.p0 + degreeAt cs t.p1 + degreeAt cs t.p2).sum = ∑ v ∈ Finset.range N, degreeAt cs v ^ 2 := by
  have h1 : (cs.map fun t => degreeAt cs t.p0 + degreeAt cs t.p1 + degreeAt cs t.p2) =
      cs.map fun t => ∑ v ∈ Finset.range N, (if v ∈ t.verts then 1 else 0) * degreeAt cs v := by
    apply List.map_congr_left
    intro t ht
    have hlt := h.lt t ht
    have hne := h.ne t ht
    simp only [ite_mul, one_mul, zero_mul]
    rw [← Finset.sum_filter]
    have : (Finset.range N).filter (fun v => v ∈ t.verts) = t.verts := by
      ext v
      simp only [Finset.mem_filter, Finset.mem_range, Tri.verts, Finset.mem_insert, Finset.mem_singleton]
      omega
    rw [this]
    unfold Tri.verts
    rw [Finset.sum_insert (by simp [hne.1, hne.2.2]), Finset.sum_insert (by simp [hne.2.1]), Finset.sum_singleton]
    omega
  rw [h1, sum_map_finset]
  apply Finset.sum_congr rfl
  intro v _
  rw [List.sum_map_mul_right, sum_ite_countP, sq]
  rfl

end

/-- Four triangles at the first six points, six at all others. -/
def SphereDegrees (N : Nat) (cs : List Tri) : Prop := ∀ v, v < N → degreeAt cs v = if v < 6 then 4 else 6

theorem SphereDegrees.refine {N N' : Nat} {cs : List Tri} {e : Nat → Nat → Nat} (h : GoodMesh N cs)
    (he : EdgeNumbers N N' cs e) (h6 : 6 ≤ N) (hd : SphereDegrees N cs) : SphereDegrees N' (cs.flatMap (subdivide e)) := by
  intro v hv
  by_cases hN : v < N
  · rw [degree_refine_old h he hN, hd v hN]
  · rw [degree_refine_new h he (by omega) hv, if_neg (by omega)]

theorem SphereDegrees.total {N : Nat} {cs : List Tri} (h : GoodMesh N cs) (h6 : 6 ≤ N) (hd : SphereDegrees N cs) :
    (cs.map fun t => touchAt cs t).sum + 5 * cs.length = 96 + 36 * (N - 6) := by
  have h1 : (cs.map fun t => touchAt cs t + 5) = cs.map fun t => degreeAt cs t.p0 + degreeAt cs t.p1 + degreeAt cs t.p2 :=
    List.map_congr_left fun t ht => h.touch ht
  have h2 := congrArg List.sum h1
  rw [h.sum_degrees, List.sum_map_add, List.map_const', List.sum_replicate, smul_eq_mul] at h2
  obtain ⟨M, rfl⟩ : ∃ M, N = 6 + M := ⟨N - 6, by omega⟩
  rw [Finset.sum_range_add] at h2
  have h3 : ∑ v ∈ Finset.range 6, degreeAt cs v ^ 2 = 96 := by
    rw [Finset.sum_congr rfl (g := fun _ => 16)]
    · simp
    · intro v hv
      have := Finset.mem_range.mp hv
      rw [hd v (by omega), if_pos this]
      norm_num
  have h4 : ∑ v ∈ Finset.range M, degreeAt cs (6 + v) ^ 2 = 36 * M := by
    rw [Finset.sum_congr rfl (g := fun _ => 36)]
    · simp [Nat.mul_comm]
    · intro v hv
      have := Finset.mem_range.mp hv
      rw [hd _ (by omega), if_neg (by omega)]
      norm_num
  rw [h3, h4] at h2
  show (List.map (touchAt cs) cs).sum + _ = _
  omega

end Bempp
