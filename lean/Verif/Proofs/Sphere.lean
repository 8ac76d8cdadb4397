import Verif.Proofs.Refine
import Mathlib.Data.Finset.Basic
import Mathlib.Logic.Relation
import Mathlib.Data.Finset.Insert
/-
Refinement keeps a triangulation closed, oriented and connected.
-/
namespace Bempp

theorem sortPair_comm (i j : Nat) : sortPair i j = sortPair j i := by
  unfold sortPair
  by_cases h : i > j
  · rw [if_pos h, if_neg (by omega)]
  · by_cases h' : j > i
    · rw [if_neg h, if_pos h']
    · have : i = j := by omega
      subst this; rfl

theorem sortPair_inj {i j k l : Nat} (h : sortPair i j = sortPair k l) :
    (i = k ∧ j = l) ∨ (i = l ∧ j = k) := by
  unfold sortPair at h
  split at h <;> split at h <;> simp only [Prod.mk.injEq] at h <;> omega

/-- The set of vertices. -/
def Tri.verts (t : Tri) : Finset Nat := {t.p0, t.p1, t.p2}

theorem Tri.verts_of_edges {t : Tri} {d d' : Nat × Nat} (h : d ∈ t.edges) (h' : d' ∈ t.edges) (hd : d ≠ d') :
    t.verts = {d.1, d.2, d'.1, d'.2} := by
  simp only [Tri.edges, List.mem_cons, List.not_mem_nil, or_false] at h h'
  unfold Tri.verts
  ext x
  rcases h with rfl | rfl | rfl <;> rcases h' with rfl | rfl | rfl <;>
    first
    | exact absurd rfl hd
    | (simp only [Finset.mem_insert, Finset.mem_singleton]; tauto)

/-- All directed edges of a triangulation. -/
def edgesOf (cs : List Tri) : List (Nat × Nat) := cs.flatMap Tri.edges

/-- A closed, consistently oriented triangulation with points `0, …, N-1` and Euler characteristic 2. -/
structure GoodMesh (N : Nat) (cs : List Tri) : Prop where
  lt : ∀ t ∈ cs, t.p0 < N ∧ t.p1 < N ∧ t.p2 < N
  ne : ∀ t ∈ cs, t.p0 ≠ t.p1 ∧ t.p1 ≠ t.p2 ∧ t.p0 ≠ t.p2
  nodup : (edgesOf cs).Nodup
  swap : ∀ u v, (u, v) ∈ edgesOf cs → (v, u) ∈ edgesOf cs
  verts : cs.Pairwise fun t t' => t.verts ≠ t'.verts
  used : ∀ i, i < N → ∃ t ∈ cs, i ∈ t.verts
  connected : ∀ i j, i < N → j < N → Relation.ReflTransGen (fun u v => (u, v) ∈ edgesOf cs) i j
  euler : 2 * N = cs.length + 4

section
variable {N : Nat} {cs : List Tri}

theorem mem_edgesOf {d : Nat × Nat} : d ∈ edgesOf cs ↔ ∃ t ∈ cs, d ∈ t.edges := by
  unfold edgesOf; simp

theorem GoodMesh.edge_lt (h : GoodMesh N cs) {d : Nat × Nat} (hd : d ∈ edgesOf cs) :
    d.1 < N ∧ d.2 < N ∧ d.1 ≠ d.2 := by
  obtain ⟨t, ht, hd⟩ := mem_edgesOf.mp hd
  have h1 := h.lt t ht
  have h2 := h.ne t ht
  simp only [Tri.edges, List.mem_cons, List.not_mem_nil, or_false] at hd
  rcases hd with rfl | rfl | rfl <;> simp <;> omega

theorem mem_edgeKeys_iff (h : GoodMesh N cs) {k : Nat × Nat} :
    k ∈ edgeKeys cs ↔ k ∈ edgesOf cs ∧ k.1 < k.2 := by
  rw [mem_edgeKeys]
  constructor
  · rintro ⟨t, ht, hk⟩
    have key : ∀ u v, (u, v) ∈ t.edges ∨ (v, u) ∈ t.edges → sortPair u v ∈ edgesOf cs ∧
        (sortPair u v).1 < (sortPair u v).2 := by
      intro u v huv
      have h1 : (u, v) ∈ edgesOf cs := by
        rcases huv with huv | huv
        · exact mem_edgesOf.mpr ⟨t, ht, huv⟩
        · exact h.swap _ _ (mem_edgesOf.mpr ⟨t, ht, huv⟩)
      have h2 := h.edge_lt h1
      unfold sortPair
      split
      · exact ⟨h.swap _ _ h1, by assumption⟩
      · exact ⟨h1, by simp at *; omega⟩
    simp only [Tri.keys, List.mem_cons, List.not_mem_nil, or_false] at hk
    rcases hk with rfl | rfl | rfl
    · exact key _ _ (by simp [Tri.edges])
    · exact key _ _ (by simp [Tri.edges])
    · exact key _ _ (by simp [Tri.edges])
  · rintro ⟨hk, hlt⟩
    obtain ⟨t, ht, hd⟩ := mem_edgesOf.mp hk
    refine ⟨t, ht, ?_⟩
    obtain ⟨u, v⟩ := k
    have e : (u, v) = sortPair u v := by unfold sortPair; rw [if_neg (by simp at hlt; omega)]
    rw [e]
    simp only [Tri.edges, List.mem_cons, List.not_mem_nil, or_false, Prod.mk.injEq] at hd
    simp only [Tri.keys, List.mem_cons, List.not_mem_nil, or_false]
    rcases hd with ⟨rfl, rfl⟩ | ⟨rfl, rfl⟩ | ⟨rfl, rfl⟩
    · simp
    · simp
    · right; left; exact sortPair_comm _ _

theorem edgesOf_length (cs : List Tri) : (edgesOf cs).length = 3 * cs.length := by
  unfold edgesOf
  induction cs with
  | nil => rfl
  | cons t cs ih => rw [List.flatMap_cons, List.length_append, ih]; simp [Tri.edges]; omega

/-- There are three edges for two triangles. -/
theorem edgeKeys_length (h : GoodMesh N cs) : 2 * (edgeKeys cs).length = 3 * cs.length := by
  have p1 : (edgeKeys cs).Perm ((edgesOf cs).filter fun d => decide (d.1 < d.2)) := by
    rw [List.perm_ext_iff_of_nodup (edgeKeys_nodup cs) (h.nodup.filter _)]
    intro k
    rw [mem_edgeKeys_iff h]
    simp
  have p2 : (((edgesOf cs).filter fun d => decide (d.1 < d.2)).map fun d => (d.2, d.1)).Perm
      ((edgesOf cs).filter fun d => !decide (d.1 < d.2)) := by
    rw [List.perm_ext_iff_of_nodup]
    · rintro ⟨u, v⟩
      simp only [List.mem_map, List.mem_filter, decide_eq_true_eq, Bool.not_eq_true', decide_eq_false_iff_not,
        Prod.mk.injEq]
      constructor
      · rintro ⟨⟨x, y⟩, ⟨h1, h2⟩, rfl, rfl⟩
        exact ⟨h.swap _ _ h1, by simp at h2 ⊢; omega⟩
      · rintro ⟨h1, h2⟩
        have := h.edge_lt h1
        exact ⟨(v, u), ⟨h.swap _ _ h1, by simp at *; omega⟩, rfl, rfl⟩
    · refine (h.nodup.filter _).map ?_
      rintro ⟨a, b⟩ ⟨c, d⟩ e
      simp only [Prod.mk.injEq] at e
      rw [e.1, e.2]
    · exact h.nodup.filter _
  have l1 := p1.length_eq
  have l2 := p2.length_eq
  rw [List.length_map] at l2
  have l3 := List.length_eq_length_filter_add (l := edgesOf cs) (fun d => decide (d.1 < d.2))
  rw [edgesOf_length] at l3
  omega

end

/-- What is needed of the numbers of the new points. -/
structure EdgeNumbers (N N' : Nat) (cs : List Tri) (e : Nat → Nat → Nat) : Prop where
  comm : ∀ u v, e u v = e v u
  inj : ∀ d ∈ edgesOf cs, ∀ d' ∈ edgesOf cs, e d.1 d.2 = e d'.1 d'.2 →
    (d.1 = d'.1 ∧ d.2 = d'.2) ∨ (d.1 = d'.2 ∧ d.2 = d'.1)
  ge : ∀ u v, N ≤ e u v
  lt : ∀ d ∈ edgesOf cs, e d.1 d.2 < N'
  surj : ∀ n, N ≤ n → n < N' → ∃ d ∈ edgesOf cs, n = e d.1 d.2

theorem look_numbers {N : Nat} {cs : List Tri} (h : GoodMesh N cs) :
    EdgeNumbers N (N + (edgeKeys cs).length) cs (look N (edgeKeys cs)) := by
  have hm : ∀ d ∈ edgesOf cs, sortPair d.1 d.2 ∈ edgeKeys cs := by
    rintro ⟨u, v⟩ hd
    rw [mem_edgeKeys_iff h]
    have := h.edge_lt hd
    unfold sortPair
    split
    · exact ⟨h.swap _ _ hd, by assumption⟩
    · exact ⟨hd, by simp at *; omega⟩
  refine ⟨?_, ?_, ?_, ?_, ?_⟩
  · intro u v; unfold look; rw [sortPair_comm]
  · intro d hd d' hd' e
    unfold look at e
    have e' : (edgeKeys cs).idxOf (sortPair d.1 d.2) = (edgeKeys cs).idxOf (sortPair d'.1 d'.2) := by omega
    exact sortPair_inj ((List.idxOf_inj (hm d hd)).mp e')
  · intro u v; unfold look; omega
  · intro d hd
    unfold look
    have := List.idxOf_lt_length_of_mem (hm d hd)
    omega
  · intro n h1 h2
    have hlt : n - N < (edgeKeys cs).length := by omega
    have hk := (mem_edgeKeys_iff h).mp (List.getElem_mem hlt)
    refine ⟨_, hk.1, ?_⟩
    unfold look
    have e : sortPair ((edgeKeys cs)[n - N]).1 ((edgeKeys cs)[n - N]).2 = (edgeKeys cs)[n - N] := by
      unfold sortPair; rw [if_neg (by omega)]
    rw [e, List.Nodup.idxOf_getElem (edgeKeys_nodup cs)]
    omega

section
variable {N N' : Nat} {cs : List Tri} {e : Nat → Nat → Nat}

/-- The edges of the four parts of a triangle. -/
theorem mem_subdivide_edges (hc : ∀ u v, e u v = e v u) (t : Tri)
    (hne : t.p0 ≠ t.p1 ∧ t.p1 ≠ t.p2 ∧ t.p0 ≠ t.p2) (p : Nat × Nat) :
    p ∈ edgesOf (subdivide e t) ↔
      (∃ d ∈ t.edges, p = (d.1, e d.1 d.2) ∨ p = (e d.1 d.2, d.2)) ∨
      (∃ d ∈ t.edges, ∃ d' ∈ t.edges, d ≠ d' ∧ p = (e d.1 d.2, e d'.1 d'.2)) := by
  have h02 := hc t.p2 t.p0
  simp only [edgesOf, subdivide, Tri.edges, List.flatMap_cons, List.flatMap_nil, List.append_nil,
    List.mem_append, List.mem_cons, List.not_mem_nil, or_false, exists_eq_or_imp, exists_eq_left, ne_eq,
    Prod.mk.injEq, h02, hne.1, hne.2.1, hne.2.2, hne.1.symm, hne.2.1.symm, hne.2.2.symm, not_true_eq_false, and_self,
    false_and, not_false_eq_true, true_and]
  tauto

theorem GoodMesh.of_edge (h : GoodMesh N cs) {t : Tri} (ht : t ∈ cs) {d : Nat × Nat} (hd : d ∈ t.edges) :
    d ∈ edgesOf cs ∧ d.1 < N ∧ d.2 < N ∧ d.1 ≠ d.2 :=
  ⟨mem_edgesOf.mpr ⟨t, ht, hd⟩, h.edge_lt (mem_edgesOf.mpr ⟨t, ht, hd⟩)⟩

/-- Two different edges of a triangle are not the reverse of each other. -/
theorem Tri.edges_not_reverse {t : Tri} (hne : t.p0 ≠ t.p1 ∧ t.p1 ≠ t.p2 ∧ t.p0 ≠ t.p2) {d d' : Nat × Nat}
    (hd : d ∈ t.edges) (hd' : d' ∈ t.edges) (h : d.1 = d'.2 ∧ d.2 = d'.1) : False := by
  simp only [Tri.edges, List.mem_cons, List.not_mem_nil, or_false] at hd hd'
  rcases hd with rfl | rfl | rfl <;> rcases hd' with rfl | rfl | rfl <;> simp at h <;> omega

/-- Two triangles that contain two different edges with equal numbers have the same vertices. -/
theorem verts_eq_of_numbers (h : GoodMesh N cs) (he : EdgeNumbers N N' cs e) {t t' : Tri} (ht : t ∈ cs)
    (ht' : t' ∈ cs) {d1 d2 d1' d2' : Nat × Nat} (h1 : d1 ∈ t.edges) (h2 : d2 ∈ t.edges) (hd : d1 ≠ d2)
    (h1' : d1' ∈ t'.edges) (h2' : d2' ∈ t'.edges) (e1 : e d1.1 d1.2 = e d1'.1 d1'.2)
    (e2 : e d2.1 d2.2 = e d2'.1 d2'.2) : t.verts = t'.verts := by
  have i1 := he.inj d1 (h.of_edge ht h1).1 d1' (h.of_edge ht' h1').1 e1
  have i2 := he.inj d2 (h.of_edge ht h2).1 d2' (h.of_edge ht' h2').1 e2
  have hd' : d1' ≠ d2' := by
    rintro rfl
    rcases i1 with i1 | i1 <;> rcases i2 with i2 | i2
    · exact hd (Prod.ext (i1.1.trans i2.1.symm) (i1.2.trans i2.2.symm))
    · exact Tri.edges_not_reverse (h.ne t ht) h1 h2 ⟨i1.1.trans i2.2.symm, i1.2.trans i2.1.symm⟩
    · exact Tri.edges_not_reverse (h.ne t ht) h1 h2 ⟨i1.1.trans i2.2.symm, i1.2.trans i2.1.symm⟩
    · exact hd (Prod.ext (i1.1.trans i2.1.symm) (i1.2.trans i2.2.symm))
  rw [Tri.verts_of_edges h1 h2 hd, Tri.verts_of_edges h1' h2' hd']
  ext x
  simp only [Finset.mem_insert, Finset.mem_singleton]
  rcases i1 with ⟨a, b⟩ | ⟨a, b⟩ <;> rcases i2 with ⟨c, f⟩ | ⟨c, f⟩ <;> rw [a, b, c, f] <;> tauto

/-- The vertices of the four parts. -/
theorem subdivide_verts (h : GoodMesh N cs) (he : EdgeNumbers N N' cs e) {t : Tri} (ht : t ∈ cs) {x : Tri}
    (hx : x ∈ subdivide e t) :
    (∃ d ∈ t.edges, ∃ d' ∈ t.edges, d ≠ d' ∧ e d.1 d.2 ∈ x.verts ∧ e d'.1 d'.2 ∈ x.verts) ∧
    ∀ n ∈ x.verts, N ≤ n → ∃ d ∈ t.edges, n = e d.1 d.2 := by
  have hne := h.ne t ht
  have hlt := h.lt t ht
  have h02 := he.comm t.p2 t.p0
  have k0 : (t.p1, t.p2) ∈ t.edges := by simp [Tri.edges]
  have k1 : (t.p2, t.p0) ∈ t.edges := by simp [Tri.edges]
  have k2 : (t.p0, t.p1) ∈ t.edges := by simp [Tri.edges]
  have c01 : ((t.p1, t.p2) : Nat × Nat) ≠ (t.p2, t.p0) := by simp [hne.2.1]
  have c02 : ((t.p1, t.p2) : Nat × Nat) ≠ (t.p0, t.p1) := by simp [hne.1.symm]
  have c12 : ((t.p2, t.p0) : Nat × Nat) ≠ (t.p0, t.p1) := by simp [hne.2.2.symm]
  simp only [subdivide, List.mem_cons, List.not_mem_nil, or_false] at hx
  rcases hx with rfl | rfl | rfl | rfl
  · refine ⟨⟨_, k1, _, k2, c12, by simp [Tri.verts, h02], by simp [Tri.verts]⟩, ?_⟩
    simp only [Tri.verts, Finset.mem_insert, Finset.mem_singleton]
    rintro n (rfl | rfl | rfl) hn
    · omega
    · exact ⟨_, k2, rfl⟩
    · exact ⟨_, k1, h02.symm⟩
  · refine ⟨⟨_, k0, _, k2, c02, by simp [Tri.verts], by simp [Tri.verts]⟩, ?_⟩
    simp only [Tri.verts, Finset.mem_insert, Finset.mem_singleton]
    rintro n (rfl | rfl | rfl) hn
    · omega
    · exact ⟨_, k0, rfl⟩
    · exact ⟨_, k2, rfl⟩
  · refine ⟨⟨_, k0, _, k1, c01, by simp [Tri.verts], by simp [Tri.verts, h02]⟩, ?_⟩
    simp only [Tri.verts, Finset.mem_insert, Finset.mem_singleton]
    rintro n (rfl | rfl | rfl) hn
    · omega
    · exact ⟨_, k1, h02.symm⟩
    · exact ⟨_, k0, rfl⟩
  · refine ⟨⟨_, k0, _, k2, c02, by simp [Tri.verts], by simp [Tri.verts]⟩, ?_⟩
    simp only [Tri.verts, Finset.mem_insert, Finset.mem_singleton]
    rintro n (rfl | rfl | rfl) hn
    · exact ⟨_, k0, rfl⟩
    · exact ⟨_, k1, h02.symm⟩
    · exact ⟨_, k2, rfl⟩

/-- The four parts of a triangle have four different sets of vertices. -/
theorem subdivide_pairwise (h : GoodMesh N cs) (he : EdgeNumbers N N' cs e) {t : Tri} (ht : t ∈ cs) :
    (subdivide e t).Pairwise fun x y => x.verts ≠ y.verts := by
  have hne := h.ne t ht
  have hlt := h.lt t ht
  have g0 := he.ge t.p1 t.p2
  have g1 := he.ge t.p0 t.p2
  have g2 := he.ge t.p0 t.p1
  have key : ∀ (n : Nat) {x y : Tri}, n ∈ x.verts → n ∉ y.verts → x.verts ≠ y.verts :=
    fun n x y a b c => b (c ▸ a)
  simp only [subdivide, List.pairwise_cons, List.mem_cons, List.not_mem_nil, or_false, forall_eq_or_imp,
    forall_eq, List.Pairwise.nil, and_true, false_implies, implies_true]
  refine ⟨⟨key t.p0 ?_ ?_, key t.p0 ?_ ?_, key t.p0 ?_ ?_⟩, ⟨key t.p1 ?_ ?_, key t.p1 ?_ ?_⟩, key t.p2 ?_ ?_⟩ <;>
    simp only [Tri.verts, Finset.mem_insert, Finset.mem_singleton] <;> first | exact Or.inl trivial | omega

theorem edge_numbers_ne (h : GoodMesh N cs) (he : EdgeNumbers N N' cs e) {t : Tri} (ht : t ∈ cs) :
    e t.p1 t.p2 ≠ e t.p0 t.p2 ∧ e t.p1 t.p2 ≠ e t.p0 t.p1 ∧ e t.p0 t.p2 ≠ e t.p0 t.p1 := by
  have hne := h.ne t ht
  have m0 := h.of_edge ht (d := (t.p1, t.p2)) (by simp [Tri.edges])
  have m1 := h.of_edge ht (d := (t.p2, t.p0)) (by simp [Tri.edges])
  have m2 := h.of_edge ht (d := (t.p0, t.p1)) (by simp [Tri.edges])
  have n01 : e t.p1 t.p2 ≠ e t.p0 t.p2 := fun c => by
    rw [he.comm t.p0 t.p2] at c
    have := he.inj _ m0.1 _ m1.1 c
    simp only at this
    omega
  have n02 : e t.p1 t.p2 ≠ e t.p0 t.p1 := fun c => by
    have := he.inj _ m0.1 _ m2.1 c
    simp only at this
    omega
  have n12 : e t.p0 t.p2 ≠ e t.p0 t.p1 := fun c => by
    rw [he.comm t.p0 t.p2] at c
    have := he.inj _ m1.1 _ m2.1 c
    simp only at this
    omega
  exact ⟨n01, n02, n12⟩

theorem subdivide_edges_nodup (h : GoodMesh N cs) (he : EdgeNumbers N N' cs e) {t : Tri} (ht : t ∈ cs) :
    (edgesOf (subdivide e t)).Nodup := by
  have hne := h.ne t ht
  have hlt := h.lt t ht
  have g0 := he.ge t.p1 t.p2
  have g1 := he.ge t.p0 t.p2
  have g2 := he.ge t.p0 t.p1
  obtain ⟨n01, n02, n12⟩ := edge_numbers_ne h he ht
  simp only [edgesOf, subdivide, Tri.edges, List.flatMap_cons, List.flatMap_nil, List.append_nil,
    List.cons_append, List.nil_append, List.nodup_cons, List.mem_cons, List.not_mem_nil, or_false, Prod.mk.injEq,
    not_or, List.nodup_nil, not_false_eq_true, and_true]
  omega

theorem edgesOf_refined (cs : List Tri) (e : Nat → Nat → Nat) :
    edgesOf (cs.flatMap (subdivide e)) = cs.flatMap fun t => edgesOf (subdivide e t) := by
  unfold edgesOf
  rw [List.flatMap_assoc]

/-- Refinement keeps the triangulation good. -/
theorem GoodMesh.refine (h : GoodMesh N cs) (he : EdgeNumbers N N' cs e)
    (hN : N' = N + (edgeKeys cs).length) : GoodMesh N' (cs.flatMap (subdivide e)) := by
  have hNle : N ≤ N' := by omega
  have mem : ∀ p, p ∈ edgesOf (cs.flatMap (subdivide e)) ↔ ∃ t ∈ cs,
      (∃ d ∈ t.edges, p = (d.1, e d.1 d.2) ∨ p = (e d.1 d.2, d.2)) ∨
      (∃ d ∈ t.edges, ∃ d' ∈ t.edges, d ≠ d' ∧ p = (e d.1 d.2, e d'.1 d'.2)) := by
    intro p
    rw [edgesOf_refined, List.mem_flatMap]
    constructor
    · rintro ⟨t, ht, hp⟩
      exact ⟨t, ht, (mem_subdivide_edges he.comm t (h.ne t ht) p).mp hp⟩
    · rintro ⟨t, ht, hp⟩
      exact ⟨t, ht, (mem_subdivide_edges he.comm t (h.ne t ht) p).mpr hp⟩
  have half1 : ∀ d ∈ edgesOf cs, (d.1, e d.1 d.2) ∈ edgesOf (cs.flatMap (subdivide e)) := fun d hd => by
    obtain ⟨t, ht, hd⟩ := mem_edgesOf.mp hd
    exact (mem _).mpr ⟨t, ht, Or.inl ⟨d, hd, Or.inl rfl⟩⟩
  have half2 : ∀ d ∈ edgesOf cs, (e d.1 d.2, d.2) ∈ edgesOf (cs.flatMap (subdivide e)) := fun d hd => by
    obtain ⟨t, ht, hd⟩ := mem_edgesOf.mp hd
    exact (mem _).mpr ⟨t, ht, Or.inl ⟨d, hd, Or.inr rfl⟩⟩
  have hswap : ∀ u v, (u, v) ∈ edgesOf (cs.flatMap (subdivide e)) →
      (v, u) ∈ edgesOf (cs.flatMap (subdivide e)) := by
    intro u v huv
    obtain ⟨t, ht, ⟨d, hd, hp | hp⟩ | ⟨d, hd, d', hd', hne, hp⟩⟩ := (mem _).mp huv <;>
      simp only [Prod.mk.injEq] at hp <;> obtain ⟨rfl, rfl⟩ := hp
    · have := half2 _ (h.swap _ _ (h.of_edge ht hd).1)
      rwa [he.comm] at this
    · have := half1 _ (h.swap _ _ (h.of_edge ht hd).1)
      rwa [he.comm] at this
    · exact (mem _).mpr ⟨t, ht, Or.inr ⟨d', hd', d, hd, hne.symm, rfl⟩⟩
  refine ⟨?_, ?_, ?_, hswap, ?_, ?_, ?_, ?_⟩
  · intro x hx
    obtain ⟨t, ht, hx⟩ := List.mem_flatMap.mp hx
    have hlt := h.lt t ht
    have m0 := he.lt _ (h.of_edge ht (d := (t.p1, t.p2)) (by simp [Tri.edges])).1
    have m1 := he.lt _ (h.of_edge ht (d := (t.p2, t.p0)) (by simp [Tri.edges])).1
    have m2 := he.lt _ (h.of_edge ht (d := (t.p0, t.p1)) (by simp [Tri.edges])).1
    simp only at m0 m1 m2
    rw [he.comm] at m1
    simp only [subdivide, List.mem_cons, List.not_mem_nil, or_false] at hx
    rcases hx with rfl | rfl | rfl | rfl <;> simp only <;> omega
  · intro x hx
    obtain ⟨t, ht, hx⟩ := List.mem_flatMap.mp hx
    have hlt := h.lt t ht
    have hnn := edge_numbers_ne h he ht
    have g0 := he.ge t.p1 t.p2
    have g1 := he.ge t.p0 t.p2
    have g2 := he.ge t.p0 t.p1
    simp only [subdivide, List.mem_cons, List.not_mem_nil, or_false] at hx
    rcases hx with rfl | rfl | rfl | rfl <;> simp only <;> omega
  · rw [edgesOf_refined, List.nodup_flatMap]
    refine ⟨fun t ht => subdivide_edges_nodup h he ht, ?_⟩
    have hnd := (List.nodup_flatMap.mp h.nodup).2
    refine (hnd.and h.verts).imp_of_mem ?_
    rintro t t' ht ht' ⟨hdis, hv⟩
    change List.Disjoint _ _
    intro p hp hp'
    rw [mem_subdivide_edges he.comm t (h.ne t ht)] at hp
    rw [mem_subdivide_edges he.comm t' (h.ne t' ht')] at hp'
    have out : ∀ {d d' : Nat × Nat}, d ∈ t.edges → d' ∈ t'.edges → e d.1 d.2 = e d'.1 d'.2 →
        (d.1 = d'.1 ∨ d.2 = d'.2) → False := by
      intro d d' hd hd' hee hor
      have i := he.inj _ (h.of_edge ht hd).1 _ (h.of_edge ht' hd').1 hee
      have f := h.of_edge ht hd
      have f' := h.of_edge ht' hd'
      have : d = d' := Prod.ext (by omega) (by omega)
      exact hdis hd (this ▸ hd')
    rcases hp with ⟨d, hd, hp | hp⟩ | ⟨d, hd, d2, hd2, hne, hp⟩ <;>
      rcases hp' with ⟨d', hd', hp' | hp'⟩ | ⟨d', hd', d2', hd2', hne', hp'⟩ <;>
      rw [hp] at hp' <;> simp only [Prod.mk.injEq] at hp'
    · exact out hd hd' hp'.2 (Or.inl hp'.1)
    · have := (h.of_edge ht hd).2.1; have := he.ge d'.1 d'.2; omega
    · have := (h.of_edge ht hd).2.1; have := he.ge d'.1 d'.2; omega
    · have := (h.of_edge ht' hd').2.1; have := he.ge d.1 d.2; omega
    · exact out hd hd' hp'.1 (Or.inr hp'.2)
    · have := (h.of_edge ht hd).2.2.1; have := he.ge d2'.1 d2'.2; omega
    · have := (h.of_edge ht' hd').2.1; have := he.ge d.1 d.2; omega
    · have := (h.of_edge ht' hd').2.2.1; have := he.ge d2.1 d2.2; omega
    · exact hv (verts_eq_of_numbers h he ht ht' hd hd2 hne hd' hd2' hp'.1 hp'.2)
  · rw [List.pairwise_flatMap]
    refine ⟨fun t ht => subdivide_pairwise h he ht, ?_⟩
    refine h.verts.imp_of_mem ?_
    intro t t' ht ht' hv x hx y hy hxy
    obtain ⟨⟨d, hd, d2, hd2, hne, a, b⟩, _⟩ := subdivide_verts h he ht hx
    obtain ⟨_, c⟩ := subdivide_verts h he ht' hy
    rw [hxy] at a b
    obtain ⟨d', hd', e1⟩ := c _ a (he.ge _ _)
    obtain ⟨d2', hd2', e2⟩ := c _ b (he.ge _ _)
    exact hv (verts_eq_of_numbers h he ht ht' hd hd2 hne hd' hd2' e1 e2)
  · intro i hi
    by_cases hiN : i < N
    · obtain ⟨t, ht, hit⟩ := h.used i hiN
      simp only [Tri.verts, Finset.mem_insert, Finset.mem_singleton] at hit
      rcases hit with rfl | rfl | rfl
      · exact ⟨⟨t.p0, e t.p0 t.p1, e t.p0 t.p2⟩, List.mem_flatMap.mpr ⟨t, ht, by simp [subdivide]⟩,
          by simp [Tri.verts]⟩
      · exact ⟨⟨t.p1, e t.p1 t.p2, e t.p0 t.p1⟩, List.mem_flatMap.mpr ⟨t, ht, by simp [subdivide]⟩,
          by simp [Tri.verts]⟩
      · exact ⟨⟨t.p2, e t.p0 t.p2, e t.p1 t.p2⟩, List.mem_flatMap.mpr ⟨t, ht, by simp [subdivide]⟩,
          by simp [Tri.verts]⟩
    · obtain ⟨d, hd, rfl⟩ := he.surj i (by omega) hi
      obtain ⟨t, ht, hd⟩ := mem_edgesOf.mp hd
      refine ⟨⟨e t.p1 t.p2, e t.p0 t.p2, e t.p0 t.p1⟩, List.mem_flatMap.mpr ⟨t, ht, by simp [subdivide]⟩, ?_⟩
      simp only [Tri.edges, List.mem_cons, List.not_mem_nil, or_false] at hd
      rcases hd with rfl | rfl | rfl
      · simp [Tri.verts]
      · simp [Tri.verts]
      · simp [Tri.verts, he.comm t.p2 t.p0]
  · have old : ∀ i j, i < N → j < N →
        Relation.ReflTransGen (fun u v => (u, v) ∈ edgesOf (cs.flatMap (subdivide e))) i j := by
      intro i j hi hj
      have := h.connected i j hi hj
      induction this with
      | refl => exact .refl
      | tail _ hbc ih =>
        rename_i b c _
        have hb := (h.edge_lt hbc).1
        exact ((ih hb).tail (half1 _ hbc)).tail (half2 _ hbc)
    have near : ∀ i, i < N' → ∃ j, j < N ∧
        Relation.ReflTransGen (fun u v => (u, v) ∈ edgesOf (cs.flatMap (subdivide e))) i j ∧
        Relation.ReflTransGen (fun u v => (u, v) ∈ edgesOf (cs.flatMap (subdivide e))) j i := by
      intro i hi
      by_cases hiN : i < N
      · exact ⟨i, hiN, .refl, .refl⟩
      · obtain ⟨d, hd, rfl⟩ := he.surj i (by omega) hi
        exact ⟨d.2, (h.edge_lt hd).2.1, .single (half2 _ hd), .single (hswap _ _ (half2 _ hd))⟩
    intro i j hi hj
    obtain ⟨i', a, b, _⟩ := near i hi
    obtain ⟨j', c, _, f⟩ := near j hj
    exact (b.trans (old i' j' a c)).trans f
  · have l : (cs.flatMap (subdivide e)).length = 4 * cs.length := by
      clear * -
      induction cs with
      | nil => rfl
      | cons t cs ih => rw [List.flatMap_cons, List.length_append, ih]; simp [subdivide]; omega
    have := edgeKeys_length h
    have := h.euler
    omega

end
end Bempp
