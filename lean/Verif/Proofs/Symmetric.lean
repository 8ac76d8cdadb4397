import Verif.Spec.Symmetric
import Verif.Props.Sphere
/-
Symmetries are kept by refinement.
-/
set_option linter.unusedSectionVars false

namespace Bempp

/-- The triangle with other vertices. -/
def Tri.map (p : Nat → Nat) (t : Tri) : Tri := ⟨p t.p0, p t.p1, p t.p2⟩

/-- Equal triangles, or (if the order does not matter) triangles with the same vertices. -/
def SameTri (ord : Bool) (t t' : Tri) : Prop := t' = t ∨ ord = false ∧ t'.verts = t.verts

theorem tri_orders {t t' : Tri} (h : t'.verts = t.verts) (ne : t.p0 ≠ t.p1 ∧ t.p1 ≠ t.p2 ∧ t.p0 ≠ t.p2)
    (ne' : t'.p0 ≠ t'.p1 ∧ t'.p1 ≠ t'.p2 ∧ t'.p0 ≠ t'.p2) :
    t' = ⟨t.p0, t.p1, t.p2⟩ ∨ t' = ⟨t.p0, t.p2, t.p1⟩ ∨ t' = ⟨t.p1, t.p0, t.p2⟩ ∨ t' = ⟨t.p1, t.p2, t.p0⟩ ∨
      t' = ⟨t.p2, t.p0, t.p1⟩ ∨ t' = ⟨t.p2, t.p1, t.p0⟩ := by
  obtain ⟨a, b, c⟩ := t
  obtain ⟨x, y, z⟩ := t'
  have hx : x ∈ Tri.verts ⟨a, b, c⟩ := by rw [← h]; simp [Tri.verts]
  have hy : y ∈ Tri.verts ⟨a, b, c⟩ := by rw [← h]; simp [Tri.verts]
  have hz : z ∈ Tri.verts ⟨a, b, c⟩ := by rw [← h]; simp [Tri.verts]
  clear h
  simp only [Tri.verts, Finset.mem_insert, Finset.mem_singleton] at hx hy hz
  simp only [Tri.mk.injEq]
  simp only at ne ne'
  rcases hx with rfl | rfl | rfl <;> rcases hy with rfl | rfl | rfl <;> rcases hz with rfl | rfl | rfl <;> simp_all

theorem subdivide_orders {e : Nat → Nat → Nat} (he : ∀ u v, e u v = e v u) {a b c : Nat} {t' : Tri}
    (h : t' = ⟨a, b, c⟩ ∨ t' = ⟨a, c, b⟩ ∨ t' = ⟨b, a, c⟩ ∨ t' = ⟨b, c, a⟩ ∨
      t' = ⟨c, a, b⟩ ∨ t' = ⟨c, b, a⟩) {x : Tri} (hx : x ∈ subdivide e ⟨a, b, c⟩) :
    ∃ x' ∈ subdivide e t', x'.verts = x.verts := by
  have h1 := he b a
  have h2 := he c a
  have h3 := he c b
  have three : ∀ u v w : Nat, ({u, v, w} : Finset Nat) = {u, w, v} ∧ ({u, v, w} : Finset Nat) = {v, u, w} ∧
      ({u, v, w} : Finset Nat) = {v, w, u} ∧ ({u, v, w} : Finset Nat) = {w, u, v} ∧ ({u, v, w} : Finset Nat) = {w, v, u} := by
    intro u v w
    refine ⟨?_, ?_, ?_, ?_, ?_⟩ <;> (ext i; simp only [Finset.mem_insert, Finset.mem_singleton]; tauto)
  simp only [subdivide, List.mem_cons, List.not_mem_nil, or_false] at hx
  rcases h with rfl | rfl | rfl | rfl | rfl | rfl <;>
  simp only [subdivide, List.mem_cons, List.not_mem_nil, or_false, exists_eq_or_imp, exists_eq_left, h1, h2, h3, Tri.verts] <;>
  clear he h1 h2 h3 <;>
  rcases hx with rfl | rfl | rfl | rfl <;> dsimp only <;>
  first
  | exact Or.inl rfl
  | exact Or.inr (Or.inl rfl)
  | exact Or.inr (Or.inr (Or.inl rfl))
  | exact Or.inr (Or.inr (Or.inr rfl))
  | exact Or.inl (three _ _ _).1
  | exact Or.inr (Or.inl (three _ _ _).1)
  | exact Or.inr (Or.inr (Or.inl (three _ _ _).1))
  | exact Or.inr (Or.inr (Or.inr (three _ _ _).1))
  | exact Or.inr (Or.inr (Or.inr (three _ _ _).2.1))
  | exact Or.inr (Or.inr (Or.inr (three _ _ _).2.2.1))
  | exact Or.inr (Or.inr (Or.inr (three _ _ _).2.2.2.1))
  | exact Or.inr (Or.inr (Or.inr (three _ _ _).2.2.2.2))
theorem subdivide_same {ord : Bool} {e : Nat → Nat → Nat} (he : ∀ u v, e u v = e v u) {t t' : Tri}
    (h : SameTri ord t t') (ne : t.p0 ≠ t.p1 ∧ t.p1 ≠ t.p2 ∧ t.p0 ≠ t.p2)
    (ne' : t'.p0 ≠ t'.p1 ∧ t'.p1 ≠ t'.p2 ∧ t'.p0 ≠ t'.p2) {x : Tri} (hx : x ∈ subdivide e t) :
    ∃ x' ∈ subdivide e t', SameTri ord x x' := by
  rcases h with rfl | ⟨ho, h⟩
  · exact ⟨x, hx, Or.inl rfl⟩
  · obtain ⟨a, b, c⟩ := t
    obtain ⟨x', h1, h2⟩ := subdivide_orders he (tri_orders h ne ne') hx
    exact ⟨x', h1, Or.inr ⟨ho, h2⟩⟩

section
variable {T : Type} [Zero T] [One T] [Neg T] [Add T] [Mul T] [Div T] {half : T} {sqrt : T → T}
  {f : T × T × T → T × T × T}

/-- The map `f` of the points is a map of the triangulation to itself. -/
structure MeshMap (ord : Bool) (f : T × T × T → T × T × T) (s : SphereState T) (p : Nat → Nat) : Prop where
  lt : ∀ v, v < s.pointN → p v < s.pointN
  inj : ∀ v w, v < s.pointN → w < s.pointN → p v = p w → v = w
  point : ∀ v x, s.points[v]? = some x → s.points[p v]? = some (f x)
  cell : ∀ t ∈ s.cells, ∃ t' ∈ s.cells, SameTri ord (t.map p) t'

theorem MeshMap.ne {ord : Bool} {s : SphereState T} {p : Nat → Nat} (h : MeshMap ord f s p)
    (g : GoodMesh s.pointN s.cells) {t : Tri} (ht : t ∈ s.cells) :
    (t.map p).p0 ≠ (t.map p).p1 ∧ (t.map p).p1 ≠ (t.map p).p2 ∧ (t.map p).p0 ≠ (t.map p).p2 := by
  have l := g.lt t ht
  have n := g.ne t ht
  exact ⟨fun e => n.1 (h.inj _ _ l.1 l.2.1 e), fun e => n.2.1 (h.inj _ _ l.2.1 l.2.2 e),
    fun e => n.2.2 (h.inj _ _ l.1 l.2.2 e)⟩

/-- The images of the ends of an edge are the ends of an edge. -/
theorem MeshMap.edge {ord : Bool} {s : SphereState T} {p : Nat → Nat} (h : MeshMap ord f s p)
    (g : GoodMesh s.pointN s.cells) {d : Nat × Nat} (hd : d ∈ edgesOf s.cells) : (p d.1, p d.2) ∈ edgesOf s.cells := by
  obtain ⟨t, ht, hd⟩ := mem_edgesOf.mp hd
  obtain ⟨t', ht', hs⟩ := h.cell t ht
  have key : (p d.1, p d.2) ∈ t'.edges ∨ (p d.2, p d.1) ∈ t'.edges := by
    have ho : t' = ⟨(t.map p).p0, (t.map p).p1, (t.map p).p2⟩ ∨ t' = ⟨(t.map p).p0, (t.map p).p2, (t.map p).p1⟩ ∨
        t' = ⟨(t.map p).p1, (t.map p).p0, (t.map p).p2⟩ ∨ t' = ⟨(t.map p).p1, (t.map p).p2, (t.map p).p0⟩ ∨
        t' = ⟨(t.map p).p2, (t.map p).p0, (t.map p).p1⟩ ∨ t' = ⟨(t.map p).p2, (t.map p).p1, (t.map p).p0⟩ := by
      rcases hs with rfl | ⟨-, hv⟩
      · exact Or.inl rfl
      · exact tri_orders hv (h.ne g ht) (g.ne t' ht')
    obtain ⟨a, b, c⟩ := t
    simp only [Tri.edges, List.mem_cons, List.not_mem_nil, or_false] at hd
    rcases ho with rfl | rfl | rfl | rfl | rfl | rfl <;> rcases hd with rfl | rfl | rfl <;> simp [Tri.edges, Tri.map]
  rcases key with k | k
  · exact mem_edgesOf.mpr ⟨t', ht', k⟩
  · exact g.swap _ _ (mem_edgesOf.mpr ⟨t', ht', k⟩)

/-- A symmetry of the points that commutes with making new points is kept by a round of refinement. -/
theorem MeshMap.refine {ord : Bool} {n : Nat} {s s' : SphereState T} {p : Nat → Nat} (h : MeshMap ord f s p)
    (hi : SphereInv n s) (hs : refineLevel half sqrt s = some s')
    (comm : ∀ a b, newPoint half sqrt a b = newPoint half sqrt b a)
    (equi : ∀ a b, newPoint half sqrt (f a) (f b) = f (newPoint half sqrt a b)) : ∃ p', MeshMap ord f s' p' := by
  classical
  have g := hi.good
  obtain ⟨s1, e1, hn, hl, hc, hold, hnew⟩ := refineLevel_eq (half := half) (sqrt := sqrt) hi.length g.lt
  obtain rfl : s1 = s' := Option.some.inj (e1.symm.trans hs)
  have en := look_numbers g
  set e := look s.pointN (edgeKeys s.cells) with he
  set N := s.pointN with hN
  have hN' : s1.pointN = N + (edgeKeys s.cells).length := hn
  let p' : Nat → Nat := fun v => if hv : N ≤ v ∧ v < N + (edgeKeys s.cells).length then
    e (p (en.surj v hv.1 hv.2).choose.1) (p (en.surj v hv.1 hv.2).choose.2) else p v
  have pe : ∀ d ∈ edgesOf s.cells, p' (e d.1 d.2) = e (p d.1) (p d.2) := by
    intro d hd
    have hv : N ≤ e d.1 d.2 ∧ e d.1 d.2 < N + (edgeKeys s.cells).length := ⟨en.ge _ _, en.lt d hd⟩
    have hs := (en.surj _ hv.1 hv.2).choose_spec
    simp only [p', dif_pos hv]
    rcases en.inj d hd _ hs.1 hs.2 with ⟨a, b⟩ | ⟨a, b⟩
    · rw [← a, ← b]
    · rw [← a, ← b, en.comm]
  have po : ∀ v, v < N → p' v = p v := by
    intro v hv
    simp only [p', dif_neg (show ¬ (N ≤ v ∧ v < N + (edgeKeys s.cells).length) by omega)]
  have cases : ∀ v, v < s1.pointN → v < N ∨ ∃ d ∈ edgesOf s.cells, v = e d.1 d.2 := by
    intro v hv
    by_cases hvN : v < N
    · exact Or.inl hvN
    · exact Or.inr (en.surj v (by omega) (by omega))
  -- the coordinates of a new point
  have pt : ∀ d ∈ edgesOf s.cells, ∃ a b, s.points[d.1]? = some a ∧ s.points[d.2]? = some b ∧
      s1.points[e d.1 d.2]? = some (newPoint half sqrt a b) := by
    intro d hd
    have hk : sortPair d.1 d.2 ∈ edgeKeys s.cells := by
      rw [mem_edgeKeys_iff g]
      have := g.edge_lt hd
      unfold sortPair
      split
      · exact ⟨g.swap _ _ hd, by assumption⟩
      · exact ⟨hd, by simp only; omega⟩
    have hlt := List.idxOf_lt_length_iff.mpr hk
    have hidx : (edgeKeys s.cells)[(edgeKeys s.cells).idxOf (sortPair d.1 d.2)]? = some (sortPair d.1 d.2) := by
      rw [List.getElem?_eq_getElem hlt, List.getElem_idxOf]
    obtain ⟨vi, vj, a1, a2, a3⟩ := hnew _ _ hidx
    have a3' : s1.points[e d.1 d.2]? = some (newPoint half sqrt vi vj) := by
      rcases a3 with a3 | a3
      · exact a3
      · rw [comm]; exact a3
    unfold sortPair at a1 a2
    split at a1 <;> rename_i hlt
    · rw [if_pos hlt] at a2
      exact ⟨vj, vi, a2, a1, by rw [comm]; exact a3'⟩
    · rw [if_neg hlt] at a2
      exact ⟨vi, vj, a1, a2, a3'⟩
  refine ⟨p', ?_, ?_, ?_, ?_⟩
  · intro v hv
    rcases cases v hv with h1 | ⟨d, hd, rfl⟩
    · rw [po v h1]; have := h.lt v h1; omega
    · rw [pe d hd, hN']; exact en.lt _ (h.edge g hd)
  · intro v w hv hw e1
    rcases cases v hv with h1 | ⟨d, hd, rfl⟩ <;> rcases cases w hw with h2 | ⟨d', hd', rfl⟩
    · rw [po v h1, po w h2] at e1; exact h.inj v w h1 h2 e1
    · rw [po v h1, pe d' hd'] at e1
      have := h.lt v h1
      have := en.ge (p d'.1) (p d'.2)
      omega
    · rw [po w h2, pe d hd] at e1
      have := h.lt w h2
      have := en.ge (p d.1) (p d.2)
      omega
    · rw [pe d hd, pe d' hd'] at e1
      have l := g.edge_lt hd
      have l' := g.edge_lt hd'
      rcases en.inj _ (h.edge g hd) _ (h.edge g hd') e1 with ⟨a, b⟩ | ⟨a, b⟩
      · rw [h.inj _ _ l.1 l'.1 a, h.inj _ _ l.2.1 l'.2.1 b]
      · rw [h.inj _ _ l.1 l'.2.1 a, h.inj _ _ l.2.1 l'.1 b, en.comm]
  · intro v x hx
    have hv : v < s1.pointN := by rw [← hl]; exact (List.getElem?_eq_some_iff.mp hx).1
    rcases cases v hv with h1 | ⟨d, hd, rfl⟩
    · rw [hold v h1] at hx
      rw [po v h1, hold _ (h.lt v h1)]
      exact h.point v x hx
    · obtain ⟨a, b, ha, hb, hm⟩ := pt d hd
      rw [hm] at hx
      obtain rfl := Option.some.inj hx
      obtain ⟨a', b', ha', hb', hm'⟩ := pt _ (h.edge g hd)
      rw [h.point _ _ ha] at ha'
      rw [h.point _ _ hb] at hb'
      rw [pe d hd, hm', ← Option.some.inj ha', ← Option.some.inj hb', equi]
  · intro x hx
    rw [hc, List.mem_flatMap] at hx
    obtain ⟨t, ht, hx⟩ := hx
    obtain ⟨t', ht', hst⟩ := h.cell t ht
    have hl := g.lt t ht
    have m01 := pe _ (mem_edgesOf.mpr ⟨t, ht, show (t.p0, t.p1) ∈ t.edges by simp [Tri.edges]⟩)
    have m12 := pe _ (mem_edgesOf.mpr ⟨t, ht, show (t.p1, t.p2) ∈ t.edges by simp [Tri.edges]⟩)
    have m20 := pe _ (mem_edgesOf.mpr ⟨t, ht, show (t.p2, t.p0) ∈ t.edges by simp [Tri.edges]⟩)
    simp only at m01 m12 m20
    rw [en.comm t.p2 t.p0, en.comm (p t.p2) (p t.p0)] at m20
    have hm : (subdivide e t).map (Tri.map p') = subdivide e (t.map p) := by
      simp only [subdivide, List.map_cons, List.map_nil, Tri.map, m01, m12, m20, po _ hl.1, po _ hl.2.1, po _ hl.2.2]
    have hx' : x.map p' ∈ subdivide e (t.map p) := by rw [← hm]; exact List.mem_map_of_mem hx
    obtain ⟨x', h1, h2⟩ := subdivide_same en.comm hst (h.ne g ht) (g.ne t' ht') hx'
    exact ⟨x', by rw [hc, List.mem_flatMap]; exact ⟨t', ht', h1⟩, h2⟩

/-- A symmetry of the octahedron that commutes with making new points is a symmetry of the spheres. -/
theorem sphere_meshMap {ord : Bool} (comm : ∀ a b, newPoint half sqrt a b = newPoint half sqrt b a)
    (equi : ∀ a b, newPoint half sqrt (f a) (f b) = f (newPoint half sqrt a b))
    (start : ∃ p, MeshMap ord f (octahedronStart (T := T)) p) (n : Nat) :
    ∃ s, (List.range n).foldlM (fun s _ => refineLevel half sqrt s) (octahedronStart (T := T)) = some s ∧
      SphereInv n s ∧ ∃ p, MeshMap ord f s p := by
  induction n with
  | zero => exact ⟨_, rfl, ⟨rfl, rfl, octahedron_good⟩, start⟩
  | succ n ih =>
    obtain ⟨s, e, h, p, hp⟩ := ih
    obtain ⟨s', e', h'⟩ := refineLevel_inv (half := half) (sqrt := sqrt) h
    refine ⟨s', ?_, h', hp.refine h e' comm equi⟩
    rw [List.range_succ, List.foldlM_append, e]
    simpa using e'

theorem GoodMesh.cells_nodup {N : Nat} {cs : List Tri} (g : GoodMesh N cs) : cs.Nodup :=
  by
  refine g.verts.imp ?_
  intro a b h e
  exact h (by rw [e])

theorem SphereState.cell_at (s : SphereState T) {k : Nat} {c : Nat × List Nat} (h : s.shape.cells[k]? = some c) :
    ∃ t, s.cells[k]? = some t ∧ c = (k, [t.p0, t.p1, t.p2]) := by
  simp only [SphereState.shape, List.getElem?_map, List.getElem?_zipIdx, Option.map_map] at h
  cases ht : s.cells[k]? with
  | none => rw [ht] at h; cases h
  | some t => rw [ht] at h; exact ⟨t, rfl, by simpa using (Option.some.inj h).symm⟩

theorem SphereState.at_cell (s : SphereState T) {k : Nat} {t : Tri} (h : s.cells[k]? = some t) :
    s.shape.cells[k]? = some (k, [t.p0, t.p1, t.p2]) := by
  simp [SphereState.shape, List.getElem?_map, List.getElem?_zipIdx, h]

/-- With the corners in order. -/
theorem MeshMap.movedInto {s : SphereState T} {p : Nat → Nat} (h : MeshMap true f s p) {n : Nat} (hi : SphereInv n s) :
    s.shape.MovedInto s.shape f p fun k => ((s.cells[k]?).map fun t => s.cells.idxOf (Tri.map p t)).getD k := by
  have img : ∀ (k : Nat) (t : Tri), s.cells[k]? = some t → s.cells[s.cells.idxOf (t.map p)]? = some (t.map p) := by
    intro k t ht
    obtain ⟨t', ht', hs⟩ := h.cell t (List.mem_of_getElem? ht)
    rcases hs with rfl | ⟨h0, -⟩
    · rw [List.getElem?_eq_getElem (List.idxOf_lt_length_iff.mpr ht'), List.getElem_idxOf]
    · cases h0
  refine ⟨?_, ?_, ?_, ?_⟩
  · intro v x hx
    rw [SphereState.shape_at] at hx ⊢
    exact h.point v x hx
  · intro v w hv hw
    rw [SphereState.shape_points, hi.length] at hv hw
    exact h.inj v w hv hw
  · intro k c hc
    obtain ⟨t, ht, rfl⟩ := s.cell_at hc
    refine ⟨s.cells.idxOf (t.map p), ?_⟩
    simp only [ht, Option.map_some, Option.getD_some]
    exact s.at_cell (img k t ht)
  · intro k l hk hl e
    have len : s.shape.cells.length = s.cells.length := by simp [SphereState.shape]
    rw [len] at hk hl
    obtain ⟨t, ht⟩ : ∃ t, s.cells[k]? = some t := ⟨_, List.getElem?_eq_getElem hk⟩
    obtain ⟨u, hu⟩ : ∃ u, s.cells[l]? = some u := ⟨_, List.getElem?_eq_getElem hl⟩
    simp only [ht, hu, Option.map_some, Option.getD_some] at e
    have e1 := img k t ht
    rw [e, img l u hu] at e1
    have e2 := Option.some.inj e1
    have lt := hi.good.lt t (List.mem_of_getElem? ht)
    have lu := hi.good.lt u (List.mem_of_getElem? hu)
    have : t = u := by
      obtain ⟨a, b, c⟩ := t
      obtain ⟨a', b', c'⟩ := u
      simp only [Tri.map, Tri.mk.injEq] at e2
      rw [Tri.mk.injEq]
      exact ⟨h.inj _ _ lt.1 lu.1 e2.1.symm, h.inj _ _ lt.2.1 lu.2.1 e2.2.1.symm, h.inj _ _ lt.2.2 lu.2.2 e2.2.2.symm⟩
    subst this
    exact (List.getElem?_inj hk hi.good.cells_nodup).mp (ht.trans hu.symm)

/-- Without the order. -/
theorem MeshMap.invariant {s : SphereState T} {p : Nat → Nat} (h : MeshMap false f s p) {n : Nat} (hi : SphereInv n s) :
    s.shape.Invariant f p := by
  refine ⟨?_, ?_, ?_⟩
  · intro v x hx
    rw [SphereState.shape_at] at hx ⊢
    exact h.point v x hx
  · intro v w hv hw
    rw [SphereState.shape_points, hi.length] at hv hw
    exact h.inj v w hv hw
  · intro c hc
    obtain ⟨k, hk⟩ := List.getElem?_of_mem hc
    obtain ⟨t, ht, rfl⟩ := s.cell_at hk
    obtain ⟨t', ht', hs⟩ := h.cell t (List.mem_of_getElem? ht)
    obtain ⟨l, hl⟩ := List.getElem?_of_mem ht'
    refine ⟨_, List.mem_of_getElem? (s.at_cell hl), ?_⟩
    have hv : t'.verts = (t.map p).verts := by rcases hs with rfl | ⟨-, h⟩; exacts [rfl, h]
    have n1 := hi.good.ne t' ht'
    have n2 := h.ne hi.good (List.mem_of_getElem? ht)
    rw [List.perm_ext_iff_of_nodup (by simp; omega) (by simpa [Tri.map, and_assoc] using ⟨n2.1, n2.2.2, n2.2.1⟩)]
    intro a
    have := Finset.ext_iff.mp hv a
    simpa [Tri.verts, Tri.map] using this

end
end Bempp
