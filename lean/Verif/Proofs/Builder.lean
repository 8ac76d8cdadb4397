import Verif.Spec.Builder
import Verif.Spec.Examples
import Mathlib.Data.List.NodupEquivFin
/-
Grids made from shapes.
-/
namespace Bempp

theorem refEdges_cellEdges {t : CellType} (ht : t = .triangle ∨ t = .quadrilateral) {c : List Nat}
    (hc : c.length = refCount t 0) {v w : Nat} :
    Joined c v w ↔ ∃ (i a b : Nat), (refEdges t)[i]? = some (a, b) ∧
      (c[a]? = some v ∧ c[b]? = some w ∨ c[a]? = some w ∧ c[b]? = some v) := by
  rcases ht with rfl | rfl
  · obtain ⟨p, q, r, rfl⟩ := List.length_eq_three.mp hc
    constructor
    · rintro (h | h) <;>
        simp only [cellEdges, List.mem_cons, Prod.mk.injEq, List.not_mem_nil, or_false] at h <;>
        rcases h with ⟨rfl, rfl⟩ | ⟨rfl, rfl⟩ | ⟨rfl, rfl⟩
      · exact ⟨2, 0, 1, rfl, Or.inl ⟨rfl, rfl⟩⟩
      · exact ⟨0, 1, 2, rfl, Or.inl ⟨rfl, rfl⟩⟩
      · exact ⟨1, 0, 2, rfl, Or.inr ⟨rfl, rfl⟩⟩
      · exact ⟨2, 0, 1, rfl, Or.inr ⟨rfl, rfl⟩⟩
      · exact ⟨0, 1, 2, rfl, Or.inr ⟨rfl, rfl⟩⟩
      · exact ⟨1, 0, 2, rfl, Or.inl ⟨rfl, rfl⟩⟩
    · rintro ⟨i, a, b, hi, h⟩
      rcases i with _ | _ | _ | i <;> simp [refEdges] at hi <;> obtain ⟨rfl, rfl⟩ := hi <;>
        simp at h <;> rcases h with ⟨rfl, rfl⟩ | ⟨rfl, rfl⟩ <;> simp [Joined, cellEdges]
  · match c, hc with
    | [p, q, r, u], _ =>
      constructor
      · rintro (h | h) <;>
          simp only [cellEdges, List.mem_cons, Prod.mk.injEq, List.not_mem_nil, or_false] at h <;>
          rcases h with ⟨rfl, rfl⟩ | ⟨rfl, rfl⟩ | ⟨rfl, rfl⟩ | ⟨rfl, rfl⟩
        · exact ⟨0, 0, 1, rfl, Or.inl ⟨rfl, rfl⟩⟩
        · exact ⟨2, 1, 3, rfl, Or.inl ⟨rfl, rfl⟩⟩
        · exact ⟨3, 2, 3, rfl, Or.inr ⟨rfl, rfl⟩⟩
        · exact ⟨1, 0, 2, rfl, Or.inr ⟨rfl, rfl⟩⟩
        · exact ⟨0, 0, 1, rfl, Or.inr ⟨rfl, rfl⟩⟩
        · exact ⟨2, 1, 3, rfl, Or.inr ⟨rfl, rfl⟩⟩
        · exact ⟨3, 2, 3, rfl, Or.inl ⟨rfl, rfl⟩⟩
        · exact ⟨1, 0, 2, rfl, Or.inl ⟨rfl, rfl⟩⟩
      · rintro ⟨i, a, b, hi, h⟩
        rcases i with _ | _ | _ | _ | i <;> simp [refEdges] at hi <;> obtain ⟨rfl, rfl⟩ := hi <;>
          simp at h <;> rcases h with ⟨rfl, rfl⟩ | ⟨rfl, rfl⟩ <;> simp [Joined, cellEdges]

section
variable {T : Type} {s : Shape T} {t : CellType} {g : Grid} {pt cl : Nat → Nat}

theorem Built.type_cases (h : Built s t g pt cl) : t = .triangle ∨ t = .quadrilateral :=
  h.wf.cell_types t (by rw [h.types]; simp)

theorem Built.cell_type (h : Built s t g pt cl) {c : Entity} (hc : c ∈ g.entityIter 2) : c.entityType = t := by
  have := h.wf.types c hc
  rwa [h.types, List.mem_singleton] at this

theorem Built.count_points (h : Built s t g pt cl) : g.count 0 = s.points.length := by
  simpa using h.points.length_eq

theorem Built.count_cells (h : Built s t g pt cl) : g.count 2 = s.cells.length := by
  simpa using h.cells.length_eq

theorem perm_inj {f : Nat → Nat} {n m : Nat} (h : ((List.range n).map f).Perm (List.range m)) {i j : Nat}
    (hi : i < n) (hj : j < n) (hij : f i = f j) : i = j :=
  List.inj_on_of_nodup_map (h.nodup_iff.mpr List.nodup_range) (List.mem_range.mpr hi) (List.mem_range.mpr hj) hij

theorem perm_surj {f : Nat → Nat} {n m : Nat} (h : ((List.range n).map f).Perm (List.range m)) {j : Nat}
    (hj : j < m) : ∃ i, i < n ∧ f i = j := by
  have := h.mem_iff.mpr (List.mem_range.mpr hj)
  obtain ⟨i, hi, e⟩ := List.mem_map.mp this
  exact ⟨i, List.mem_range.mp hi, e⟩

theorem Built.cell_lt (h : Built s t g pt cl) {c : Entity} (hc : c ∈ g.entityIter 2) : c.localIndex < g.count 2 :=
  List.mem_range.mp ((h.wf.index 2 (le_refl 2)).mem_iff.mp (List.mem_map.mpr ⟨c, hc, rfl⟩))

/-- The ends of the edges of a cell. -/
theorem Built.edge_of (h : Built s t g pt cl) {ev : Nat → Nat × Nat} (he : g.Edges ev) {c : Entity}
    (hc : c ∈ g.entityIter 2) {v w : Nat} (hv : v ∈ c.sub 0) (hw : w ∈ c.sub 0) :
    Joined ((c.sub 0).map pt) (pt v) (pt w) ↔ ∃ e ∈ c.sub 1, SamePair (ev e) (v, w) := by
  have ht := h.type_cases
  have ety := h.cell_type hc
  have l0 : (c.sub 0).length = refCount t 0 := by rw [h.wf.sub_length c hc 0 (by omega), ety]
  have l1 : (c.sub 1).length = refCount t 1 := by rw [h.wf.sub_length c hc 1 (by omega), ety]
  have hlt := h.wf.sub_lt c hc 0 (by omega)
  have back : ∀ (a u : Nat), u ∈ c.sub 0 → ((c.sub 0).map pt)[a]? = some (pt u) → (c.sub 0)[a]? = some u := by
    intro a u hu ha
    rw [List.getElem?_map, Option.map_eq_some_iff] at ha
    obtain ⟨u', hu', e⟩ := ha
    rw [hu', perm_inj h.points (hlt u' (List.mem_of_getElem? hu')) (hlt u hu) e]
  rw [refEdges_cellEdges ht (by rw [List.length_map, l0])]
  constructor
  · rintro ⟨i, a, b, hi, hab⟩
    have hil : i < (c.sub 1).length := by
      obtain ⟨hil, -⟩ := List.getElem?_eq_some_iff.mp hi
      rw [l1]
      rcases ht with rfl | rfl <;> exact hil
    obtain ⟨a', b', va, vb, hi', ha, hb, hp⟩ := he.ref c hc i _ (List.getElem?_eq_getElem hil)
    rw [ety, hi] at hi'
    obtain ⟨rfl, rfl⟩ := Prod.mk.injEq _ _ _ _ ▸ Option.some.inj hi'
    refine ⟨_, List.getElem_mem hil, ?_⟩
    rcases hab with ⟨h1, h2⟩ | ⟨h1, h2⟩
    · have e1 := (back a v hv h1).symm.trans ha
      have e2 := (back b w hw h2).symm.trans hb
      rw [Option.some.inj e1, Option.some.inj e2]
      exact hp
    · have e1 := (back a w hw h1).symm.trans ha
      have e2 := (back b v hv h2).symm.trans hb
      rw [Option.some.inj e1, Option.some.inj e2]
      rcases hp with hp | hp
      · right; rw [hp]
      · left; rw [hp]
  · rintro ⟨e, hem, hp⟩
    obtain ⟨i, hi⟩ := List.mem_iff_getElem?.mp hem
    obtain ⟨a, b, va, vb, hr, ha, hb, hp'⟩ := he.ref c hc i e hi
    rw [ety] at hr
    refine ⟨i, a, b, hr, ?_⟩
    simp only [List.getElem?_map, ha, hb, Option.map_some]
    rcases hp with hp | hp <;> rcases hp' with hp' | hp' <;> rw [hp] at hp' <;>
      simp only [Prod.mk.injEq] at hp' <;> obtain ⟨rfl, rfl⟩ := hp' <;> simp

/-- Two different cells of a grid are different cells of the shape. -/
theorem Built.pairwise (h : Built s t g pt cl) {R : Nat × List Nat → Nat × List Nat → Prop} (hR : s.cells.Pairwise R)
    {c c' : Entity} (hc : c ∈ g.entityIter 2) (hc' : c' ∈ g.entityIter 2) (hn : c.localIndex ≠ c'.localIndex) :
    ∃ x x', x.2 = (c.sub 0).map pt ∧ x'.2 = (c'.sub 0).map pt ∧ (R x x' ∨ R x' x) := by
  obtain ⟨x, hx, e⟩ := h.corners c hc
  obtain ⟨x', hx', e'⟩ := h.corners c' hc'
  refine ⟨x, x', e, e', ?_⟩
  have hne : cl c.localIndex ≠ cl c'.localIndex := fun hh => hn (perm_inj h.cells (h.cell_lt hc) (h.cell_lt hc') hh)
  obtain ⟨l, rfl⟩ := List.getElem?_eq_some_iff.mp hx
  obtain ⟨l', rfl⟩ := List.getElem?_eq_some_iff.mp hx'
  rcases Nat.lt_or_gt_of_ne hne with hl | hl
  · left; exact List.pairwise_iff_getElem.mp hR _ _ l l' hl
  · right; exact List.pairwise_iff_getElem.mp hR _ _ l' l hl

/-- Grids made from conforming shapes are conforming. -/
theorem Built.conforming (h : Built s t g pt cl) (hs : s.Conforming) {ev : Nat → Nat × Nat} (he : g.Edges ev) :
    g.Conforming ev where
  edge := by
    intro c hc c' hc' hn v hv w hw hv' hw' hvw
    obtain ⟨x, x', e, e', hr⟩ := h.pairwise hs.edge hc hc' hn
    have hlt := h.wf.sub_lt c hc 0 (by omega)
    have hne : pt v ≠ pt w := fun hh => hvw (perm_inj h.points (hlt v hv) (hlt w hw) hh)
    have m1 := List.mem_map_of_mem (f := pt) hv
    have m2 := List.mem_map_of_mem (f := pt) hw
    have m3 := List.mem_map_of_mem (f := pt) hv'
    have m4 := List.mem_map_of_mem (f := pt) hw'
    rw [e, e'] at hr
    have key : Joined ((c.sub 0).map pt) (pt v) (pt w) ∧ Joined ((c'.sub 0).map pt) (pt v) (pt w) := by
      rcases hr with hr | hr
      · exact hr _ _ m1 m2 m3 m4 hne
      · exact (hr _ _ m3 m4 m1 m2 hne).symm
    obtain ⟨f, hf, p⟩ := (h.edge_of he hc hv hw).mp key.1
    obtain ⟨f', hf', p'⟩ := (h.edge_of he hc' hv' hw').mp key.2
    have : f = f' := by
      apply he.inj f f' (h.wf.sub_lt c hc 1 (by omega) f hf) (h.wf.sub_lt c' hc' 1 (by omega) f' hf')
      rcases p with p | p <;> rcases p' with p' | p' <;> rw [p, p'] <;> simp [SamePair]
    subst this
    exact ⟨f, hf, hf', p⟩
  two := by
    intro c hc c' hc' hn u v w hu hv hw hu' hv' hw'
    obtain ⟨x, x', e, e', hr⟩ := h.pairwise hs.two hc hc' hn
    have hlt := h.wf.sub_lt c hc 0 (by omega)
    rw [e, e'] at hr
    have key : pt u = pt v ∨ pt u = pt w ∨ pt v = pt w := by
      rcases hr with hr | hr
      · exact hr _ _ _ (List.mem_map_of_mem hu) (List.mem_map_of_mem hv) (List.mem_map_of_mem hw)
          (List.mem_map_of_mem hu') (List.mem_map_of_mem hv') (List.mem_map_of_mem hw')
      · exact hr _ _ _ (List.mem_map_of_mem hu') (List.mem_map_of_mem hv') (List.mem_map_of_mem hw')
          (List.mem_map_of_mem hu) (List.mem_map_of_mem hv) (List.mem_map_of_mem hw)
    rcases key with k | k | k
    · exact Or.inl (perm_inj h.points (hlt u hu) (hlt v hv) k)
    · exact Or.inr (Or.inl (perm_inj h.points (hlt u hu) (hlt w hw) k))
    · exact Or.inr (Or.inr (perm_inj h.points (hlt v hv) (hlt w hw) k))

theorem mem_undirected {p : Nat × Nat} : p ∈ s.undirected ↔ ∃ c ∈ s.cells, p.1 ≤ p.2 ∧ Joined c.2 p.1 p.2 := by
  obtain ⟨a, b⟩ := p
  simp only [Shape.undirected, Shape.edges, List.mem_toFinset, List.mem_map, List.mem_flatMap, Prod.mk.injEq,
    Prod.exists, Joined]
  constructor
  · rintro ⟨u, v, ⟨i, c, hc, hd⟩, rfl, rfl⟩
    refine ⟨i, c, hc, by omega, ?_⟩
    rcases Nat.le_total u v with h | h
    · left; rwa [Nat.min_eq_left h, Nat.max_eq_right h]
    · right; rwa [Nat.min_eq_right h, Nat.max_eq_left h]
  · rintro ⟨i, c, hc, hle, hd | hd⟩
    · exact ⟨a, b, ⟨i, c, hc, hd⟩, by omega, by omega⟩
    · exact ⟨b, a, ⟨i, c, hc, hd⟩, by omega, by omega⟩

theorem joined_mem {c : List Nat} {v w : Nat} (h : Joined c v w) : v ∈ c ∧ w ∈ c := by
  unfold Joined at h
  match c with
  | [] => simp [cellEdges] at h
  | [_] => simp [cellEdges] at h
  | [_, _] => simp [cellEdges] at h
  | [a, b, d] => simp [cellEdges] at h ⊢; omega
  | [a, b, d, e] => simp [cellEdges] at h ⊢; omega
  | _ :: _ :: _ :: _ :: _ :: _ => simp [cellEdges] at h

theorem Joined.symm {c : List Nat} {v w : Nat} (h : Joined c v w) : Joined c w v := Or.symm h

/-- The number of edges of a grid made from a shape. -/
theorem Built.count_edges (h : Built s t g pt cl) : g.count 1 = s.undirected.card := by
  obtain ⟨ev, he⟩ := h.edges
  let f : Nat → Nat × Nat := fun e => (min (pt (ev e).1) (pt (ev e).2), max (pt (ev e).1) (pt (ev e).2))
  have ends : ∀ e, e < g.count 1 → ∃ c ∈ g.entityIter 2, e ∈ c.sub 1 ∧ (ev e).1 ∈ c.sub 0 ∧ (ev e).2 ∈ c.sub 0 := by
    intro e hlt
    obtain ⟨c, hc, hem⟩ := h.wf.covered 1 (by omega) e hlt
    obtain ⟨i, hi⟩ := List.mem_iff_getElem?.mp hem
    obtain ⟨a, b, va, vb, hr, ha, hb, hp⟩ := he.ref c hc i e hi
    refine ⟨c, hc, hem, ?_⟩
    rcases hp with hp | hp <;> rw [hp]
    · exact ⟨List.mem_of_getElem? ha, List.mem_of_getElem? hb⟩
    · exact ⟨List.mem_of_getElem? hb, List.mem_of_getElem? ha⟩
  have key : (Finset.range (g.count 1)).card = s.undirected.card := by
    refine Finset.card_bij (fun e _ => f e) ?_ ?_ ?_
    · intro e hlt
      obtain ⟨c, hc, hem, h1, h2⟩ := ends e (Finset.mem_range.mp hlt)
      obtain ⟨x, hx, ex⟩ := h.corners c hc
      rw [mem_undirected]
      refine ⟨x, List.mem_of_getElem? hx, by simp only [f]; omega, ?_⟩
      have j : Joined x.2 (pt (ev e).1) (pt (ev e).2) := by
        rw [ex]
        exact (h.edge_of he hc h1 h2).mpr ⟨e, hem, Or.inl rfl⟩
      simp only [f]
      rcases Nat.le_total (pt (ev e).1) (pt (ev e).2) with hl | hl
      · rwa [Nat.min_eq_left hl, Nat.max_eq_right hl]
      · rw [Nat.min_eq_right hl, Nat.max_eq_left hl]; exact j.symm
    · intro e hlt e' hlt' hff
      rw [Finset.mem_range] at hlt hlt'
      obtain ⟨c, hc, -, h1, h2⟩ := ends e hlt
      obtain ⟨c', hc', -, h1', h2'⟩ := ends e' hlt'
      have b := h.wf.sub_lt c hc 0 (by omega)
      have b' := h.wf.sub_lt c' hc' 0 (by omega)
      apply he.inj e e' hlt hlt'
      simp only [f, Prod.mk.injEq] at hff
      have : (pt (ev e).1 = pt (ev e').1 ∧ pt (ev e).2 = pt (ev e').2) ∨
          (pt (ev e).1 = pt (ev e').2 ∧ pt (ev e).2 = pt (ev e').1) := by omega
      rcases this with ⟨q1, q2⟩ | ⟨q1, q2⟩
      · left
        exact Prod.ext (perm_inj h.points (b _ h1) (b' _ h1') q1) (perm_inj h.points (b _ h2) (b' _ h2') q2)
      · right
        exact Prod.ext (perm_inj h.points (b _ h1) (b' _ h2') q1) (perm_inj h.points (b _ h2) (b' _ h1') q2)
    · intro p hp
      rw [mem_undirected] at hp
      obtain ⟨x, hx, hle, hj⟩ := hp
      obtain ⟨k, hk, ek⟩ := List.mem_iff_getElem.mp hx
      obtain ⟨i, hi, rfl⟩ := perm_surj h.cells hk
      obtain ⟨c, hc, rfl⟩ : ∃ c ∈ g.entityIter 2, c.localIndex = i := by
        have := (h.wf.index 2 (le_refl 2)).mem_iff.mpr (List.mem_range.mpr hi)
        exact List.mem_map.mp this
      obtain ⟨x', hx', ex⟩ := h.corners c hc
      rw [List.getElem?_eq_getElem hk, ek] at hx'
      obtain rfl := Option.some.inj hx'
      obtain ⟨m1, m2⟩ := joined_mem hj
      rw [ex] at m1 m2 hj
      obtain ⟨v, hv, ev1⟩ := List.mem_map.mp m1
      obtain ⟨w, hw, ev2⟩ := List.mem_map.mp m2
      rw [← ev1, ← ev2, h.edge_of he hc hv hw] at hj
      obtain ⟨e, hem, hp⟩ := hj
      refine ⟨e, Finset.mem_range.mpr (h.wf.sub_lt c hc 1 (by omega) e hem), ?_⟩
      obtain ⟨a, b⟩ := p
      simp only [f, Prod.mk.injEq] at *
      subst ev1 ev2
      rcases hp with hp | hp <;> rw [hp] <;> dsimp only <;> omega
  rwa [Finset.card_range] at key

end

/-! ### A builder -/

section
open Examples
variable {T : Type} (s : Shape T) (t : CellType) (addr : Nat)

/-- A grid made from a shape without renumbering. -/
def gridOf : Grid := mkGrid addr s.points.length (s.cells.map fun c => (t, c.2)) fun _ _ => .owned

/-- The edges of the grid as pairs of vertices. -/
def gridEdges : List (Nat × Nat) := allEdges (s.cells.map fun c => (t, c.2))

theorem uniq_replicate {α : Type} [DecidableEq α] (a : α) (n : Nat) : uniq (List.replicate (n + 1) a) = [a] := by
  unfold uniq
  have : ∀ m, (List.replicate m a).foldl (fun acc x => if x ∈ acc then acc else acc ++ [x]) [a] = [a] := by
    intro m
    induction m with
    | zero => rfl
    | succ m ih => rw [List.replicate_succ, List.foldl_cons, if_pos (by simp), ih]
  rw [List.replicate_succ, List.foldl_cons, if_neg (by simp)]
  exact this n

theorem gridOf_types (h : s.cells ≠ []) : (gridOf s t addr).entityTypes 2 = [t] := by
  show uniq ((s.cells.map fun c => (t, c.2)).map Prod.fst) = [t]
  rw [List.map_map, show (Prod.fst ∘ fun c : Nat × List Nat => (t, c.2)) = fun _ => t from rfl, List.map_const']
  obtain ⟨n, e⟩ := Nat.exists_eq_succ_of_ne_zero (fun e => h (List.length_eq_zero_iff.mp e))
  rw [e]
  exact uniq_replicate t n

theorem gridOf_count0 : (gridOf s t addr).count 0 = s.points.length := by
  simp [Grid.count, gridOf, mkGrid]

theorem gridOf_count1 : (gridOf s t addr).count 1 = (gridEdges s t).length := by
  simp [Grid.count, gridOf, mkGrid, gridEdges]

theorem gridOf_count2 (h : s.cells ≠ []) (ht : t = .triangle ∨ t = .quadrilateral) :
    (gridOf s t addr).count 2 = s.cells.length := by
  unfold Grid.count
  rw [gridOf_types s t addr h]
  rcases ht with rfl | rfl <;>
    simp [gridOf, mkGrid, List.filter_map, Function.comp_def]

/-- Cell `i` with the given corners. -/
def gridCell (i : Nat) (vs : List Nat) : Entity :=
  ⟨i, t, .owned, fun d => match d with
    | 0 => vs
    | 1 => (Examples.cellEdges t vs).map fun p => (gridEdges s t).idxOf p
    | 2 => [i]
    | _ => [], fun _ => []⟩

theorem gridOf_cells : (gridOf s t addr).entityIter 2 = s.cells.zipIdx.map fun x => gridCell s t x.2 x.1.2 := by
  show ((s.cells.map fun c => (t, c.2)).zipIdx.map _) = _
  rw [List.zipIdx_map, List.map_map]
  rfl

theorem gridOf_entities {d : Nat} (hd : d = 0 ∨ d = 1) : ∃ f : Nat → Entity,
    (gridOf s t addr).entityIter d = (List.range ((gridOf s t addr).count d)).map f ∧
      ∀ i, (f i).localIndex = i ∧ (f i).ownership = .owned := by
  rcases hd with rfl | rfl
  · rw [gridOf_count0]
    exact ⟨_, rfl, fun _ => ⟨rfl, rfl⟩⟩
  · rw [gridOf_count1]
    exact ⟨_, rfl, fun _ => ⟨rfl, rfl⟩⟩

theorem mem_gridOf_cells {c : Entity} (h : c ∈ (gridOf s t addr).entityIter 2) :
    ∃ (i : Nat) (x : Nat × List Nat), s.cells[i]? = some x ∧ c = gridCell s t i x.2 := by
  rw [gridOf_cells] at h
  obtain ⟨⟨x, i⟩, hx, rfl⟩ := List.mem_map.mp h
  exact ⟨i, x, (List.mem_zipIdx_iff_getElem?.mp hx), rfl⟩

theorem gridOf_cells_mem {i : Nat} {x : Nat × List Nat} (h : s.cells[i]? = some x) :
    gridCell s t i x.2 ∈ (gridOf s t addr).entityIter 2 := by
  rw [gridOf_cells]
  exact List.mem_map.mpr ⟨(x, i), List.mem_zipIdx_iff_getElem?.mpr h, rfl⟩

theorem refEdges_bound (ht : t = .triangle ∨ t = .quadrilateral) {p : Nat × Nat} (hp : p ∈ refEdges t) :
    p.1 < refCount t 0 ∧ p.2 < refCount t 0 ∧ p.1 < p.2 := by
  rcases ht with rfl | rfl <;> revert hp <;> revert p <;> decide

theorem cellEdges_nodup (ht : t = .triangle ∨ t = .quadrilateral) {vs : List Nat} (hl : vs.length = refCount t 0)
    (hn : vs.Nodup) : (Examples.cellEdges t vs).Nodup := by
  unfold Examples.cellEdges
  rw [List.nodup_map_iff_inj_on]
  · intro p hp q hq e
    obtain ⟨a1, a2, a3⟩ := refEdges_bound t ht hp
    obtain ⟨b1, b2, b3⟩ := refEdges_bound t ht hq
    rw [← hl] at a1 a2 b1 b2
    simp only [List.getD_eq_getElem?_getD, List.getElem?_eq_getElem a1, List.getElem?_eq_getElem a2,
      List.getElem?_eq_getElem b1, List.getElem?_eq_getElem b2, Option.getD_some, Prod.mk.injEq] at e
    have inj : ∀ {a b : Nat} (ha : a < vs.length) (hb : b < vs.length), vs[a] = vs[b] ↔ a = b := by
      intro a b ha hb
      exact hn.getElem_inj_iff
    have : (vs[p.1] = vs[q.1] ∧ vs[p.2] = vs[q.2]) ∨ (vs[p.1] = vs[q.2] ∧ vs[p.2] = vs[q.1]) := by omega
    rw [inj, inj, inj, inj] at this
    rcases this with ⟨h1, h2⟩ | ⟨h1, h2⟩
    · exact Prod.ext h1 h2
    · omega
  · rcases ht with rfl | rfl <;> decide

theorem gridEdges_mem {x : Nat × List Nat} (hx : x ∈ s.cells) {p : Nat × Nat}
    (hp : p ∈ Examples.cellEdges t x.2) : p ∈ gridEdges s t := by
  unfold gridEdges allEdges
  rw [mem_uniq]
  exact List.mem_flatMap.mpr ⟨(t, x.2), List.mem_map.mpr ⟨x, hx, rfl⟩, hp⟩

/-- The builder fulfils its contract. -/
theorem gridOf_built (ht : t = .triangle ∨ t = .quadrilateral) (hne : s.cells ≠ []) (hc : s.Complete)
    (ho : s.OfType t) : Built s t (gridOf s t addr) id id := by
  have c0 := gridOf_count0 s t addr
  have c1 := gridOf_count1 s t addr
  have c2 := gridOf_count2 s t addr hne ht
  have index2 : ((gridOf s t addr).entityIter 2).map Entity.localIndex = List.range s.cells.length := by
    rw [gridOf_cells, List.map_map, List.range_eq_range', ← List.zipIdx_map_snd 0 s.cells]
    rfl
  have ents := fun d hd => gridOf_entities s t addr (d := d) hd
  have wf : (gridOf s t addr).WF := by
    refine ⟨rfl, Examples.le2 ?_ ?_ ?_, Examples.le2 ?_ ?_ ?_, ?_, ?_, ?_, ?_, ?_, ?_, ?_, rfl, rfl, ?_⟩
    · obtain ⟨f, e, hf⟩ := ents 0 (Or.inl rfl)
      rw [e, List.map_map]
      simp [Function.comp_def, (hf _).1]
    · obtain ⟨f, e, hf⟩ := ents 1 (Or.inr rfl)
      rw [e, List.map_map]
      simp [Function.comp_def, (hf _).1]
    · rw [index2, c2]
    · obtain ⟨f, e, hf⟩ := ents 0 (Or.inl rfl)
      intro x hx
      rw [e] at hx
      obtain ⟨i, hi, rfl⟩ := List.mem_map.mp hx
      show ((gridOf s t addr).entityIter 0)[(f i).localIndex]? = _
      rw [e, (hf i).1, List.getElem?_map, List.getElem?_range (List.mem_range.mp hi)]
      rfl
    · obtain ⟨f, e, hf⟩ := ents 1 (Or.inr rfl)
      intro x hx
      rw [e] at hx
      obtain ⟨i, hi, rfl⟩ := List.mem_map.mp hx
      show ((gridOf s t addr).entityIter 1)[(f i).localIndex]? = _
      rw [e, (hf i).1, List.getElem?_map, List.getElem?_range (List.mem_range.mp hi)]
      rfl
    · intro x hx
      obtain ⟨i, y, hy, rfl⟩ := mem_gridOf_cells s t addr hx
      show ((gridOf s t addr).entityIter 2)[i]? = _
      rw [gridOf_cells, List.getElem?_map, List.getElem?_zipIdx, hy]
      simp
    · intro x hx
      obtain ⟨i, y, hy, rfl⟩ := mem_gridOf_cells s t addr hx
      rw [gridOf_types s t addr hne]
      exact List.mem_singleton.mpr rfl
    · intro x hx
      obtain ⟨i, y, hy, rfl⟩ := mem_gridOf_cells s t addr hx
      refine Examples.le2 ?_ ?_ ?_
      · intro v hv
        rw [c0]
        exact hc.1 y (List.mem_of_getElem? hy) v hv
      · intro e he
        rw [c1]
        obtain ⟨p, hp, rfl⟩ := List.mem_map.mp he
        exact List.idxOf_lt_length_of_mem (gridEdges_mem s t (List.mem_of_getElem? hy) hp)
      · intro e he
        rw [List.mem_singleton.mp he, c2]
        exact (List.getElem?_eq_some_iff.mp hy).1
    · intro x hx
      obtain ⟨i, y, hy, rfl⟩ := mem_gridOf_cells s t addr hx
      obtain ⟨hl, hn⟩ := ho y (List.mem_of_getElem? hy)
      refine Examples.le2 hn ?_ (List.nodup_singleton i)
      show ((Examples.cellEdges t y.2).map _).Nodup
      refine List.Nodup.map_on ?_ (cellEdges_nodup t ht hl hn)
      intro p hp q hq e
      have m1 := gridEdges_mem s t (List.mem_of_getElem? hy) hp
      have m2 := gridEdges_mem s t (List.mem_of_getElem? hy) hq
      exact (List.idxOf_inj m1).mp e
    · intro x hx
      obtain ⟨i, y, hy, rfl⟩ := mem_gridOf_cells s t addr hx
      obtain ⟨hl, hn⟩ := ho y (List.mem_of_getElem? hy)
      refine Examples.le2 hl ?_ ?_
      · show ((Examples.cellEdges t y.2).map _).length = refCount t 1
        rcases ht with rfl | rfl <;> rfl
      · show 1 = refCount t 2
        rcases ht with rfl | rfl <;> rfl
    · intro x hx
      obtain ⟨i, y, hy, rfl⟩ := mem_gridOf_cells s t addr hx
      rfl
    · intro x hx
      rw [gridOf_types s t addr hne, List.mem_singleton] at hx
      rw [hx]
      exact ht
    · rw [gridOf_types s t addr hne]
      exact List.nodup_singleton t
    · refine Examples.le2 ?_ ?_ ?_
      · intro v hv
        rw [c0] at hv
        obtain ⟨x, hx, hvx⟩ := hc.2 v hv
        obtain ⟨i, hi⟩ := List.mem_iff_getElem?.mp hx
        exact ⟨_, gridOf_cells_mem s t addr hi, hvx⟩
      · intro e he
        rw [c1] at he
        have hm : (gridEdges s t)[e] ∈ gridEdges s t := List.getElem_mem he
        have hm' := hm
        unfold gridEdges allEdges at hm'
        rw [mem_uniq] at hm'
        obtain ⟨y, hy, hp⟩ := List.mem_flatMap.mp hm'
        obtain ⟨x, hx, rfl⟩ := List.mem_map.mp hy
        obtain ⟨i, hi⟩ := List.mem_iff_getElem?.mp hx
        refine ⟨_, gridOf_cells_mem s t addr hi, ?_⟩
        refine List.mem_map.mpr ⟨_, hp, ?_⟩
        exact List.Nodup.idxOf_getElem (uniq_nodup _) e he
      · intro i hi
        rw [c2] at hi
        exact ⟨_, gridOf_cells_mem s t addr (List.getElem?_eq_getElem hi), List.mem_singleton.mpr rfl⟩
  refine ⟨wf, ⟨rfl, rfl⟩, gridOf_types s t addr hne, Examples.le2 ?_ ?_ ?_, ⟨?_, ?_⟩, ⟨_, mkGrid_edges _ _ _ _ ?_⟩, ?_,
    ?_, ?_⟩
  · obtain ⟨f, e, hf⟩ := ents 0 (Or.inl rfl)
    intro x hx
    rw [e] at hx
    obtain ⟨i, hi, rfl⟩ := List.mem_map.mp hx
    exact (hf i).2
  · obtain ⟨f, e, hf⟩ := ents 1 (Or.inr rfl)
    intro x hx
    rw [e] at hx
    obtain ⟨i, hi, rfl⟩ := List.mem_map.mp hx
    exact (hf i).2
  · intro x hx
    obtain ⟨i, y, hy, rfl⟩ := mem_gridOf_cells s t addr hx
    rfl
  · intro v hv
    change v ∈ (List.range s.points.length).map _ at hv
    obtain ⟨i, hi, rfl⟩ := List.mem_map.mp hv
    simp only [if_true]
    exact List.nodup_range.filter _
  · intro v hv i
    change v ∈ (List.range s.points.length).map _ at hv
    obtain ⟨w, hw, rfl⟩ := List.mem_map.mp hv
    simp only [if_true, List.mem_filter, List.mem_range, List.length_map, List.getElem?_map]
    constructor
    · rintro ⟨hi, hm⟩
      rw [List.getElem?_eq_getElem hi] at hm
      simp only [Option.map_some, List.contains_eq_mem, decide_eq_true_eq] at hm
      exact ⟨_, gridOf_cells_mem s t addr (List.getElem?_eq_getElem hi), rfl, hm⟩
    · rintro ⟨c, hc, rfl, hm⟩
      obtain ⟨i, y, hy, rfl⟩ := mem_gridOf_cells s t addr hc
      refine ⟨(List.getElem?_eq_some_iff.mp hy).1, ?_⟩
      show (match Option.map (fun c => (t, c.2)) s.cells[i]? with | some c => _ | none => _) = true
      rw [hy]
      simp only [Option.map_some, List.contains_eq_mem, decide_eq_true_eq]
      exact hm
  · intro c hc p hp
    obtain ⟨x, hx, rfl⟩ := List.mem_map.mp hc
    obtain ⟨h1, h2, -⟩ := refEdges_bound t ht hp
    dsimp only
    rw [(ho x hx).1]
    exact ⟨h1, h2⟩
  · rw [c0, List.map_id]
  · rw [c2, List.map_id]
  · intro c hc
    obtain ⟨i, y, hy, rfl⟩ := mem_gridOf_cells s t addr hc
    exact ⟨y, hy, by rw [List.map_id]; rfl⟩

end
end Bempp
