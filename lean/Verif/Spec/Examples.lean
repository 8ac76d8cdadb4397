import Verif.Spec.Contract
import Mathlib.Tactic.FinCases
import Mathlib.Tactic.Tauto
import Mathlib.Data.List.Nodup
/-
Concrete grids and elements, used to show that hypotheses of the theorems can be met.
-/
namespace Bempp.Examples

/-- Edges of a cell (as sorted vertex pairs, in reference order). -/
def cellEdges (t : CellType) (vs : List Nat) : List (Nat × Nat) :=
  (refEdges t).map fun p =>
    let a := vs.getD p.1 0
    let b := vs.getD p.2 0
    (min a b, max a b)

/-- Remove repetitions, keeping first occurrences. -/
def uniq {α : Type} [DecidableEq α] (l : List α) : List α :=
  l.foldl (fun acc x => if x ∈ acc then acc else acc ++ [x]) []

theorem uniq_aux {α : Type} [DecidableEq α] (l acc : List α) (h : acc.Nodup) :
    (l.foldl (fun acc x => if x ∈ acc then acc else acc ++ [x]) acc).Nodup ∧
      ∀ x, x ∈ l.foldl (fun acc x => if x ∈ acc then acc else acc ++ [x]) acc ↔ x ∈ acc ∨ x ∈ l := by
  induction l generalizing acc with
  | nil => simp [h]
  | cons a l ih =>
    rw [List.foldl_cons]
    by_cases ha : a ∈ acc
    · rw [if_pos ha]
      obtain ⟨h1, h2⟩ := ih acc h
      refine ⟨h1, fun x => (h2 x).trans ?_⟩
      simp only [List.mem_cons]
      constructor
      · tauto
      · rintro (h | rfl | h)
        · exact Or.inl h
        · exact Or.inl ha
        · exact Or.inr h
    · rw [if_neg ha]
      obtain ⟨h1, h2⟩ := ih (acc ++ [a]) (by
        rw [List.nodup_append]
        refine ⟨h, by simp, ?_⟩
        intro x hx y hy
        simp at hy
        subst hy
        exact fun hxy => ha (hxy ▸ hx))
      refine ⟨h1, fun x => (h2 x).trans ?_⟩
      simp only [List.mem_append, List.mem_cons, List.not_mem_nil, or_false, or_assoc]

theorem uniq_nodup {α : Type} [DecidableEq α] (l : List α) : (uniq l).Nodup :=
  (uniq_aux l [] List.nodup_nil).1

theorem mem_uniq {α : Type} [DecidableEq α] (l : List α) (x : α) : x ∈ uniq l ↔ x ∈ l := by
  simpa [uniq] using (uniq_aux l [] List.nodup_nil).2 x

/-- All edges of a list of cells, without repetition. -/
def allEdges (cells : List (CellType × List Nat)) : List (Nat × Nat) :=
  uniq (cells.flatMap fun c => cellEdges c.1 c.2)

/-- A grid with `nv` vertices and the given cells; `own d i` is the ownership of entity `(d, i)`. -/
def mkGrid (addr nv : Nat) (cells : List (CellType × List Nat))
    (own : Nat → Nat → Ownership) : Grid :=
  let edges := allEdges cells
  let subOf (i : Nat) (c : CellType × List Nat) (d : Nat) : List Nat :=
    match d with
    | 0 => c.2
    | 1 => (cellEdges c.1 c.2).map fun p => edges.idxOf p
    | 2 => [i]
    | _ => []
  let conn (d e : Nat) : List Nat :=
    (List.range cells.length).filter fun i =>
      match cells[i]? with
      | some c => (subOf i c d).contains e
      | none => false
  let ents (d : Nat) : List Entity :=
    match d with
    | 0 => (List.range nv).map fun i =>
        ⟨i, .point, own 0 i, fun d => if d = 0 then [i] else [], fun d => if d = 2 then conn 0 i else []⟩
    | 1 => (List.range edges.length).map fun i =>
        ⟨i, .interval, own 1 i, fun d => if d = 1 then [i] else [],
          fun d => if d = 2 then conn 1 i else []⟩
    | 2 => cells.zipIdx.map fun ci => ⟨ci.2, ci.1.1, own 2 ci.2, subOf ci.2 ci.1, fun _ => []⟩
    | _ => []
  { addr := addr
    topologyDim := 2
    geometryDim := 3
    entityTypes := fun d => match d with
      | 0 => [.point]
      | 1 => [.interval]
      | 2 => uniq (cells.map Prod.fst)
      | _ => []
    entityCount := fun t => match t with
      | .point => nv
      | .interval => edges.length
      | t => (cells.filter fun c => c.1 == t).length
    entityIter := ents
    entity := fun d i => (ents d)[i]? }

/-- Two triangles sharing an edge and a quadrilateral sharing an edge with the second triangle. -/
def mixed : Grid :=
  mkGrid 1 6 [(.triangle, [0, 1, 2]), (.triangle, [1, 3, 2]), (.quadrilateral, [1, 4, 3, 5])]
    fun _ _ => .owned

/-- The octahedron of `src/shapes.rs`. -/
def octahedron : Grid :=
  mkGrid 2 6 [(.triangle, [0, 1, 2]), (.triangle, [0, 2, 3]), (.triangle, [0, 3, 4]),
    (.triangle, [0, 4, 1]), (.triangle, [5, 2, 1]), (.triangle, [5, 3, 2]), (.triangle, [5, 4, 3]),
    (.triangle, [5, 1, 4])] fun _ _ => .owned

/-- Continuous degree 1 Lagrange: one DOF per vertex. -/
def p1 (t : CellType) : ElementDofs :=
  { dim := refCount t 0
    entityDofs := fun d i => if d ≤ 2 ∧ i < refCount t d then some (if d = 0 then [i] else []) else none }

/-- Continuous degree 2 Lagrange on triangles / degree 2 on quadrilaterals: vertices, edges, and on
quadrilaterals the interior. -/
def p2 (t : CellType) : ElementDofs :=
  { dim := refCount t 0 + refCount t 1 + (if t = .quadrilateral then 1 else 0)
    entityDofs := fun d i => if d ≤ 2 ∧ i < refCount t d then
        some (if d = 0 then [i] else if d = 1 then [refCount t 0 + i]
          else if t = .quadrilateral then [refCount t 0 + refCount t 1] else [])
      else none }

/-- Discontinuous degree 0. -/
def dp0 (t : CellType) : ElementDofs :=
  { dim := refCount t 2
    entityDofs := fun d i => if d ≤ 2 ∧ i < refCount t d then some (if d = 2 then [0] else []) else none }

theorem le2 {P : Nat → Prop} (h0 : P 0) (h1 : P 1) (h2 : P 2) : ∀ d, d ≤ 2 → P d
  | 0, _ => h0
  | 1, _ => h1
  | 2, _ => h2

theorem mixed_wf : mixed.WF where
  tdim := rfl
  index := le2 (by decide) (by decide) (by decide)
  entity := le2 (by intro e he; fin_cases he <;> rfl) (by intro e he; fin_cases he <;> rfl) (by intro e he; fin_cases he <;> rfl)
  types := by decide
  sub_lt := by
    intro c hc
    apply le2 <;> revert c <;> decide
  sub_nodup := by
    intro c hc
    apply le2 <;> revert c <;> decide
  sub_length := by
    intro c hc
    apply le2 <;> revert c <;> decide
  sub_self := by decide
  cell_types := by decide
  types_nodup := by decide
  types0 := rfl
  types1 := rfl
  covered := le2 (by decide) (by decide) (by decide)


theorem octahedron_wf : octahedron.WF where
  tdim := rfl
  index := le2 (by decide) (by decide) (by decide)
  entity := le2 (by intro e he; fin_cases he <;> rfl) (by intro e he; fin_cases he <;> rfl)
    (by intro e he; fin_cases he <;> rfl)
  types := by decide
  sub_lt := by
    intro c hc
    apply le2 <;> revert c <;> decide
  sub_nodup := by
    intro c hc
    apply le2 <;> revert c <;> decide
  sub_length := by
    intro c hc
    apply le2 <;> revert c <;> decide
  sub_self := by decide
  cell_types := by decide
  types_nodup := by decide
  types0 := rfl
  types1 := rfl
  covered := le2 (by decide) (by decide) (by decide)

theorem tri_or_quad {P : CellType → Prop} (ht : P .triangle) (hq : P .quadrilateral) :
    ∀ t ∈ [CellType.triangle, CellType.quadrilateral], P t := by
  intro t h
  simp at h
  rcases h with rfl | rfl
  · exact ht
  · exact hq

theorem p1_wf : ∀ t ∈ [CellType.triangle, CellType.quadrilateral], (p1 t).WF t := by
  apply tri_or_quad
  · exact ⟨le2 (by decide) (by decide) (by decide), by decide⟩
  · exact ⟨le2 (by decide) (by decide) (by decide), by decide⟩

theorem p2_wf : ∀ t ∈ [CellType.triangle, CellType.quadrilateral], (p2 t).WF t := by
  apply tri_or_quad
  · exact ⟨le2 (by decide) (by decide) (by decide), by decide⟩
  · exact ⟨le2 (by decide) (by decide) (by decide), by decide⟩

theorem dp0_wf : ∀ t ∈ [CellType.triangle, CellType.quadrilateral], (dp0 t).WF t := by
  apply tri_or_quad
  · exact ⟨le2 (by decide) (by decide) (by decide), by decide⟩
  · exact ⟨le2 (by decide) (by decide) (by decide), by decide⟩

/-- P1 on the mixed grid. -/
theorem p1_mixed : FamilyOn mixed p1 (fun d _ => if d = 0 then 1 else 0) where
  elem := fun t ht => p1_wf t (by revert ht; revert t; decide)
  count := by
    intro c _ d _ i e _ l hl
    simp only [p1] at hl
    split at hl
    · cases hl; split <;> rfl
    · cases hl

/-- P2 on the mixed grid: on the quadrilateral (cell 2) there is an interior DOF. -/
theorem p2_mixed : FamilyOn mixed p2
    (fun d e => if d = 0 ∨ d = 1 then 1 else if e = 2 then 1 else 0) where
  elem := fun t ht => p2_wf t (by revert ht; revert t; decide)
  count := by
    intro c hc d hd i e hi l hl
    simp only [p2] at hl
    split at hl
    · cases hl
      rcases (by omega : d = 0 ∨ d = 1 ∨ d = 2) with rfl | rfl | rfl
      · rfl
      · rfl
      · rw [mixed_wf.sub_self c hc] at hi
        have hie : e = c.localIndex := by
          have := List.mem_of_getElem? hi
          simpa using this
        subst hie
        rename_i hh
        clear hi hh
        show (if c.entityType = .quadrilateral then
          [refCount c.entityType 0 + refCount c.entityType 1] else []).length =
            if c.localIndex = 2 then 1 else 0
        revert c
        decide
    · cases hl

theorem dp0_mixed : FamilyOn mixed dp0 (fun d _ => if d = 2 then 1 else 0) where
  elem := fun t ht => dp0_wf t (by revert ht; revert t; decide)
  count := by
    intro c _ d _ i e _ l hl
    simp only [dp0] at hl
    split at hl
    · cases hl; split <;> rfl
    · cases hl

theorem p1_octahedron : FamilyOn octahedron p1 (fun d _ => if d = 0 then 1 else 0) where
  elem := fun t ht => p1_wf t (by revert ht; revert t; decide)
  count := by
    intro c _ d _ i e _ l hl
    simp only [p1] at hl
    split at hl
    · cases hl; split <;> rfl
    · cases hl


theorem mem_cellEdges_sorted {t : CellType} {vs : List Nat} {p : Nat × Nat} (h : p ∈ cellEdges t vs) :
    p.1 ≤ p.2 := by
  unfold cellEdges at h
  simp only [List.mem_map] at h
  obtain ⟨q, _, rfl⟩ := h
  simp only
  omega

/-- Every grid made by `mkGrid` satisfies the conformity contract. -/
theorem mkGrid_edges (addr nv : Nat) (cells : List (CellType × List Nat)) (own : Nat → Nat → Ownership)
    (hlen : ∀ c ∈ cells, ∀ p ∈ refEdges c.1, p.1 < c.2.length ∧ p.2 < c.2.length) :
    (mkGrid addr nv cells own).Edges fun e => (allEdges cells).getD e (0, 0) where
  ref := by
    intro c hc i e hi
    simp only [mkGrid, List.mem_map] at hc
    obtain ⟨⟨⟨t, vs⟩, j⟩, hmem, rfl⟩ := hc
    have hcell : (t, vs) ∈ cells := (List.mem_zipIdx hmem).2.2 ▸ List.getElem_mem _
    simp only at hi ⊢
    rw [List.getElem?_map] at hi
    simp only [Option.map_eq_some_iff] at hi
    obtain ⟨p, hp, rfl⟩ := hi
    have hpm : p ∈ allEdges cells := by
      unfold allEdges
      rw [mem_uniq]
      exact List.mem_flatMap.mpr ⟨(t, vs), hcell, List.mem_of_getElem? hp⟩
    have hget : (allEdges cells).getD ((allEdges cells).idxOf p) (0, 0) = p := by
      rw [List.getD_eq_getElem?_getD, List.getElem?_eq_getElem (List.idxOf_lt_length_of_mem hpm)]
      simp
    unfold cellEdges at hp
    rw [List.getElem?_map] at hp
    simp only [Option.map_eq_some_iff] at hp
    obtain ⟨⟨a, b⟩, hab, hp⟩ := hp
    obtain ⟨ha, hb⟩ := hlen (t, vs) hcell (a, b) (List.mem_of_getElem? hab)
    simp only at ha hb hp
    refine ⟨a, b, vs[a], vs[b], hab, by simp [ha], by simp [hb], ?_⟩
    rw [hget, ← hp]
    simp only [List.getD_eq_getElem?_getD, List.getElem?_eq_getElem ha, List.getElem?_eq_getElem hb,
      Option.getD_some]
    unfold SamePair
    rcases Nat.le_total vs[a] vs[b] with h | h
    · left; simp [h]
    · right; simp [h]
  inj := by
    intro e e' he he' hs
    have hcount : (mkGrid addr nv cells own).count 1 = (allEdges cells).length := by
      simp [Grid.count, mkGrid]
    rw [hcount] at he he'
    simp only [List.getD_eq_getElem?_getD, List.getElem?_eq_getElem he, List.getElem?_eq_getElem he',
      Option.getD_some] at hs
    have hsort : ∀ p ∈ allEdges cells, p.1 ≤ p.2 := by
      intro p hp
      unfold allEdges at hp
      rw [mem_uniq] at hp
      obtain ⟨c, _, hc⟩ := List.mem_flatMap.mp hp
      exact mem_cellEdges_sorted hc
    have h1 := hsort _ (List.getElem_mem he)
    have h2 := hsort _ (List.getElem_mem he')
    have heq : (allEdges cells)[e] = (allEdges cells)[e'] := by
      rcases hs with h | h
      · exact h
      · rw [h] at h1 ⊢
        simp only at h1
        have : (allEdges cells)[e'].1 = (allEdges cells)[e'].2 := by omega
        exact Prod.ext this.symm this
    exact (List.Nodup.getElem_inj_iff (uniq_nodup _)).mp heq

end Bempp.Examples
