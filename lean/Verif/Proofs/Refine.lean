import Verif.Model.Shapes
import Verif.Lemmas.Fold
import Verif.Lemmas.Perm
import Mathlib.Data.List.Nodup
import Mathlib.Tactic.Tauto
/-
One round of refinement of `regular_sphere`: the new cells and points in closed form.
-/
namespace Bempp

/-- The key of an edge in `edge_points`. -/
def sortPair (i j : Nat) : Nat × Nat := if i > j then (j, i) else (i, j)

/-- The three directed edges of a triangle. -/
def Tri.edges (t : Tri) : List (Nat × Nat) := [(t.p0, t.p1), (t.p1, t.p2), (t.p2, t.p0)]

/-- The keys of the three edges in the order in which `regular_sphere` visits them. -/
def Tri.keys (t : Tri) : List (Nat × Nat) := [sortPair t.p1 t.p2, sortPair t.p0 t.p2, sortPair t.p0 t.p1]

/-- Insert at the end if new. -/
def addKey (ks : List (Nat × Nat)) (k : Nat × Nat) : List (Nat × Nat) := if k ∈ ks then ks else ks ++ [k]

/-- The number of the new point of an edge. -/
def look (N : Nat) (ks : List (Nat × Nat)) (i j : Nat) : Nat := N + ks.idxOf (sortPair i j)

/-- The four new cells. -/
def subdivide (e : Nat → Nat → Nat) (t : Tri) : List Tri :=
  [⟨t.p0, e t.p0 t.p1, e t.p0 t.p2⟩, ⟨t.p1, e t.p1 t.p2, e t.p0 t.p1⟩, ⟨t.p2, e t.p0 t.p2, e t.p1 t.p2⟩,
    ⟨e t.p1 t.p2, e t.p0 t.p2, e t.p0 t.p1⟩]

theorem mem_addKey {ks : List (Nat × Nat)} {k x : Nat × Nat} : x ∈ addKey ks k ↔ x ∈ ks ∨ x = k := by
  unfold addKey
  split
  · constructor
    · exact Or.inl
    · rintro (h | rfl)
      · exact h
      · assumption
  · simp

theorem addKey_nodup {ks : List (Nat × Nat)} (h : ks.Nodup) (k : Nat × Nat) : (addKey ks k).Nodup := by
  unfold addKey
  split
  · exact h
  · rename_i hk
    rw [List.nodup_append]
    refine ⟨h, by simp, ?_⟩
    intro a ha b hb
    simp only [List.mem_singleton] at hb
    subst hb
    exact fun e => hk (e ▸ ha)

theorem idxOf_addKey {ks : List (Nat × Nat)} {k x : Nat × Nat} (h : x ∈ ks) :
    (addKey ks k).idxOf x = ks.idxOf x := by
  unfold addKey
  split
  · rfl
  · exact List.idxOf_append_of_mem h

theorem get_insert {K V : Type} [DecidableEq K] (m : Map K V) (k k' : K) (v : V) :
    (m.insert k v).get? k' = if k' = k then some v else m.get? k' := by
  unfold Map.insert Map.get?
  rw [List.lookup_cons]
  by_cases h : k' = k
  · simp [h]
  · have h' : (k' == k) = false := by simpa using h
    rw [h', if_neg h]
    change List.lookup k' (m.filter fun e => decide (e.1 ≠ k)) = m.lookup k'
    induction m with
    | nil => rfl
    | cons e m ih =>
      simp only [List.filter_cons]
      by_cases he : e.1 = k
      · have h1 : (k' == e.1) = false := by rw [he]; exact h'
        simp only [he, ne_eq, not_true_eq_false, decide_false, Bool.false_eq_true, if_false]
        rw [ih, show e = (e.1, e.2) from rfl, List.lookup_cons, h1]
      · simp only [ne_eq, he, not_false_eq_true, decide_true, if_true]
        rw [show e = (e.1, e.2) from rfl, List.lookup_cons, List.lookup_cons]
        split
        · rfl
        · exact ih

section
variable {T : Type} [Zero T] [Add T] [Mul T] [Div T] (half : T) (sqrt : T → T)

/-- The state of the refinement when the edges `ks` have got a point; `pts` are the old points. -/
structure EdgeInv (pts : List (T × T × T)) (ks : List (Nat × Nat)) (s : RefineState T) : Prop where
  nodup : ks.Nodup
  number : s.pointN = pts.length + ks.length
  length : s.points.length = s.pointN
  old : ∀ i, i < pts.length → s.points[i]? = pts[i]?
  get : ∀ k, s.edgePoints.get? k = if k ∈ ks then some (pts.length + ks.idxOf k) else none
  new : ∀ i k, ks[i]? = some k → ∃ vi vj, pts[k.1]? = some vi ∧ pts[k.2]? = some vj ∧
    (s.points[pts.length + i]? = some (newPoint half sqrt vi vj) ∨
      s.points[pts.length + i]? = some (newPoint half sqrt vj vi))

variable {half sqrt}

theorem edgePoint_inv {pts : List (T × T × T)} {ks : List (Nat × Nat)} {s : RefineState T}
    (h : EdgeInv half sqrt pts ks s) {i j : Nat} {vi vj : T × T × T} (hi : pts[i]? = some vi)
    (hj : pts[j]? = some vj) :
    EdgeInv half sqrt pts (addKey ks (sortPair i j)) (edgePoint half sqrt i j vi vj s).1 ∧
    (edgePoint half sqrt i j vi vj s).2 = look pts.length (addKey ks (sortPair i j)) i j ∧
    (edgePoint half sqrt i j vi vj s).1.newCells = s.newCells := by
  have hk := h.get (sortPair i j)
  unfold edgePoint
  simp only
  rw [show (if i > j then (j, i) else (i, j)) = sortPair i j from rfl, hk]
  by_cases hm : sortPair i j ∈ ks
  · have e : addKey ks (sortPair i j) = ks := by unfold addKey; rw [if_pos hm]
    rw [e, if_pos hm]
    exact ⟨h, rfl, rfl⟩
  · have e : addKey ks (sortPair i j) = ks ++ [sortPair i j] := by unfold addKey; rw [if_neg hm]
    rw [if_neg hm]
    have hidx : (ks ++ [sortPair i j]).idxOf (sortPair i j) = ks.length := by
      rw [List.idxOf_append_of_notMem hm]; simp
    refine ⟨⟨addKey_nodup h.nodup _, ?_, ?_, ?_, ?_, ?_⟩, ?_, rfl⟩
    · rw [e]; simp [h.number]; omega
    · simp [h.length]
    · intro l hl
      have : l < s.points.length := by rw [h.length, h.number]; omega
      simp only
      rw [List.getElem?_append_left this]
      exact h.old l hl
    · intro k
      simp only
      rw [get_insert, e]
      by_cases hkk : k = sortPair i j
      · subst hkk
        rw [if_pos rfl, if_pos (by simp), hidx, h.number]
      · rw [if_neg hkk, h.get]
        by_cases hm' : k ∈ ks
        · rw [if_pos hm', if_pos (by simp [hm']), List.idxOf_append_of_mem hm']
        · rw [if_neg hm', if_neg (by simp [hm', hkk])]
    · intro l k hl
      rw [e] at hl
      simp only
      by_cases hll : l < ks.length
      · rw [List.getElem?_append_left hll] at hl
        rw [List.getElem?_append_left (by rw [h.length, h.number]; omega)]
        exact h.new l k hl
      · have hl' : l = ks.length := by
          have := (List.getElem?_eq_some_iff.mp hl).1
          simp at this; omega
        subst hl'
        rw [List.getElem?_append_right (Nat.le_refl _)] at hl
        simp only [Nat.sub_self, List.getElem?_cons_zero, Option.some.injEq] at hl
        subst hl
        rw [List.getElem?_append_right (by rw [h.length, h.number]; exact Nat.le_refl _)]
        rw [h.length, h.number]
        simp only [Nat.sub_self, List.getElem?_cons_zero]
        unfold sortPair
        split
        · exact ⟨vj, vi, hj, hi, Or.inr rfl⟩
        · exact ⟨vi, vj, hi, hj, Or.inl rfl⟩
    · simp only
      unfold look
      rw [e, hidx, h.number]

/-- The keys collected for a list of cells. -/
def edgeKeys (cs : List Tri) : List (Nat × Nat) := (cs.flatMap Tri.keys).foldl addKey []

theorem edgeKeys_append (cs : List Tri) (t : Tri) : edgeKeys (cs ++ [t]) = t.keys.foldl addKey (edgeKeys cs) := by
  unfold edgeKeys
  rw [List.flatMap_append, List.foldl_append]
  simp

theorem mem_foldl_addKey (l ks : List (Nat × Nat)) (x : Nat × Nat) :
    x ∈ l.foldl addKey ks ↔ x ∈ ks ∨ x ∈ l := by
  induction l generalizing ks with
  | nil => simp
  | cons k l ih => rw [List.foldl_cons, ih, mem_addKey, List.mem_cons]; tauto

theorem mem_edgeKeys (cs : List Tri) (x : Nat × Nat) : x ∈ edgeKeys cs ↔ ∃ t ∈ cs, x ∈ t.keys := by
  unfold edgeKeys
  rw [mem_foldl_addKey]
  simp

theorem edgeKeys_nodup (cs : List Tri) : (edgeKeys cs).Nodup := by
  unfold edgeKeys
  generalize cs.flatMap Tri.keys = l
  suffices H : ∀ ks : List (Nat × Nat), ks.Nodup → (l.foldl addKey ks).Nodup from H [] List.nodup_nil
  induction l with
  | nil => exact fun ks h => h
  | cons k l ih => exact fun ks h => ih _ (addKey_nodup h k)

theorem idxOf_foldl (l ks : List (Nat × Nat)) {x : Nat × Nat} (h : x ∈ ks) :
    (l.foldl addKey ks).idxOf x = ks.idxOf x := by
  induction l generalizing ks with
  | nil => rfl
  | cons k l ih => rw [List.foldl_cons, ih _ (mem_addKey.mpr (Or.inl h)), idxOf_addKey h]

theorem refineCell_inv {pts : List (T × T × T)} {cs : List Tri} {s : RefineState T} {t : Tri}
    (h : EdgeInv half sqrt pts (edgeKeys cs) s) (h0 : t.p0 < pts.length) (h1 : t.p1 < pts.length)
    (h2 : t.p2 < pts.length)
    (hc : s.newCells = cs.flatMap (subdivide (look pts.length (edgeKeys cs)))) :
    ∃ s', refineCell half sqrt s t = some s' ∧ EdgeInv half sqrt pts (edgeKeys (cs ++ [t])) s' ∧
      s'.newCells = (cs ++ [t]).flatMap (subdivide (look pts.length (edgeKeys (cs ++ [t])))) := by
  obtain ⟨v0, e0⟩ : ∃ v, pts[t.p0]? = some v := ⟨_, List.getElem?_eq_getElem h0⟩
  obtain ⟨v1, e1⟩ : ∃ v, pts[t.p1]? = some v := ⟨_, List.getElem?_eq_getElem h1⟩
  obtain ⟨v2, e2⟩ : ∃ v, pts[t.p2]? = some v := ⟨_, List.getElem?_eq_getElem h2⟩
  unfold refineCell
  rw [h.old _ h0, h.old _ h1, h.old _ h2, e0, e1, e2]
  simp only [Option.bind_eq_bind, Option.bind_some]
  obtain ⟨a1, a2, a3⟩ := edgePoint_inv h e1 e2
  obtain ⟨b1, b2, b3⟩ := edgePoint_inv a1 e0 e2
  obtain ⟨c1, c2, c3⟩ := edgePoint_inv b1 e0 e1
  refine ⟨_, rfl, ?_⟩
  rw [edgeKeys_append]
  change EdgeInv half sqrt pts (addKey (addKey (addKey (edgeKeys cs) _) _) _) _ ∧ _
  refine ⟨⟨c1.nodup, c1.number, c1.length, c1.old, c1.get, c1.new⟩, ?_⟩
  simp only [c3, b3, a3, hc, List.flatMap_append, List.flatMap_cons, List.flatMap_nil, List.append_nil]
  congr 1
  · apply flatMap_congr_mem
    intro u hu
    have m : ∀ k ∈ u.keys, (t.keys.foldl addKey (edgeKeys cs)).idxOf k = (edgeKeys cs).idxOf k := fun k hk =>
      idxOf_foldl _ _ ((mem_edgeKeys cs k).mpr ⟨u, hu, hk⟩)
    have m0 := m (sortPair u.p1 u.p2) (by simp [Tri.keys])
    have m1 := m (sortPair u.p0 u.p2) (by simp [Tri.keys])
    have m2 := m (sortPair u.p0 u.p1) (by simp [Tri.keys])
    unfold subdivide look
    rw [m0, m1, m2]
  · have k2 : look pts.length (t.keys.foldl addKey (edgeKeys cs)) t.p0 t.p1 =
        (edgePoint half sqrt t.p0 t.p1 v0 v1 (edgePoint half sqrt t.p0 t.p2 v0 v2
          (edgePoint half sqrt t.p1 t.p2 v1 v2 s).1).1).2 := c2.symm
    have k1 : look pts.length (t.keys.foldl addKey (edgeKeys cs)) t.p0 t.p2 =
        (edgePoint half sqrt t.p0 t.p2 v0 v2 (edgePoint half sqrt t.p1 t.p2 v1 v2 s).1).2 := by
      rw [b2]
      unfold look
      congr 1
      exact idxOf_addKey (mem_addKey.mpr (Or.inr rfl))
    have k0 : look pts.length (t.keys.foldl addKey (edgeKeys cs)) t.p1 t.p2 =
        (edgePoint half sqrt t.p1 t.p2 v1 v2 s).2 := by
      rw [a2]
      unfold look
      congr 1
      exact (idxOf_addKey (mem_addKey.mpr (Or.inl (mem_addKey.mpr (Or.inr rfl))))).trans
        (idxOf_addKey (mem_addKey.mpr (Or.inr rfl)))
    unfold subdivide
    rw [k0, k1, k2]

/-- One round of refinement in closed form. -/
theorem refineLevel_eq {s : SphereState T} (hn : s.points.length = s.pointN)
    (hlt : ∀ t ∈ s.cells, t.p0 < s.pointN ∧ t.p1 < s.pointN ∧ t.p2 < s.pointN) :
    ∃ s' : SphereState T, refineLevel half sqrt s = some s' ∧
      s'.pointN = s.pointN + (edgeKeys s.cells).length ∧ s'.points.length = s'.pointN ∧
      s'.cells = s.cells.flatMap (subdivide (look s.pointN (edgeKeys s.cells))) ∧
      (∀ i, i < s.pointN → s'.points[i]? = s.points[i]?) ∧
      ∀ i k, (edgeKeys s.cells)[i]? = some k → ∃ vi vj, s.points[k.1]? = some vi ∧ s.points[k.2]? = some vj ∧
        (s'.points[s.pointN + i]? = some (newPoint half sqrt vi vj) ∨
          s'.points[s.pointN + i]? = some (newPoint half sqrt vj vi)) := by
  obtain ⟨r, hr, hi, hc⟩ := foldlM_inv (refineCell half sqrt)
    (fun pre r => EdgeInv half sqrt s.points (edgeKeys pre) r ∧
      r.newCells = pre.flatMap (subdivide (look s.points.length (edgeKeys pre)))) s.cells
    ⟨s.points, s.pointN, [], []⟩
    ⟨⟨List.nodup_nil, by simpa [edgeKeys] using hn.symm, hn, fun _ _ => rfl, fun k => by
        simp [Map.get?, edgeKeys], fun i k h => by simp [edgeKeys] at h⟩, rfl⟩
    (fun pre t post r e h => by
      have ht := hlt t (by rw [e]; simp)
      rw [← hn] at ht
      obtain ⟨s', a, b, c⟩ := refineCell_inv h.1 ht.1 ht.2.1 ht.2.2 h.2
      exact ⟨s', a, b, c⟩)
  refine ⟨⟨r.points, r.pointN, r.newCells⟩, ?_, ?_, hi.length, ?_, ?_, ?_⟩
  · unfold refineLevel
    rw [hr]
    rfl
  · rw [← hn]; exact hi.number
  · rw [← hn]; exact hc
  · rw [← hn]; exact hi.old
  · rw [← hn]; exact hi.new

end
end Bempp
