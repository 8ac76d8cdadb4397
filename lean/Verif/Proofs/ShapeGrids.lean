import Verif.Proofs.Builder
import Verif.Props.Sphere
import Verif.Props.Screen
/-
The shapes as input of the grid builder.
-/
set_option linter.unusedSectionVars false

namespace Bempp

theorem joined_triangle {c : List Nat} (hl : c.length = 3) {v w : Nat} (hv : v ∈ c) (hw : w ∈ c) (hne : v ≠ w) :
    Joined c v w := by
  obtain ⟨p, q, r, rfl⟩ := List.length_eq_three.mp hl
  simp only [List.mem_cons, List.not_mem_nil, or_false] at hv hw
  simp only [Joined, cellEdges, List.mem_cons, Prod.mk.injEq, List.not_mem_nil, or_false]
  omega

theorem three_of_three {c : List Nat} (hl : c.length = 3) {u v w : Nat} (hu : u ∈ c) (hv : v ∈ c) (hw : w ∈ c)
    (h1 : u ≠ v) (h2 : u ≠ w) (h3 : v ≠ w) (z : Nat) : z ∈ c ↔ z = u ∨ z = v ∨ z = w := by
  obtain ⟨p, q, r, rfl⟩ := List.length_eq_three.mp hl
  simp only [List.mem_cons, List.not_mem_nil, or_false] at hu hv hw ⊢
  omega

section
variable {T : Type} {s : Shape T}

theorem pairwise_mem {α : Type} {l : List α} {R : α → α → Prop} (h : l.Pairwise R) :
    l.Pairwise fun a b => a ∈ l ∧ b ∈ l ∧ R a b := by
  rw [List.pairwise_iff_getElem] at h ⊢
  intro i j hi hj hij
  exact ⟨List.getElem_mem hi, List.getElem_mem hj, h i j hi hj hij⟩

/-- Triangles of which no two have the same corners. -/
theorem triangles_conforming (h3 : ∀ c ∈ s.cells, c.2.length = 3 ∧ c.2.Nodup)
    (hd : s.cells.Pairwise fun c c' => ¬ ∀ v, v ∈ c.2 ↔ v ∈ c'.2) : s.Conforming where
  edge := by
    refine (pairwise_mem hd).imp ?_
    intro c c' ⟨hc, hc', _⟩ v w hv hw hv' hw' hne
    exact ⟨joined_triangle (h3 c hc).1 hv hw hne, joined_triangle (h3 c' hc').1 hv' hw' hne⟩
  two := by
    refine (pairwise_mem hd).imp ?_
    intro c c' ⟨hc, hc', hn⟩ u v w hu hv hw hu' hv' hw'
    by_contra hcon
    simp only [not_or] at hcon
    obtain ⟨h1, h2, h3'⟩ := hcon
    apply hn
    intro z
    rw [three_of_three (h3 c hc).1 hu hv hw h1 h2 h3', three_of_three (h3 c' hc').1 hu' hv' hw' h1 h2 h3']

end

/-! ### Sphere -/

section
variable {T : Type} [Zero T] [One T] [Neg T] [Add T] [Mul T] [Div T]

theorem SphereState.undirected {n : Nat} {s : SphereState T} (h : SphereInv n s) :
    s.shape.undirected = (edgeKeys s.cells).toFinset := by
  ext p
  unfold Shape.undirected
  rw [s.shape_edges, List.mem_toFinset, List.mem_toFinset, mem_edgeKeys_iff h.good, List.mem_map]
  constructor
  · rintro ⟨d, hd, rfl⟩
    obtain ⟨_, _, hne⟩ := h.good.edge_lt hd
    rcases Nat.lt_or_gt_of_ne hne with hl | hl
    · rw [Nat.min_eq_left (by omega), Nat.max_eq_right (by omega)]
      exact ⟨hd, hl⟩
    · rw [Nat.min_eq_right (by omega), Nat.max_eq_left (by omega)]
      exact ⟨h.good.swap _ _ hd, hl⟩
  · rintro ⟨hp, hl⟩
    refine ⟨p, hp, ?_⟩
    rw [Nat.min_eq_left (by omega), Nat.max_eq_right (by omega)]

theorem SphereState.undirected_card {n : Nat} {s : SphereState T} (h : SphereInv n s) :
    s.shape.undirected.card = 12 * 4 ^ n := by
  rw [s.undirected h, List.toFinset_card_of_nodup (edgeKeys_nodup _)]
  have := edgeKeys_length h.good
  rw [h.cells] at this
  omega

/-- What the builder gets for a sphere. -/
theorem sphere_input (half : T) (sqrt : T → T) (n : Nat) {s : Shape T} (hs : regularSphere half sqrt n = some s) :
    s.Complete ∧ s.OfType .triangle ∧ s.Conforming ∧ s.points.length = 4 ^ (n + 1) + 2 ∧
      s.undirected.card = 12 * 4 ^ n ∧ s.cells.length = 8 * 4 ^ n := by
  obtain ⟨s1, e1, hp, hc, -, hcomp⟩ := C30_sizes half sqrt n
  obtain ⟨s2, e2, h3, hd, -, -⟩ := C31_closed_oriented half sqrt n
  obtain ⟨st, e3, hinv⟩ := sphere_state half sqrt n
  have e3 := regularSphere_eq (half := half) (sqrt := sqrt) e3
  obtain rfl := Option.some.inj (hs.symm.trans e1)
  obtain rfl := Option.some.inj (hs.symm.trans e2)
  obtain rfl := Option.some.inj (hs.symm.trans e3)
  exact ⟨hcomp, h3, triangles_conforming h3 hd, hp, st.undirected_card hinv, hc⟩

end

/-! ### Screens -/

section
variable {T : Type} [Zero T] [Div T] (fromNat : Nat → T) {n : Nat} {s : Shape T}

/-- The coordinates of the squares. -/
def squares (n : Nat) : List (Nat × Nat) := (List.range n).flatMap fun y => (List.range n).map fun x => (x, y)

theorem squares_nodup (n : Nat) : (squares n).Nodup := by
  unfold squares
  rw [List.nodup_flatMap]
  constructor
  · intro y _
    refine List.Nodup.map ?_ List.nodup_range
    intro a b h
    exact (Prod.mk.inj h).1
  · refine List.nodup_range.imp ?_
    intro y y' hne
    simp only [Function.onFun, List.Disjoint, List.mem_map]
    rintro p ⟨x, _, rfl⟩ ⟨x', _, e⟩
    exact hne (Prod.mk.inj e).2.symm

theorem mem_squares {p : Nat × Nat} : p ∈ squares n ↔ p.1 < n ∧ p.2 < n := by
  unfold squares
  simp only [List.mem_flatMap, List.mem_map, List.mem_range]
  constructor
  · rintro ⟨y, hy, x, hx, rfl⟩
    exact ⟨hx, hy⟩
  · rintro ⟨hx, hy⟩
    exact ⟨p.2, hy, p.1, hx, rfl⟩

theorem mem_squareQuad {n x y v : Nat} : v ∈ squareQuad n x y ↔
    ∃ a b : Nat, a ≤ 1 ∧ b ≤ 1 ∧ v = gridPoint n (x + a) (y + b) := by
  simp only [squareQuad, List.mem_cons, List.not_mem_nil, or_false]
  constructor
  · rintro (h | h | h | h)
    · exact ⟨0, 0, by omega, by omega, h⟩
    · exact ⟨1, 0, by omega, by omega, h⟩
    · exact ⟨0, 1, by omega, by omega, h⟩
    · exact ⟨1, 1, by omega, by omega, h⟩
  · rintro ⟨a, b, ha, hb, rfl⟩
    rcases (by omega : a = 0 ∨ a = 1) with rfl | rfl <;> rcases (by omega : b = 0 ∨ b = 1) with rfl | rfl <;> simp

/-- Two corners of a square with one equal coordinate are joined. -/
theorem joined_square {n x y a b a' b' : Nat} (ha : a ≤ 1) (hb : b ≤ 1) (ha' : a' ≤ 1) (hb' : b' ≤ 1)
    (h : (a = a' ∧ b ≠ b') ∨ (a ≠ a' ∧ b = b')) :
    Joined (squareQuad n x y) (gridPoint n (x + a) (y + b)) (gridPoint n (x + a') (y + b')) := by
  unfold Joined squareQuad cellEdges
  have h1 : a = 0 ∨ a = 1 := by omega
  have h2 : b = 0 ∨ b = 1 := by omega
  have h3 : a' = 0 ∨ a' = 1 := by omega
  have h4 : b' = 0 ∨ b' = 1 := by omega
  rcases h1 with rfl | rfl <;> rcases h2 with rfl | rfl <;> rcases h3 with rfl | rfl <;> rcases h4 with rfl | rfl <;>
    simp at h <;> simp

theorem common_square {x y x' y' v : Nat} (hx : x < n) (hx' : x' < n)
    (hv : v ∈ squareQuad n x y) (hv' : v ∈ squareQuad n x' y') : ∃ a b a' b' : Nat, a ≤ 1 ∧ b ≤ 1 ∧ a' ≤ 1 ∧ b' ≤ 1 ∧
      x + a = x' + a' ∧ y + b = y' + b' ∧ v = gridPoint n (x + a) (y + b) := by
  obtain ⟨a, b, ha, hb, rfl⟩ := mem_squareQuad.mp hv
  obtain ⟨a', b', ha', hb', e⟩ := mem_squareQuad.mp hv'
  obtain ⟨e1, e2⟩ := (gridPoint_inj (by omega) (by omega)).mp e
  exact ⟨a, b, a', b', ha, hb, ha', hb', e1, e2, rfl⟩

theorem screenQuadrilaterals_cells (h : screenQuadrilaterals fromNat n = some s) :
    s.cells = (squares n).map fun p => (p.2 * n + p.1, squareQuad n p.1 p.2) := by
  obtain ⟨-, -, e⟩ := screenQuadrilaterals_eq _ h
  rw [e, squares, List.map_flatMap]
  congr 1
  funext y
  rw [List.map_map]
  rfl

theorem screenTriangles_cells (h : screenTriangles fromNat n = some s) :
    s.cells = (squares n).flatMap fun p =>
      [(2 * (p.2 * n + p.1), lowerTri n p.1 p.2), (2 * (p.2 * n + p.1) + 1, upperTri n p.1 p.2)] := by
  obtain ⟨-, -, e⟩ := screenTriangles_eq _ h
  rw [e, squares, List.flatMap_assoc]
  congr 1
  funext y
  rw [List.flatMap_map]

theorem quads_conforming (h : screenQuadrilaterals fromNat n = some s) : s.Conforming := by
  have key : (squares n).Pairwise fun p q => p.1 < n ∧ q.1 < n ∧ (p.1 ≠ q.1 ∨ p.2 ≠ q.2) := by
    refine (pairwise_mem (squares_nodup n)).imp ?_
    intro p q ⟨hp, hq, hne⟩
    refine ⟨(mem_squares.mp hp).1, (mem_squares.mp hq).1, ?_⟩
    by_contra hcon
    simp only [not_or, not_not] at hcon
    exact hne (Prod.ext hcon.1 hcon.2)
  constructor
  · rw [screenQuadrilaterals_cells fromNat h, List.pairwise_map]
    refine key.imp ?_
    intro p q ⟨hp, hq, hne⟩ v w hv hw hv' hw' hvw
    obtain ⟨a, b, a', b', h1, h2, h3, h4, h5, h6, rfl⟩ := common_square hp hq hv hv'
    obtain ⟨c, d, c', d', k1, k2, k3, k4, k5, k6, rfl⟩ := common_square hp hq hw hw'
    have hne' : a ≠ c ∨ b ≠ d := by
      by_contra hcon
      simp only [not_or, not_not] at hcon
      exact hvw (by rw [hcon.1, hcon.2])
    refine ⟨joined_square h1 h2 k1 k2 (by omega), ?_⟩
    rw [h5, h6, k5, k6]
    exact joined_square h3 h4 k3 k4 (by omega)
  · rw [screenQuadrilaterals_cells fromNat h, List.pairwise_map]
    refine key.imp ?_
    intro p q ⟨hp, hq, hne⟩ u v w hu hv hw hu' hv' hw'
    obtain ⟨a, b, a', b', h1, h2, h3, h4, h5, h6, rfl⟩ := common_square hp hq hv hv'
    obtain ⟨c, d, c', d', k1, k2, k3, k4, k5, k6, rfl⟩ := common_square hp hq hw hw'
    obtain ⟨f, g, f', g', l1, l2, l3, l4, l5, l6, rfl⟩ := common_square hp hq hu hu'
    have : (f = a ∧ g = b) ∨ (f = c ∧ g = d) ∨ (a = c ∧ b = d) := by omega
    rcases this with ⟨rfl, rfl⟩ | ⟨rfl, rfl⟩ | ⟨rfl, rfl⟩ <;> simp

theorem mem_lowerTri {n x y v : Nat} : v ∈ lowerTri n x y ↔
    ∃ a b : Nat, b ≤ a ∧ a ≤ 1 ∧ v = gridPoint n (x + a) (y + b) := by
  simp only [lowerTri, List.mem_cons, List.not_mem_nil, or_false]
  constructor
  · rintro (h | h | h)
    · exact ⟨0, 0, by omega, by omega, h⟩
    · exact ⟨1, 0, by omega, by omega, h⟩
    · exact ⟨1, 1, by omega, by omega, h⟩
  · rintro ⟨a, b, ha, hb, rfl⟩
    have : (a = 0 ∧ b = 0) ∨ (a = 1 ∧ b = 0) ∨ (a = 1 ∧ b = 1) := by omega
    rcases this with ⟨rfl, rfl⟩ | ⟨rfl, rfl⟩ | ⟨rfl, rfl⟩ <;> simp

theorem mem_upperTri {n x y v : Nat} : v ∈ upperTri n x y ↔
    ∃ a b : Nat, a ≤ b ∧ b ≤ 1 ∧ v = gridPoint n (x + a) (y + b) := by
  simp only [upperTri, List.mem_cons, List.not_mem_nil, or_false]
  constructor
  · rintro (h | h | h)
    · exact ⟨0, 0, by omega, by omega, h⟩
    · exact ⟨1, 1, by omega, by omega, h⟩
    · exact ⟨0, 1, by omega, by omega, h⟩
  · rintro ⟨a, b, ha, hb, rfl⟩
    have : (a = 0 ∧ b = 0) ∨ (a = 1 ∧ b = 1) ∨ (a = 0 ∧ b = 1) := by omega
    rcases this with ⟨rfl, rfl⟩ | ⟨rfl, rfl⟩ | ⟨rfl, rfl⟩ <;> simp

/-- Triangles with the same corners are in the same square and on the same side of the diagonal. -/
theorem tri_corners {x y x' y' : Nat} (hx : x < n) (hx' : x' < n) :
    ((∀ v, v ∈ lowerTri n x y ↔ v ∈ lowerTri n x' y') → x = x' ∧ y = y') ∧
    ((∀ v, v ∈ upperTri n x y ↔ v ∈ upperTri n x' y') → x = x' ∧ y = y') ∧
    (¬ ∀ v, v ∈ lowerTri n x y ↔ v ∈ upperTri n x' y') := by
  have inj : ∀ {a b c d : Nat}, a < n + 1 → c < n + 1 → gridPoint n a b = gridPoint n c d → a = c ∧ b = d :=
    fun h h' e => (gridPoint_inj h h').mp e
  refine ⟨?_, ?_, ?_⟩
  · intro h
    obtain ⟨a, b, h1, h2, e1⟩ := mem_lowerTri.mp ((h (gridPoint n x y)).mp (mem_lowerTri.mpr ⟨0, 0, by omega, by omega, rfl⟩))
    obtain ⟨c, d, h3, h4, e2⟩ := mem_lowerTri.mp ((h (gridPoint n (x + 1) (y + 1))).mp
      (mem_lowerTri.mpr ⟨1, 1, by omega, by omega, rfl⟩))
    have i1 := inj (by omega) (by omega) e1
    have i2 := inj (by omega) (by omega) e2
    omega
  · intro h
    obtain ⟨a, b, h1, h2, e1⟩ := mem_upperTri.mp ((h (gridPoint n x y)).mp (mem_upperTri.mpr ⟨0, 0, by omega, by omega, rfl⟩))
    obtain ⟨c, d, h3, h4, e2⟩ := mem_upperTri.mp ((h (gridPoint n (x + 1) (y + 1))).mp
      (mem_upperTri.mpr ⟨1, 1, by omega, by omega, rfl⟩))
    have i1 := inj (by omega) (by omega) e1
    have i2 := inj (by omega) (by omega) e2
    omega
  · intro h
    obtain ⟨a, b, h1, h2, e1⟩ := mem_upperTri.mp ((h (gridPoint n x y)).mp (mem_lowerTri.mpr ⟨0, 0, by omega, by omega, rfl⟩))
    obtain ⟨c, d, h3, h4, e2⟩ := mem_upperTri.mp ((h (gridPoint n (x + 1) (y + 1))).mp
      (mem_lowerTri.mpr ⟨1, 1, by omega, by omega, rfl⟩))
    obtain ⟨f, g, h5, h6, e3⟩ := mem_upperTri.mp ((h (gridPoint n (x + 1) y)).mp
      (mem_lowerTri.mpr ⟨1, 0, by omega, by omega, rfl⟩))
    have i1 := inj (by omega) (by omega) e1
    have i2 := inj (by omega) (by omega) e2
    have i3 := inj (by omega) (by omega) e3
    omega

theorem tris_conforming (h : screenTriangles fromNat n = some s)
    (h3 : ∀ c ∈ s.cells, c.2.length = 3 ∧ c.2.Nodup) : s.Conforming := by
  refine triangles_conforming h3 ?_
  rw [screenTriangles_cells fromNat h, List.pairwise_flatMap]
  constructor
  · intro p hp
    have hp := (mem_squares.mp hp).1
    simp only [List.pairwise_cons, List.mem_singleton, List.not_mem_nil, false_imp_iff, implies_true,
      List.Pairwise.nil, and_true, forall_eq]
    exact (tri_corners hp hp).2.2
  · refine (pairwise_mem (squares_nodup n)).imp ?_
    intro p q ⟨hp, hq, hne⟩
    have hp := (mem_squares.mp hp).1
    have hq := (mem_squares.mp hq).1
    have hne' : ¬ (p.1 = q.1 ∧ p.2 = q.2) := fun e => hne (Prod.ext e.1 e.2)
    obtain ⟨a1, a2, a3⟩ := tri_corners (y := p.2) (y' := q.2) hp hq
    obtain ⟨-, -, b3⟩ := tri_corners (y := q.2) (y' := p.2) hq hp
    simp only [List.mem_cons, List.not_mem_nil, or_false]
    rintro x (rfl | rfl) y (rfl | rfl) hall
    · exact hne' (a1 hall)
    · exact a3 hall
    · exact b3 fun v => (hall v).symm
    · exact hne' (a2 hall)

/-! Numbers of edges -/

/-- Horizontal, vertical and diagonal edges. -/
def hEdge (n : Nat) (p : Nat × Nat) : Nat × Nat := (gridPoint n p.1 p.2, gridPoint n (p.1 + 1) p.2)
def vEdge (n : Nat) (p : Nat × Nat) : Nat × Nat := (gridPoint n p.1 p.2, gridPoint n p.1 (p.2 + 1))
def dEdge (n : Nat) (p : Nat × Nat) : Nat × Nat := (gridPoint n p.1 p.2, gridPoint n (p.1 + 1) (p.2 + 1))

theorem gridPoint_le {n x y x' y' : Nat} (hx : x ≤ x') (hy : y ≤ y') : gridPoint n x y ≤ gridPoint n x' y' := by
  unfold gridPoint
  have := Nat.mul_le_mul_right (n + 1) hy
  omega

def hEdges (n : Nat) : Finset (Nat × Nat) := (Finset.range n ×ˢ Finset.range (n + 1)).image (hEdge n)
def vEdges (n : Nat) : Finset (Nat × Nat) := (Finset.range (n + 1) ×ˢ Finset.range n).image (vEdge n)
def dEdges (n : Nat) : Finset (Nat × Nat) := (Finset.range n ×ˢ Finset.range n).image (dEdge n)

theorem hEdges_card (n : Nat) : (hEdges n).card = n * (n + 1) := by
  unfold hEdges
  rw [Finset.card_image_of_injOn, Finset.card_product, Finset.card_range, Finset.card_range]
  intro p hp q hq e
  simp only [Finset.coe_product, Finset.coe_range, Set.mem_prod, Set.mem_Iio] at hp hq
  obtain ⟨e1, -⟩ := Prod.mk.inj e
  exact Prod.ext ((gridPoint_inj (by omega) (by omega)).mp e1).1 ((gridPoint_inj (by omega) (by omega)).mp e1).2

theorem vEdges_card (n : Nat) : (vEdges n).card = (n + 1) * n := by
  unfold vEdges
  rw [Finset.card_image_of_injOn, Finset.card_product, Finset.card_range, Finset.card_range]
  intro p hp q hq e
  simp only [Finset.coe_product, Finset.coe_range, Set.mem_prod, Set.mem_Iio] at hp hq
  obtain ⟨e1, -⟩ := Prod.mk.inj e
  exact Prod.ext ((gridPoint_inj (by omega) (by omega)).mp e1).1 ((gridPoint_inj (by omega) (by omega)).mp e1).2

theorem dEdges_card (n : Nat) : (dEdges n).card = n * n := by
  unfold dEdges
  rw [Finset.card_image_of_injOn, Finset.card_product, Finset.card_range]
  intro p hp q hq e
  simp only [Finset.coe_product, Finset.coe_range, Set.mem_prod, Set.mem_Iio] at hp hq
  obtain ⟨e1, -⟩ := Prod.mk.inj e
  exact Prod.ext ((gridPoint_inj (by omega) (by omega)).mp e1).1 ((gridPoint_inj (by omega) (by omega)).mp e1).2

theorem hv_disjoint (n : Nat) : Disjoint (hEdges n) (vEdges n) := by
  rw [Finset.disjoint_left]
  intro p hp hq
  obtain ⟨a, ha, rfl⟩ := Finset.mem_image.mp hp
  obtain ⟨b, hb, e⟩ := Finset.mem_image.mp hq
  simp only [Finset.mem_product, Finset.mem_range] at ha hb
  obtain ⟨e1, e2⟩ := Prod.mk.inj e
  have i1 := (gridPoint_inj (by omega) (by omega)).mp e1
  have i2 := (gridPoint_inj (by omega) (by omega)).mp e2
  omega

theorem hvd_disjoint (n : Nat) : Disjoint (hEdges n ∪ vEdges n) (dEdges n) := by
  rw [Finset.disjoint_left]
  intro p hp hq
  obtain ⟨b, hb, e⟩ := Finset.mem_image.mp hq
  simp only [Finset.mem_product, Finset.mem_range] at hb
  rcases Finset.mem_union.mp hp with hp | hp <;> obtain ⟨a, ha, rfl⟩ := Finset.mem_image.mp hp <;>
    simp only [Finset.mem_product, Finset.mem_range] at ha <;> obtain ⟨e1, e2⟩ := Prod.mk.inj e <;>
    have i1 := (gridPoint_inj (by omega) (by omega)).mp e1 <;>
    have i2 := (gridPoint_inj (by omega) (by omega)).mp e2 <;> omega

theorem quads_undirected (h : screenQuadrilaterals fromNat n = some s) : s.undirected = hEdges n ∪ vEdges n := by
  have hn := (screenQuadrilaterals_eq _ h).1
  ext p
  unfold Shape.undirected
  rw [screenQuadrilaterals_edges _ h]
  simp only [List.mem_toFinset, List.map_map, List.mem_map, mem_quad_edges, Finset.mem_union]
  constructor
  · rintro ⟨d, ⟨x, y, hx, hy, hd⟩, rfl⟩
    simp only [quadEdges, List.mem_cons, List.not_mem_nil, or_false] at hd
    rcases hd with rfl | rfl | rfl | rfl
    · left
      refine Finset.mem_image.mpr ⟨(x, y), by simp; omega, ?_⟩
      have := gridPoint_le (n := n) (Nat.le_succ x) (le_refl y)
      simp [hEdge, code]; omega
    · right
      refine Finset.mem_image.mpr ⟨(x + 1, y), by simp; omega, ?_⟩
      have := gridPoint_le (n := n) (le_refl (x + 1)) (Nat.le_succ y)
      simp [vEdge, code]; omega
    · left
      refine Finset.mem_image.mpr ⟨(x, y + 1), by simp; omega, ?_⟩
      have := gridPoint_le (n := n) (Nat.le_succ x) (le_refl (y + 1))
      simp [hEdge, code]; omega
    · right
      refine Finset.mem_image.mpr ⟨(x, y), by simp; omega, ?_⟩
      have := gridPoint_le (n := n) (le_refl x) (Nat.le_succ y)
      simp [vEdge, code]; omega
  · rintro (hp | hp)
    · obtain ⟨⟨x, y⟩, ha, rfl⟩ := Finset.mem_image.mp hp
      simp only [Finset.mem_product, Finset.mem_range] at ha
      have := gridPoint_le (n := n) (Nat.le_succ x) (le_refl y)
      rcases Nat.lt_or_ge y n with hy | hy
      · exact ⟨((x, y), (x + 1, y)), ⟨x, y, ha.1, hy, by simp [quadEdges]⟩, by simp [hEdge, code]; omega⟩
      · obtain ⟨y, rfl⟩ : ∃ z, y = z + 1 := ⟨y - 1, by omega⟩
        exact ⟨((x + 1, y + 1), (x, y + 1)), ⟨x, y, ha.1, by omega, by simp [quadEdges]⟩, by simp [hEdge, code]; omega⟩
    · obtain ⟨⟨x, y⟩, ha, rfl⟩ := Finset.mem_image.mp hp
      simp only [Finset.mem_product, Finset.mem_range] at ha
      have := gridPoint_le (n := n) (le_refl x) (Nat.le_succ y)
      rcases Nat.lt_or_ge x n with hx | hx
      · exact ⟨((x, y + 1), (x, y)), ⟨x, y, hx, ha.2, by simp [quadEdges]⟩, by simp [vEdge, code]; omega⟩
      · obtain ⟨x, rfl⟩ : ∃ z, x = z + 1 := ⟨x - 1, by omega⟩
        exact ⟨((x + 1, y), (x + 1, y + 1)), ⟨x, y, by omega, ha.2, by simp [quadEdges]⟩, by simp [vEdge, code]; omega⟩

theorem tris_undirected (h : screenTriangles fromNat n = some s) :
    s.undirected = hEdges n ∪ vEdges n ∪ dEdges n := by
  have hn := (screenTriangles_eq _ h).1
  ext p
  unfold Shape.undirected
  rw [screenTriangles_edges _ h]
  simp only [List.mem_toFinset, List.map_map, List.mem_map, mem_tri_edges, Finset.mem_union]
  constructor
  · rintro ⟨d, ⟨x, y, hx, hy, hd⟩, rfl⟩
    have g1 := gridPoint_le (n := n) (Nat.le_succ x) (le_refl y)
    have g2 := gridPoint_le (n := n) (le_refl (x + 1)) (Nat.le_succ y)
    have g3 := gridPoint_le (n := n) (Nat.le_succ x) (le_refl (y + 1))
    have g4 := gridPoint_le (n := n) (le_refl x) (Nat.le_succ y)
    have g5 : gridPoint n x y ≤ gridPoint n (x + 1) (y + 1) := gridPoint_le (by omega) (by omega)
    simp only [triEdges, List.mem_cons, List.not_mem_nil, or_false] at hd
    rcases hd with rfl | rfl | rfl | rfl | rfl | rfl
    · left; left
      refine Finset.mem_image.mpr ⟨(x, y), by simp; omega, ?_⟩
      simp [hEdge, code]; omega
    · left; right
      refine Finset.mem_image.mpr ⟨(x + 1, y), by simp; omega, ?_⟩
      simp [vEdge, code]; omega
    · right
      refine Finset.mem_image.mpr ⟨(x, y), by simp; omega, ?_⟩
      simp [dEdge, code]; omega
    · right
      refine Finset.mem_image.mpr ⟨(x, y), by simp; omega, ?_⟩
      simp [dEdge, code]; omega
    · left; left
      refine Finset.mem_image.mpr ⟨(x, y + 1), by simp; omega, ?_⟩
      simp [hEdge, code]; omega
    · left; right
      refine Finset.mem_image.mpr ⟨(x, y), by simp; omega, ?_⟩
      simp [vEdge, code]; omega
  · rintro ((hp | hp) | hp)
    · obtain ⟨⟨x, y⟩, ha, rfl⟩ := Finset.mem_image.mp hp
      simp only [Finset.mem_product, Finset.mem_range] at ha
      have := gridPoint_le (n := n) (Nat.le_succ x) (le_refl y)
      rcases Nat.lt_or_ge y n with hy | hy
      · exact ⟨((x, y), (x + 1, y)), ⟨x, y, ha.1, hy, by simp [triEdges]⟩, by simp [hEdge, code]; omega⟩
      · obtain ⟨y, rfl⟩ : ∃ z, y = z + 1 := ⟨y - 1, by omega⟩
        exact ⟨((x + 1, y + 1), (x, y + 1)), ⟨x, y, ha.1, by omega, by simp [triEdges]⟩, by simp [hEdge, code]; omega⟩
    · obtain ⟨⟨x, y⟩, ha, rfl⟩ := Finset.mem_image.mp hp
      simp only [Finset.mem_product, Finset.mem_range] at ha
      have := gridPoint_le (n := n) (le_refl x) (Nat.le_succ y)
      rcases Nat.lt_or_ge x n with hx | hx
      · exact ⟨((x, y + 1), (x, y)), ⟨x, y, hx, ha.2, by simp [triEdges]⟩, by simp [vEdge, code]; omega⟩
      · obtain ⟨x, rfl⟩ : ∃ z, x = z + 1 := ⟨x - 1, by omega⟩
        exact ⟨((x + 1, y), (x + 1, y + 1)), ⟨x, y, by omega, ha.2, by simp [triEdges]⟩, by simp [vEdge, code]; omega⟩
    · obtain ⟨⟨x, y⟩, ha, rfl⟩ := Finset.mem_image.mp hp
      simp only [Finset.mem_product, Finset.mem_range] at ha
      have := gridPoint_le (n := n) (Nat.le_succ x) (Nat.le_succ y)
      exact ⟨((x, y), (x + 1, y + 1)), ⟨x, y, ha.1, ha.2, by simp [triEdges]⟩, by simp [dEdge, code]; omega⟩

/-- What the builder gets for a screen of triangles. -/
theorem triangles_input (h : screenTriangles fromNat n = some s) :
    s.Complete ∧ s.OfType .triangle ∧ s.Conforming ∧ s.points.length = (n + 1) * (n + 1) ∧
      s.undirected.card = 3 * n * n + 2 * n ∧ s.cells.length = 2 * (n * n) ∧ 0 < n := by
  have hn := (screenTriangles_eq _ h).1
  obtain ⟨s', e, hp, hc, -, hcomp, h3⟩ := (C33_triangles (fromNat := fromNat) n).2 hn
  obtain rfl := Option.some.inj (h.symm.trans e)
  refine ⟨hcomp, h3, tris_conforming fromNat h h3, hp, ?_, hc, hn⟩
  rw [tris_undirected fromNat h, Finset.card_union_of_disjoint (hvd_disjoint n),
    Finset.card_union_of_disjoint (hv_disjoint n), hEdges_card, vEdges_card, dEdges_card]
  ring

/-- What the builder gets for a screen of quadrilaterals. -/
theorem quadrilaterals_input (h : screenQuadrilaterals fromNat n = some s) :
    s.Complete ∧ s.OfType .quadrilateral ∧ s.Conforming ∧ s.points.length = (n + 1) * (n + 1) ∧
      s.undirected.card = 2 * n * (n + 1) ∧ s.cells.length = n * n ∧ 0 < n := by
  have hn := (screenQuadrilaterals_eq _ h).1
  obtain ⟨s', e, hp, hc, -, hcomp, h3⟩ := (C33_quadrilaterals (fromNat := fromNat) n).2 hn
  obtain rfl := Option.some.inj (h.symm.trans e)
  refine ⟨hcomp, h3, quads_conforming fromNat h, hp, ?_, hc, hn⟩
  rw [quads_undirected fromNat h, Finset.card_union_of_disjoint (hv_disjoint n), hEdges_card, vEdges_card]
  ring

end
end Bempp
