import Verif.Spec.Shapes
import Mathlib.Data.List.Nodup
import Mathlib.Tactic.Ring
import Mathlib.Tactic.Linarith
import Mathlib.Tactic.Positivity
import Mathlib.Tactic.FieldSimp
/-
The numbering of screens.
-/
set_option linter.unusedSectionVars false
set_option linter.unusedVariables false

namespace Bempp

theorem range_grid {α : Type} (g : Nat → α) (b : Nat) : ∀ a : Nat,
    ((List.range a).flatMap fun y => (List.range b).map fun x => g (y * b + x)) = (List.range (a * b)).map g := by
  intro a
  induction a with
  | zero => simp
  | succ a ih =>
    rw [List.range_succ, List.flatMap_append, ih, Nat.succ_mul, List.range_add, List.map_append]
    simp [Function.comp_def]

theorem range_pairs {α : Type} (g : Nat → List α) (b : Nat) : ∀ a : Nat,
    ((List.range a).flatMap fun y => (List.range b).flatMap fun x => g (y * b + x)) =
      (List.range (a * b)).flatMap g := by
  intro a
  induction a with
  | zero => simp
  | succ a ih =>
    rw [List.range_succ, List.flatMap_append, ih, Nat.succ_mul, List.range_add, List.flatMap_append]
    simp [List.flatMap_map]

theorem range_double (m : Nat) : ((List.range m).flatMap fun k => [2 * k, 2 * k + 1]) = List.range (2 * m) := by
  induction m with
  | zero => rfl
  | succ m ih =>
    rw [List.range_succ, List.flatMap_append, ih, Nat.mul_succ, List.range_add]
    simp [List.range_succ]

theorem grid_mod {n x y : Nat} (h : x < n) : (y * n + x) % n = x := by
  rw [Nat.mul_comm, Nat.mul_add_mod]
  exact Nat.mod_eq_of_lt h

theorem grid_div {n x y : Nat} (h : x < n) : (y * n + x) / n = y := by
  rw [Nat.mul_comm, Nat.mul_add_div (by omega), Nat.div_eq_of_lt h, Nat.add_zero]

theorem grid_lt {n x y : Nat} (hx : x < n) (hy : y < n) : y * n + x < n * n := by
  calc y * n + x < y * n + n := by omega
    _ = (y + 1) * n := by ring
    _ ≤ n * n := Nat.mul_le_mul_right n hy

theorem grid_split {n v : Nat} (h : v < n * n) : ∃ x y, x < n ∧ y < n ∧ v = y * n + x := by
  have hn : 0 < n := by
    rcases n with _ | n
    · simp at h
    · omega
  refine ⟨v % n, v / n, Nat.mod_lt _ hn, Nat.div_lt_of_lt_mul h, ?_⟩
  rw [Nat.mul_comm]
  exact (Nat.div_add_mod v n).symm

theorem grid_inj {n x y x' y' : Nat} (hx : x < n) (hx' : x' < n) (h : y * n + x = y' * n + x') :
    x = x' ∧ y = y' := by
  have h1 := congrArg (· % n) h
  have h2 := congrArg (· / n) h
  simp only [grid_mod hx, grid_mod hx', grid_div hx, grid_div hx'] at h1 h2
  exact ⟨h1, h2⟩

section
variable {T : Type} [Zero T] [Div T] (fromNat : Nat → T)

theorem screenPoints_eq (n : Nat) : screenPoints fromNat n = (List.range ((n + 1) * (n + 1))).map fun v =>
    (v, (fromNat (v % (n + 1)) / fromNat (n + 1), fromNat (v / (n + 1)) / fromNat (n + 1), 0)) := by
  rw [← range_grid]
  unfold screenPoints
  apply List.flatMap_congr
  intro y hy
  apply List.map_congr_left
  intro x hx
  have hx := List.mem_range.mp hx
  rw [grid_mod hx, grid_div hx]

/-- The coordinates of the points. -/
theorem screen_at {n : Nat} {s : Shape T} (hs : s.points = screenPoints fromNat n) {x y : Nat} (hx : x < n + 1)
    (hy : y < n + 1) :
    s.at (y * (n + 1) + x) = some (fromNat x / fromNat (n + 1), fromNat y / fromNat (n + 1), 0) := by
  unfold Shape.at
  rw [hs, screenPoints_eq, List.getElem?_map, List.getElem?_range (grid_lt hx hy)]
  simp only [Option.map_some, grid_mod hx, grid_div hx]

/-- The number of a point. -/
def gridPoint (n x y : Nat) : Nat := y * (n + 1) + x

/-- The triangles below and above the diagonal of a square. -/
def lowerTri (n x y : Nat) : List Nat := [gridPoint n x y, gridPoint n (x + 1) y, gridPoint n (x + 1) (y + 1)]
def upperTri (n x y : Nat) : List Nat := [gridPoint n x y, gridPoint n (x + 1) (y + 1), gridPoint n x (y + 1)]
def squareQuad (n x y : Nat) : List Nat :=
  [gridPoint n x y, gridPoint n (x + 1) y, gridPoint n x (y + 1), gridPoint n (x + 1) (y + 1)]

theorem gridPoint_right (n x y : Nat) : gridPoint n (x + 1) y = y * (n + 1) + x + 1 := by
  unfold gridPoint; omega

theorem gridPoint_up (n x y : Nat) : gridPoint n x (y + 1) = y * (n + 1) + x + n + 1 := by
  unfold gridPoint; rw [Nat.succ_mul]; omega

theorem gridPoint_diag (n x y : Nat) : gridPoint n (x + 1) (y + 1) = y * (n + 1) + x + n + 2 := by
  unfold gridPoint; rw [Nat.succ_mul]; omega

theorem screenTriangles_eq {n : Nat} {s : Shape T} (h : screenTriangles fromNat n = some s) :
    0 < n ∧ s.points = screenPoints fromNat n ∧
    s.cells = (List.range n).flatMap fun y => (List.range n).flatMap fun x =>
      [(2 * (y * n + x), lowerTri n x y), (2 * (y * n + x) + 1, upperTri n x y)] := by
  unfold screenTriangles at h
  split at h
  · exact absurd h (by simp)
  · cases h
    refine ⟨by omega, rfl, ?_⟩
    dsimp only
    apply List.flatMap_congr
    intro y hy
    apply List.flatMap_congr
    intro x hx
    rw [lowerTri, upperTri, gridPoint_diag, gridPoint_right, gridPoint_up,
      show 2 * (y * n + x) = 2 * y * n + 2 * x by ring]
    rfl

theorem screenQuadrilaterals_eq {n : Nat} {s : Shape T} (h : screenQuadrilaterals fromNat n = some s) :
    0 < n ∧ s.points = screenPoints fromNat n ∧
    s.cells = (List.range n).flatMap fun y => (List.range n).map fun x => (y * n + x, squareQuad n x y) := by
  unfold screenQuadrilaterals at h
  split at h
  · exact absurd h (by simp)
  · cases h
    refine ⟨by omega, rfl, ?_⟩
    dsimp only
    apply List.flatMap_congr
    intro y hy
    apply List.map_congr_left
    intro x hx
    rw [squareQuad, gridPoint_diag, gridPoint_right, gridPoint_up]
    rfl

theorem screenTriangles_some {n : Nat} (h : 0 < n) : ∃ s, screenTriangles fromNat n = some s := by
  unfold screenTriangles
  rw [if_neg (by omega)]
  exact ⟨_, rfl⟩

theorem screenQuadrilaterals_some {n : Nat} (h : 0 < n) : ∃ s, screenQuadrilaterals fromNat n = some s := by
  unfold screenQuadrilaterals
  rw [if_neg (by omega)]
  exact ⟨_, rfl⟩

theorem mem_screenTriangles {n : Nat} {s : Shape T} (h : screenTriangles fromNat n = some s) {c : List Nat} :
    (∃ i, (i, c) ∈ s.cells) ↔ ∃ x y, x < n ∧ y < n ∧ (c = lowerTri n x y ∨ c = upperTri n x y) := by
  rw [(screenTriangles_eq fromNat h).2.2]
  simp only [List.mem_flatMap, List.mem_range, List.mem_cons, List.not_mem_nil, or_false, Prod.mk.injEq]
  constructor
  · rintro ⟨i, y, hy, x, hx, ⟨-, e⟩ | ⟨-, e⟩⟩
    · exact ⟨x, y, hx, hy, Or.inl e⟩
    · exact ⟨x, y, hx, hy, Or.inr e⟩
  · rintro ⟨x, y, hx, hy, e | e⟩
    · exact ⟨_, y, hy, x, hx, Or.inl ⟨rfl, e⟩⟩
    · exact ⟨_, y, hy, x, hx, Or.inr ⟨rfl, e⟩⟩

theorem mem_screenQuadrilaterals {n : Nat} {s : Shape T} (h : screenQuadrilaterals fromNat n = some s)
    {c : List Nat} : (∃ i, (i, c) ∈ s.cells) ↔ ∃ x y, x < n ∧ y < n ∧ c = squareQuad n x y := by
  rw [(screenQuadrilaterals_eq fromNat h).2.2]
  simp only [List.mem_flatMap, List.mem_range, List.mem_map, Prod.mk.injEq]
  constructor
  · rintro ⟨i, y, hy, x, hx, -, e⟩
    exact ⟨x, y, hx, hy, e.symm⟩
  · rintro ⟨x, y, hx, hy, e⟩
    exact ⟨_, y, hy, x, hx, rfl, e.symm⟩

theorem gridPoint_lt {n x y : Nat} (hx : x < n + 1) (hy : y < n + 1) : gridPoint n x y < (n + 1) * (n + 1) :=
  grid_lt hx hy

theorem gridPoint_inj {n x y x' y' : Nat} (hx : x < n + 1) (hx' : x' < n + 1) :
    gridPoint n x y = gridPoint n x' y' ↔ x = x' ∧ y = y' :=
  ⟨grid_inj hx hx', fun ⟨h, h'⟩ => by rw [h, h']⟩

/-- The directed edges of a screen as pairs of grid coordinates. -/
def decode (n v : Nat) : Nat × Nat := (v % (n + 1), v / (n + 1))

theorem decode_gridPoint {n x y : Nat} (hx : x < n + 1) : decode n (gridPoint n x y) = (x, y) := by
  unfold decode gridPoint
  rw [grid_mod hx, grid_div hx]

def triEdges (x y : Nat) : List ((Nat × Nat) × (Nat × Nat)) :=
  [((x, y), (x + 1, y)), ((x + 1, y), (x + 1, y + 1)), ((x + 1, y + 1), (x, y)),
   ((x, y), (x + 1, y + 1)), ((x + 1, y + 1), (x, y + 1)), ((x, y + 1), (x, y))]

def quadEdges (x y : Nat) : List ((Nat × Nat) × (Nat × Nat)) :=
  [((x, y), (x + 1, y)), ((x + 1, y), (x + 1, y + 1)), ((x + 1, y + 1), (x, y + 1)), ((x, y + 1), (x, y))]

def code (n : Nat) (d : (Nat × Nat) × (Nat × Nat)) : Nat × Nat :=
  (gridPoint n d.1.1 d.1.2, gridPoint n d.2.1 d.2.2)

theorem screenTriangles_edges {n : Nat} {s : Shape T} (h : screenTriangles fromNat n = some s) :
    s.edges = ((List.range n).flatMap fun y => (List.range n).flatMap fun x => triEdges x y).map (code n) := by
  unfold Shape.edges
  rw [(screenTriangles_eq fromNat h).2.2]
  simp only [List.flatMap_assoc, List.map_flatMap]
  rfl

theorem screenQuadrilaterals_edges {n : Nat} {s : Shape T} (h : screenQuadrilaterals fromNat n = some s) :
    s.edges = ((List.range n).flatMap fun y => (List.range n).flatMap fun x => quadEdges x y).map (code n) := by
  unfold Shape.edges
  rw [(screenQuadrilaterals_eq fromNat h).2.2]
  simp only [List.flatMap_assoc, List.map_flatMap, List.flatMap_map]
  rfl

theorem triEdges_nodup (n : Nat) :
    ((List.range n).flatMap fun y => (List.range n).flatMap fun x => triEdges x y).Nodup := by
  rw [List.nodup_flatMap]
  refine ⟨fun y hy => ?_, ?_⟩
  · rw [List.nodup_flatMap]
    refine ⟨fun x hx => ?_, ?_⟩
    · simp [triEdges]
    · refine (List.nodup_range (n := n)).imp ?_
      intro x x' hne d hd hd'
      simp only [triEdges, List.mem_cons, List.not_mem_nil, or_false] at hd hd'
      rcases hd with rfl | rfl | rfl | rfl | rfl | rfl <;> simp at hd' <;> omega
  · refine (List.nodup_range (n := n)).imp ?_
    intro y y' hne d hd hd'
    simp only [List.mem_flatMap, List.mem_range] at hd hd'
    obtain ⟨x, hx, hd⟩ := hd
    obtain ⟨x', hx', hd'⟩ := hd'
    simp only [triEdges, List.mem_cons, List.not_mem_nil, or_false] at hd hd'
    rcases hd with rfl | rfl | rfl | rfl | rfl | rfl <;> simp at hd' <;> omega

theorem quadEdges_nodup (n : Nat) :
    ((List.range n).flatMap fun y => (List.range n).flatMap fun x => quadEdges x y).Nodup := by
  rw [List.nodup_flatMap]
  refine ⟨fun y hy => ?_, ?_⟩
  · rw [List.nodup_flatMap]
    refine ⟨fun x hx => ?_, ?_⟩
    · simp [quadEdges]
    · refine (List.nodup_range (n := n)).imp ?_
      intro x x' hne d hd hd'
      simp only [quadEdges, List.mem_cons, List.not_mem_nil, or_false] at hd hd'
      rcases hd with rfl | rfl | rfl | rfl <;> simp at hd' <;> omega
  · refine (List.nodup_range (n := n)).imp ?_
    intro y y' hne d hd hd'
    simp only [List.mem_flatMap, List.mem_range] at hd hd'
    obtain ⟨x, hx, hd⟩ := hd
    obtain ⟨x', hx', hd'⟩ := hd'
    simp only [quadEdges, List.mem_cons, List.not_mem_nil, or_false] at hd hd'
    rcases hd with rfl | rfl | rfl | rfl <;> simp at hd' <;> omega

/-- The coordinates of a directed edge of a screen. -/
theorem mem_tri_edges {n : Nat} {d : (Nat × Nat) × (Nat × Nat)} :
    d ∈ ((List.range n).flatMap fun y => (List.range n).flatMap fun x => triEdges x y) ↔
    ∃ x y, x < n ∧ y < n ∧ d ∈ triEdges x y := by
  simp only [List.mem_flatMap, List.mem_range]
  constructor
  · rintro ⟨y, hy, x, hx, h⟩
    exact ⟨x, y, hx, hy, h⟩
  · rintro ⟨x, y, hx, hy, h⟩
    exact ⟨y, hy, x, hx, h⟩

theorem mem_quad_edges {n : Nat} {d : (Nat × Nat) × (Nat × Nat)} :
    d ∈ ((List.range n).flatMap fun y => (List.range n).flatMap fun x => quadEdges x y) ↔
    ∃ x y, x < n ∧ y < n ∧ d ∈ quadEdges x y := by
  simp only [List.mem_flatMap, List.mem_range]
  constructor
  · rintro ⟨y, hy, x, hx, h⟩
    exact ⟨x, y, hx, hy, h⟩
  · rintro ⟨x, y, hx, hy, h⟩
    exact ⟨y, hy, x, hx, h⟩

/-- Both grid coordinates of an edge on a side of the square. -/
def OnSide (n : Nat) (d : (Nat × Nat) × (Nat × Nat)) : Prop :=
  (d.1.1 = 0 ∧ d.2.1 = 0) ∨ (d.1.1 = n ∧ d.2.1 = n) ∨ (d.1.2 = 0 ∧ d.2.2 = 0) ∨ (d.1.2 = n ∧ d.2.2 = n)

/-- What is needed of the edges. -/
structure ScreenEdges (n : Nat) (l : List ((Nat × Nat) × (Nat × Nat))) : Prop where
  nodup : l.Nodup
  lt : ∀ d ∈ l, d.1.1 < n + 1 ∧ d.1.2 < n + 1 ∧ d.2.1 < n + 1 ∧ d.2.2 < n + 1
  swap : ∀ d ∈ l, (d.2, d.1) ∈ l ↔ ¬ OnSide n d

theorem tri_screenEdges (n : Nat) :
    ScreenEdges n ((List.range n).flatMap fun y => (List.range n).flatMap fun x => triEdges x y) := by
  refine ⟨triEdges_nodup n, ?_, ?_⟩
  · intro d hd
    obtain ⟨x, y, hx, hy, hd⟩ := mem_tri_edges.mp hd
    simp only [triEdges, List.mem_cons, List.not_mem_nil, or_false] at hd
    rcases hd with rfl | rfl | rfl | rfl | rfl | rfl <;> dsimp only <;> omega
  · intro d hd
    obtain ⟨x, y, hx, hy, hd⟩ := mem_tri_edges.mp hd
    rw [mem_tri_edges]
    simp only [triEdges, List.mem_cons, List.not_mem_nil, or_false] at hd ⊢
    constructor
    · rintro ⟨x', y', hx', hy', h⟩ hs
      unfold OnSide at hs
      rcases hd with rfl | rfl | rfl | rfl | rfl | rfl <;> simp at h hs <;> omega
    · intro hs
      unfold OnSide at hs
      rcases hd with rfl | rfl | rfl | rfl | rfl | rfl <;> simp at hs
      · refine ⟨x, y - 1, hx, by omega, ?_⟩
        have : y - 1 + 1 = y := by omega
        simp [this]
      · refine ⟨x + 1, y, by omega, hy, by simp⟩
      · exact ⟨x, y, hx, hy, by simp⟩
      · exact ⟨x, y, hx, hy, by simp⟩
      · refine ⟨x, y + 1, hx, by omega, by simp⟩
      · refine ⟨x - 1, y, by omega, hy, ?_⟩
        have : x - 1 + 1 = x := by omega
        simp [this]

theorem quad_screenEdges (n : Nat) :
    ScreenEdges n ((List.range n).flatMap fun y => (List.range n).flatMap fun x => quadEdges x y) := by
  refine ⟨quadEdges_nodup n, ?_, ?_⟩
  · intro d hd
    obtain ⟨x, y, hx, hy, hd⟩ := mem_quad_edges.mp hd
    simp only [quadEdges, List.mem_cons, List.not_mem_nil, or_false] at hd
    rcases hd with rfl | rfl | rfl | rfl <;> dsimp only <;> omega
  · intro d hd
    obtain ⟨x, y, hx, hy, hd⟩ := mem_quad_edges.mp hd
    rw [mem_quad_edges]
    simp only [quadEdges, List.mem_cons, List.not_mem_nil, or_false] at hd ⊢
    constructor
    · rintro ⟨x', y', hx', hy', h⟩ hs
      unfold OnSide at hs
      rcases hd with rfl | rfl | rfl | rfl <;> simp at h hs <;> omega
    · intro hs
      unfold OnSide at hs
      rcases hd with rfl | rfl | rfl | rfl <;> simp at hs
      · refine ⟨x, y - 1, hx, by omega, ?_⟩
        have : y - 1 + 1 = y := by omega
        simp [this]
      · refine ⟨x + 1, y, by omega, hy, by simp⟩
      · refine ⟨x, y + 1, hx, by omega, by simp⟩
      · refine ⟨x - 1, y, by omega, hy, ?_⟩
        have : x - 1 + 1 = x := by omega
        simp [this]

theorem code_inj {n : Nat} {d d' : (Nat × Nat) × (Nat × Nat)} (h1 : d.1.1 < n + 1) (h2 : d.2.1 < n + 1)
    (h1' : d'.1.1 < n + 1) (h2' : d'.2.1 < n + 1) (h : code n d = code n d') : d = d' := by
  unfold code at h
  have a := (gridPoint_inj h1 h1').mp (congrArg Prod.fst h)
  have b := (gridPoint_inj h2 h2').mp (congrArg Prod.snd h)
  ext
  · exact a.1
  · exact a.2
  · exact b.1
  · exact b.2

end
end Bempp
