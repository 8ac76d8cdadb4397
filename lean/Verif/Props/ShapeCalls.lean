import Verif.Spec.ShapeCalls
import Verif.Props.Builder
/-
C88: the shapes use the grid builder as it asks for, on all processes.
-/
namespace Bempp

section
variable {T : Type}

theorem add_points (b : GridBuilder T) (h3 : b.gdim = 3) : ∀ (l : List (Nat × (T × T × T))),
    (b.points.map Prod.fst ++ l.map Prod.fst).Nodup →
    (l.map fun p => BuilderCall.addPoint p.1 [p.2.1, p.2.2.1, p.2.2.2]).foldlM BuilderState.call (.building b) =
      some (.building { b with points := b.points ++ l.map fun p => (p.1, [p.2.1, p.2.2.1, p.2.2.2]) }) := by
  intro l
  induction l generalizing b with
  | nil => intro _; simp
  | cons p l ih =>
    intro hn
    have hp : p.1 ∉ b.points.map Prod.fst := by
      intro h
      rw [List.map_cons, List.nodup_append] at hn
      exact hn.2.2 _ h _ (List.mem_cons_self ..) rfl
    rw [List.map_cons, List.foldlM_cons]
    simp only [BuilderState.call]
    rw [if_pos ⟨by simp [h3], hp⟩]
    show List.foldlM _ _ _ = _
    rw [ih { b with points := b.points ++ [(p.1, [p.2.1, p.2.2.1, p.2.2.2])] } h3 (by simpa using hn)]
    simp

theorem add_cells (b : GridBuilder T) : ∀ (l : List (Nat × List Nat)),
    (b.cells.map Prod.fst ++ l.map Prod.fst).Nodup → (∀ c ∈ l, c.2.length = elementPoints b.type b.degree) →
    (∀ c ∈ l, ∀ v ∈ c.2, v ∈ b.points.map Prod.fst) →
    (l.map fun c => (BuilderCall.addCell c.1 c.2 : BuilderCall T)).foldlM BuilderState.call (.building b) =
      some (.building { b with cells := b.cells ++ l }) := by
  intro l
  induction l generalizing b with
  | nil => intro _ _ _; simp
  | cons p l ih =>
    intro hn hl hv
    have hp : p.1 ∉ b.cells.map Prod.fst := by
      intro h
      rw [List.map_cons, List.nodup_append] at hn
      exact hn.2.2 _ h _ (List.mem_cons_self ..) rfl
    rw [List.map_cons, List.foldlM_cons]
    simp only [BuilderState.call]
    rw [if_pos ⟨hl _ (List.mem_cons_self ..), hp, hv _ (List.mem_cons_self ..)⟩]
    show List.foldlM _ _ _ = _
    rw [ih { b with cells := b.cells ++ [(p.1, p.2)] } (by simpa using hn) (fun c hc => hl c (List.mem_cons_of_mem _ hc))
      fun c hc => hv c (List.mem_cons_of_mem _ hc)]
    simp

theorem root_calls {s : Shape T} (n m : Nat) {t : CellType} {d k : Nat} (h1 : s.Numbered) (h2 : s.Complete)
    (h3 : ∀ c ∈ s.cells, c.2.length = k) (hne : s.cells ≠ []) (b : GridBuilder T) :
    BuilderState.calls ([.newWithCapacity 3 n m t d] ++ s.calls ++ [.createRoot]) = some (.creating 0 b) ↔
      k = elementPoints t d ∧ b = s.builder n m t d := by
  have hpts := add_points (T := T) ⟨3, t, d, (n, m), [], []⟩ rfl s.points (by
    simp only [List.map_nil, List.nil_append]; rw [h1.1]; exact List.nodup_range)
  simp only [List.nil_append] at hpts
  unfold BuilderState.calls Shape.calls
  rw [List.append_assoc, List.singleton_append, List.foldlM_cons]
  simp only [BuilderState.call]
  show List.foldlM _ _ _ = _ ↔ _
  rw [List.foldlM_append, List.foldlM_append, hpts]
  show ((List.foldlM _ _ _ : Option _) >>= _) = _ ↔ _
  by_cases hk : k = elementPoints t d
  · have hc := add_cells (T := T) ⟨3, t, d, (n, m), s.points.map fun p => (p.1, [p.2.1, p.2.2.1, p.2.2.2]), []⟩ s.cells (by
      simp only [List.map_nil, List.nil_append]; rw [h1.2]; exact List.nodup_range) (fun c hc => (h3 c hc).trans hk)
      (fun c hc v hv => by
        have : v ∈ s.points.map Prod.fst := by
          rw [h1.1]; exact List.mem_range.mpr (h2.1 c hc v hv)
        simpa using this)
    rw [hc]
    simp only [hk, true_and]
    show some _ = some _ ↔ _
    simp only [List.nil_append, Option.some.injEq, BuilderState.creating.injEq, true_and]
    exact ⟨fun h => h.symm, fun h => h.symm⟩
  · obtain ⟨c, l, hl⟩ := List.exists_cons_of_ne_nil hne
    simp only [hk, false_and, iff_false]
    have h0 := h3 c (by rw [hl]; exact List.mem_cons_self ..)
    rw [hl, List.map_cons, List.foldlM_cons]
    simp only [BuilderState.call]
    rw [if_neg (fun h => hk (h0.symm.trans h.1))]
    intro h
    exact absurd h (by simp)

theorem other_calls (t : CellType) (d : Nat) (b : GridBuilder T) :
    BuilderState.calls [.new 3 t d, .create 0] = some (.creating 0 b) ↔ b = GridBuilder.empty t d := by
  show some _ = some _ ↔ _
  simp only [Option.some.injEq, BuilderState.creating.injEq, true_and]
  exact ⟨fun h => h.symm, fun h => h.symm⟩

/-- Only for degree 1 a triangle has three points. -/
theorem three_points (d : Nat) : 3 = elementPoints .triangle d ↔ d = 1 := by
  show 3 = (d + 1) * (d + 2) / 2 ↔ _
  refine ⟨fun h => ?_, fun h => by rw [h]⟩
  match d, h with
  | 0, h => norm_num at h
  | 1, _ => rfl
  | d + 2, h =>
    have : 12 ≤ (d + 2 + 1) * (d + 2 + 2) := by nlinarith
    omega

end

section
variable {T : Type} [Zero T] [One T] [Neg T] [Add T] [Mul T] [Div T]

/-- **C88.** `regular_sphere` and the grid builder. Process 0 enters the creation of the grid exactly if the degree is 1, and
then the builder contains the sphere and had room for exactly the points and cells that were added. The other processes
always enter it. -/
theorem C88_sphere (half : T) (sqrt : T → T) (level degree : Nat) : ∃ s, regularSphere half sqrt level = some s ∧
    (∀ b, Enters (regularSphereCalls half sqrt level degree) 0 b ↔
      degree = 1 ∧ b = s.builder s.points.length s.cells.length .triangle 1) ∧
    ∀ rank, 0 < rank → ∀ b, Enters (regularSphereCalls half sqrt level degree) rank b ↔
      b = GridBuilder.empty .triangle degree := by
  obtain ⟨s, hs, hp, hc, hn, hcomp⟩ := C30_sizes half sqrt level
  obtain ⟨-, h2, -, -, -, -⟩ := sphere_input half sqrt level hs
  have hne : s.cells ≠ [] := by
    rintro e
    rw [e] at hc
    have : 0 < 4 ^ level := Nat.pow_pos (by omega)
    simp at hc
  refine ⟨s, hs, fun b => ?_, fun rank hr b => ?_⟩
  · have e : regularSphereCalls half sqrt level degree 0 = some ([.newWithCapacity 3 (2 + 4 ^ (level + 1)) (8 * 4 ^ level)
        .triangle degree] ++ s.calls ++ [.createRoot]) := by
      unfold regularSphereCalls
      rw [if_pos rfl, hs]
      rfl
    unfold Enters
    rw [e]
    simp only [Option.some.injEq, exists_eq_left']
    rw [root_calls _ _ hn hcomp (fun c hc => (h2 c hc).1) hne, hp, hc, Nat.add_comm 2]
    refine (and_congr (three_points degree) Iff.rfl).trans (and_congr_right fun h => ?_)
    rw [h]
  · unfold Enters regularSphereCalls
    rw [if_neg (by omega)]
    simp only [Option.some.injEq, exists_eq_left']
    exact other_calls _ _ b

/-- **C88.** So all processes create the sphere together exactly if the degree is 1. With any other degree process 0 panics,
while the others are waiting for it. -/
theorem C88_degree (half : T) (sqrt : T → T) (level degree : Nat) {size : Nat} (h : 0 < size) :
    (∀ rank, rank < size → ∃ b, Enters (regularSphereCalls half sqrt level degree) rank b) ↔ degree = 1 := by
  obtain ⟨s, -, h0, h1⟩ := C88_sphere half sqrt level degree
  constructor
  · intro ha
    obtain ⟨b, hb⟩ := ha 0 h
    exact ((h0 b).mp hb).1
  · rintro rfl rank -
    rcases Nat.eq_zero_or_pos rank with rfl | hr
    · exact ⟨_, (h0 _).mpr ⟨rfl, rfl⟩⟩
    · exact ⟨_, (h1 rank hr _).mpr rfl⟩

omit [One T] [Neg T] [Add T] [Mul T] in
/-- **C88.** `screen_triangles`: without cells all processes panic, before any communication. Otherwise all processes enter
the creation of the grid; the builder of process 0 contains the screen and had room for exactly its points and cells. -/
theorem C88_triangles (fromNat : Nat → T) (n : Nat) :
    (n = 0 → ∀ rank, screenTrianglesCalls fromNat n rank = none) ∧
    (0 < n → ∃ s, screenTriangles fromNat n = some s ∧
      (∀ b, Enters (screenTrianglesCalls fromNat n) 0 b ↔ b = s.builder s.points.length s.cells.length .triangle 1) ∧
      ∀ rank, 0 < rank → ∀ b, Enters (screenTrianglesCalls fromNat n) rank b ↔ b = GridBuilder.empty .triangle 1) := by
  refine ⟨fun h rank => by simp [screenTrianglesCalls, h], fun h => ?_⟩
  obtain ⟨s, hs, hp, hc, hn, hcomp, h3⟩ := (C33_triangles (fromNat := fromNat) n).2 h
  have hne : s.cells ≠ [] := by
    rintro e
    rw [e] at hc
    have : 0 < n * n := Nat.mul_pos h h
    simp at hc
    omega
  refine ⟨s, hs, fun b => ?_, fun rank hr b => ?_⟩
  · have e : screenTrianglesCalls fromNat n 0 = some ([.newWithCapacity 3 ((n + 1) * (n + 1)) (2 * n * n)
        .triangle 1] ++ s.calls ++ [.createRoot]) := by
      unfold screenTrianglesCalls
      rw [if_neg (by omega), if_pos rfl, hs]
      rfl
    unfold Enters
    rw [e]
    simp only [Option.some.injEq, exists_eq_left']
    rw [root_calls _ _ hn hcomp (fun c hc => (h3 c hc).1) hne, hp, hc, Nat.mul_assoc]
    simp only [elementPoints, true_and]
  · unfold Enters screenTrianglesCalls
    rw [if_neg (by omega), if_neg (by omega)]
    simp only [Option.some.injEq, exists_eq_left']
    exact other_calls _ _ b

omit [One T] [Neg T] [Add T] [Mul T] in
/-- **C88.** The same for `screen_quadrilaterals`. -/
theorem C88_quadrilaterals (fromNat : Nat → T) (n : Nat) :
    (n = 0 → ∀ rank, screenQuadrilateralsCalls fromNat n rank = none) ∧
    (0 < n → ∃ s, screenQuadrilaterals fromNat n = some s ∧
      (∀ b, Enters (screenQuadrilateralsCalls fromNat n) 0 b ↔
        b = s.builder s.points.length s.cells.length .quadrilateral 1) ∧
      ∀ rank, 0 < rank → ∀ b, Enters (screenQuadrilateralsCalls fromNat n) rank b ↔
        b = GridBuilder.empty .quadrilateral 1) := by
  refine ⟨fun h rank => by simp [screenQuadrilateralsCalls, h], fun h => ?_⟩
  obtain ⟨s, hs, hp, hc, hn, hcomp, h3⟩ := (C33_quadrilaterals (fromNat := fromNat) n).2 h
  have hne : s.cells ≠ [] := by
    rintro e
    rw [e] at hc
    have : 0 < n * n := Nat.mul_pos h h
    simp at hc
    omega
  refine ⟨s, hs, fun b => ?_, fun rank hr b => ?_⟩
  · have e : screenQuadrilateralsCalls fromNat n 0 = some ([.newWithCapacity 3 ((n + 1) * (n + 1)) (n * n)
        .quadrilateral 1] ++ s.calls ++ [.createRoot]) := by
      unfold screenQuadrilateralsCalls
      rw [if_neg (by omega), if_pos rfl, hs]
      rfl
    unfold Enters
    rw [e]
    simp only [Option.some.injEq, exists_eq_left']
    rw [root_calls _ _ hn hcomp (fun c hc => (h3 c hc).1) hne, hp, hc]
    simp only [elementPoints, true_and]
  · unfold Enters screenQuadrilateralsCalls
    rw [if_neg (by omega), if_neg (by omega)]
    simp only [Option.some.injEq, exists_eq_left']
    exact other_calls _ _ b

end

/-- C88: a sphere of degree 1 is created by all of three processes, and a sphere of degree 2 by none. -/
example : (∀ rank, rank < 3 → ∃ b, Enters (regularSphereCalls (1 / 2 : ℝ) Real.sqrt 2 1) rank b) ∧
    ¬ ∃ b, Enters (regularSphereCalls (1 / 2 : ℝ) Real.sqrt 2 2) 0 b := by
  refine ⟨(C88_degree _ _ 2 1 (by omega)).mpr rfl, ?_⟩
  rintro ⟨b, hb⟩
  obtain ⟨s, -, h0, -⟩ := C88_sphere (1 / 2 : ℝ) Real.sqrt 2 2
  exact absurd ((h0 b).mp hb).1 (by decide)

end Bempp
