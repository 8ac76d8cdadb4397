import Verif.Model.Python
import Mathlib.Data.List.Nodup
import Mathlib.Data.List.Count
/-
Invariants of the reference counts.
-/
set_option linter.unusedSectionVars false
set_option linter.unusedVariables false

namespace Bempp

/-- Update of a function. -/
def upd {α : Type} (f : Nat → α) (i : Nat) (a : α) : Nat → α := fun x => if x = i then a else f x

theorem upd_same {α : Type} (f : Nat → α) (i : Nat) (a : α) : upd f i a i = a := by simp [upd]

theorem upd_ne {α : Type} (f : Nat → α) {i x : Nat} (a : α) (h : x ≠ i) : upd f i a x = f x := by simp [upd, h]

/-- Grids or families with their expected reference counts. -/
structure Pool (kind : RustObj) (live : Nat → Option RustObj) (pool : Nat → Shared) (c : Nat → Nat) : Prop where
  entry : ∀ i, ((pool i).rs = none ∧ c i = 0) ∨
    ∃ p, (pool i).rs = some p ∧ live p = some kind ∧ (pool i).refcount = some (c i : Int) ∧ 0 < c i
  inj : ∀ i j p, (pool i).rs = some p → (pool j).rs = some p → i = j

/-- Addresses that were not given out are not live. -/
def RustHeap.Ok (h : RustHeap) : Prop := ∀ p, h.next ≤ p → h.live p = none

theorem RustHeap.Ok.lt {h : RustHeap} (ok : h.Ok) {p : Nat} {o : RustObj} (hp : h.live p = some o) : p < h.next := by
  by_contra hn
  rw [ok p (by omega)] at hp
  cases hp

theorem RustHeap.Ok.alloc {h : RustHeap} (ok : h.Ok) (o : RustObj) : (h.alloc o).1.Ok ∧
    (h.alloc o).1.live (h.alloc o).2 = some o ∧ h.live (h.alloc o).2 = none ∧
    (∀ p, p ≠ (h.alloc o).2 → (h.alloc o).1.live p = h.live p) := by
  refine ⟨?_, by simp [RustHeap.alloc], ok _ (Nat.le_refl _), ?_⟩
  · intro p hp
    simp only [RustHeap.alloc] at hp ⊢
    rw [if_neg (by omega)]
    exact ok p (by omega)
  · intro p hp
    simp only [RustHeap.alloc] at hp ⊢
    rw [if_neg hp]

theorem RustHeap.Ok.free {h : RustHeap} (ok : h.Ok) {p : Nat} {o : RustObj} (hp : h.live p = some o) :
    ∃ h', h.free p = some h' ∧ h'.Ok ∧ h'.live p = none ∧ ∀ q, q ≠ p → h'.live q = h.live q := by
  refine ⟨{ h with live := fun q => if q = p then none else h.live q }, ?_, ?_, ?_, ?_⟩
  · unfold RustHeap.free
    rw [hp]
  · intro q hq
    dsimp only
    split
    · rfl
    · exact ok q hq
  · simp
  · intro q hq
    simp [hq]

theorem Pool.mono {kind : RustObj} {live live' : Nat → Option RustObj} {pool : Nat → Shared} {c : Nat → Nat}
    (h : Pool kind live pool c) (hl : ∀ p, live p = some kind → live' p = some kind) : Pool kind live' pool c := by
  refine ⟨fun i => ?_, h.inj⟩
  rcases h.entry i with e | ⟨p, a, b, d, e⟩
  · exact Or.inl e
  · exact Or.inr ⟨p, a, hl p b, d, e⟩

/-- Get a grid or family and count it. -/
theorem Pool.acquire {kind : RustObj} {h h' : RustHeap} {pool : Nat → Shared} {c : Nat → Nat} {ok : Bool} {i : Nat}
    {a : Shared} (hp : Pool kind h.live pool c) (hok : h.Ok) (e : acquire kind ok h (pool i) = some (h', a)) :
    a.refcount = some (c i : Int) ∧ h'.Ok ∧
    Pool kind h'.live (upd pool i { a with refcount := some ((c i : Int) + 1) }) (upd c i (c i + 1)) ∧
    (∀ p o, h.live p = some o → h'.live p = some o) ∧
    (∃ p, a.rs = some p ∧ h'.live p = some kind ∧ ((pool i).rs = none ∨ (pool i).rs = some p) ∧
      ∀ q o, h'.live q = some o → h.live q = some o ∨ (o = kind ∧ q = p)) := by
  unfold Bempp.acquire at e
  rcases hp.entry i with ⟨hr, hc⟩ | ⟨p, hr, hl, hc, hpos⟩
  · rw [hr] at e
    dsimp only at e
    cases ok with
    | false => simp at e
    | true =>
      rw [if_pos rfl] at e
      simp only [Option.some.injEq, Prod.mk.injEq] at e
      obtain ⟨k1, k2, k3, k4⟩ := hok.alloc kind
      obtain ⟨rfl, rfl⟩ := e
      have mono : ∀ p o, h.live p = some o → (h.alloc kind).1.live p = some o := by
        intro p o hpo
        have : p ≠ (h.alloc kind).2 := by
          rintro rfl
          rw [k3] at hpo
          cases hpo
        rw [k4 p this]
        exact hpo
      refine ⟨by simp [hc], k1, ⟨fun j => ?_, ?_⟩, mono, (h.alloc kind).2, rfl, k2, Or.inl hr, ?_⟩
      · by_cases hj : j = i
        · subst hj
          right
          refine ⟨(h.alloc kind).2, ?_, k2, ?_, ?_⟩
          · rw [upd_same]
          · rw [upd_same, upd_same]
            simp [hc]
          · rw [upd_same]
            omega
        · rw [upd_ne _ _ hj, upd_ne _ _ hj]
          exact (hp.mono fun p hp => mono p _ hp).entry j
      · intro j j' p hj hj'
        by_cases e1 : j = i <;> by_cases e2 : j' = i
        · rw [e1, e2]
        · exfalso
          subst e1
          rw [upd_same] at hj
          rw [upd_ne _ _ e2] at hj'
          rcases hp.entry j' with ⟨h1, -⟩ | ⟨p', h1, h2, -⟩
          · rw [h1] at hj'; cases hj'
          · rw [h1] at hj'
            cases hj'
            cases hj
            rw [k3] at h2
            cases h2
        · exfalso
          subst e2
          rw [upd_same] at hj'
          rw [upd_ne _ _ e1] at hj
          rcases hp.entry j with ⟨h1, -⟩ | ⟨p', h1, h2, -⟩
          · rw [h1] at hj; cases hj
          · rw [h1] at hj
            cases hj'
            cases hj
            rw [k3] at h2
            cases h2
        · rw [upd_ne _ _ e1] at hj
          rw [upd_ne _ _ e2] at hj'
          exact hp.inj j j' p hj hj'
      · intro q o hq
        by_cases hqe : q = (h.alloc kind).2
        · right
          subst hqe
          rw [k2] at hq
          exact ⟨(Option.some.inj hq).symm, rfl⟩
        · left
          rw [k4 q hqe] at hq
          exact hq
  · rw [hr] at e
    simp only [Option.some.injEq, Prod.mk.injEq] at e
    obtain ⟨rfl, rfl⟩ := e
    refine ⟨hc, hok, ⟨fun j => ?_, ?_⟩, fun _ _ h => h, p, hr, hl, Or.inr hr, fun q o hq => Or.inl hq⟩
    · by_cases hj : j = i
      · subst hj
        right
        rw [upd_same, upd_same]
        exact ⟨p, hr, hl, by push_cast; rfl, by omega⟩
      · rw [upd_ne _ _ hj, upd_ne _ _ hj]
        exact hp.entry j
    · have same : ∀ j, (upd pool i { pool i with refcount := some ((c i : Int) + 1) } j).rs = (pool j).rs := by
        intro j
        by_cases hj : j = i
        · subst hj; rw [upd_same]
        · rw [upd_ne _ _ hj]
      intro j j' p hj hj'
      rw [same] at hj hj'
      exact hp.inj j j' p hj hj'

/-- Give back a grid or family. -/
theorem Pool.release {kind : RustObj} {h : RustHeap} {pool : Nat → Shared} {c : Nat → Nat} {keep : Bool} {i : Nat}
    (hp : Pool kind h.live pool c) (hok : h.Ok) (hc : 0 < c i) :
    ∃ h' a, Bempp.release keep h (pool i) = .done h' a ∧ h'.Ok ∧
      Pool kind h'.live (upd pool i a) (upd c i (c i - 1)) ∧
      ((c i = 1 ∧ a.rs = none ∧ ∃ p, (pool i).rs = some p ∧ h.live p = some kind ∧ h'.live p = none ∧
          ∀ q, q ≠ p → h'.live q = h.live q) ∨
        (1 < c i ∧ h' = h ∧ a.rs = (pool i).rs)) := by
  rcases hp.entry i with ⟨-, h0⟩ | ⟨p, hr, hl, hrc, -⟩
  · omega
  unfold Bempp.release
  rw [hrc]
  dsimp only
  by_cases h1 : c i = 1
  · rw [if_pos (by omega), hr]
    obtain ⟨h', e, ok', hn, hs⟩ := hok.free hl
    dsimp only
    rw [e]
    refine ⟨h', _, rfl, ok', ⟨fun j => ?_, ?_⟩, Or.inl ⟨h1, rfl, p, rfl, hl, hn, hs⟩⟩
    · by_cases hj : j = i
      · subst hj
        left
        rw [upd_same, upd_same]
        exact ⟨rfl, by omega⟩
      · rw [upd_ne _ _ hj, upd_ne _ _ hj]
        rcases hp.entry j with a | ⟨p', a, b, d⟩
        · exact Or.inl a
        · right
          refine ⟨p', a, ?_, d⟩
          rw [hs p' ?_]
          · exact b
          · rintro rfl
            exact hj (hp.inj _ _ _ a hr)
    · intro j j' q hj hj'
      by_cases e1 : j = i
      · subst e1; rw [upd_same] at hj; cases hj
      by_cases e2 : j' = i
      · subst e2; rw [upd_same] at hj'; cases hj'
      rw [upd_ne _ _ e1] at hj
      rw [upd_ne _ _ e2] at hj'
      exact hp.inj j j' q hj hj'
  · rw [if_neg (by omega)]
    refine ⟨h, _, rfl, hok, ⟨fun j => ?_, ?_⟩, Or.inr ⟨by omega, rfl, rfl⟩⟩
    · by_cases hj : j = i
      · subst hj
        right
        rw [upd_same, upd_same]
        refine ⟨p, hr, hl, ?_, by omega⟩
        dsimp only
        congr 1
        omega
      · rw [upd_ne _ _ hj, upd_ne _ _ hj]
        exact hp.entry j
    · have same : ∀ j, (upd pool i { pool i with refcount := some ((c i : Int) - 1) } j).rs = (pool j).rs := by
        intro j
        by_cases hj : j = i
        · subst hj; rw [upd_same]
        · rw [upd_ne _ _ hj]
      intro j j' p hj hj'
      rw [same] at hj hj'
      exact hp.inj j j' p hj hj'

/-- The number of live spaces on a grid. -/
def Py.onGrid (s : Py) (g : Nat) : Nat := s.spaces.countP fun e => e.2.grid = g

/-- The number of live spaces with a family. -/
def Py.onFamily (s : Py) (f : Nat) : Nat := s.spaces.countP fun e => e.2.family = f

/-- The state of the wrappers; `cg` and `cf` are the reference counts. -/
structure PyInv (s : Py) (cg cf : Nat → Nat) : Prop where
  ok : s.heap.Ok
  grids : Pool .grid s.heap.live s.grids cg
  families : Pool .family s.heap.live s.families cf
  keys : (s.spaces.map Prod.fst).Nodup
  fresh : ∀ e ∈ s.spaces, e.1 < s.nextSpace
  ptrs : (s.spaces.map fun e => e.2.rsSpace).Nodup
  spaces : ∀ e ∈ s.spaces, ∃ p q, s.heap.live e.2.rsSpace = some (.space p q) ∧
    (s.grids e.2.grid).rs = some p ∧ (s.families e.2.family).rs = some q
  onGrid : ∀ g, s.onGrid g ≤ cg g
  onFamily : ∀ f, s.onFamily f ≤ cf f
  alive : ∀ p o, s.heap.live p = some o → (∃ g, (s.grids g).rs = some p) ∨ (∃ f, (s.families f).rs = some p) ∨
    ∃ e ∈ s.spaces, e.2.rsSpace = p

theorem PyInv.start : PyInv Py.start (fun _ => 0) (fun _ => 0) := by
  refine ⟨fun _ _ => rfl, ⟨fun i => Or.inl ⟨rfl, rfl⟩, ?_⟩, ⟨fun i => Or.inl ⟨rfl, rfl⟩, ?_⟩, by simp [Py.start],
    by simp [Py.start], by simp [Py.start], by simp [Py.start], by simp [Py.start, Py.onGrid],
    by simp [Py.start, Py.onFamily], by simp [Py.start]⟩
  · intro i j p h; cases h
  · intro i j p h; cases h

/-- A grid is acquired. -/
theorem PyInv.acquireGrid {s : Py} {cg cf : Nat → Nat} (h : PyInv s cg cf) {g : Nat} {ok : Bool} {h' : RustHeap}
    {a : Shared} (e : acquire .grid ok s.heap (s.grids g) = some (h', a)) :
    a.refcount = some (cg g : Int) ∧ (∃ p, a.rs = some p ∧ h'.live p = some .grid) ∧
    PyInv ({ s.setGrid g a with heap := h' }.setGrid g { a with refcount := some ((cg g : Int) + 1) })
      (upd cg g (cg g + 1)) cf := by
  obtain ⟨e1, e2, e3, e4, p, e5, e6, e7, e8⟩ := h.grids.acquire h.ok e
  have heq : ({ s.setGrid g a with heap := h' }.setGrid g { a with refcount := some ((cg g : Int) + 1) }) =
      { s with heap := h', grids := upd s.grids g { a with refcount := some ((cg g : Int) + 1) } } := by
    unfold Py.setGrid upd
    congr 1
    funext x
    dsimp only
    split <;> simp [*]
  rw [heq]
  refine ⟨e1, ⟨p, e5, e6⟩, e2, e3, h.families.mono fun q hq => e4 q _ hq, h.keys, h.fresh, h.ptrs, ?_, ?_, h.onFamily, ?_⟩
  · intro x hx
    obtain ⟨p', q', k1, k2, k3⟩ := h.spaces x hx
    refine ⟨p', q', e4 _ _ k1, ?_, k3⟩
    by_cases hg : x.2.grid = g
    · dsimp only
      rw [hg, upd_same]
      rw [hg] at k2
      rcases e7 with e7 | e7
      · rw [e7] at k2; cases k2
      · rw [e7] at k2
        rw [← k2]
        exact e5
    · dsimp only
      rw [upd_ne _ _ hg]
      exact k2
  · intro g'
    have := h.onGrid g'
    by_cases hg : g' = g
    · subst hg
      rw [upd_same]
      exact Nat.le_succ_of_le this
    · rw [upd_ne _ _ hg]
      exact this
  · intro q o hq
    dsimp only at hq ⊢
    rcases e8 q o hq with hq | ⟨-, rfl⟩
    · rcases h.alive q o hq with ⟨g', k⟩ | k | k
      · left
        by_cases hg : g' = g
        · subst hg
          refine ⟨g', ?_⟩
          rw [upd_same]
          rcases e7 with e7 | e7
          · rw [e7] at k; cases k
          · rw [e7] at k
            rw [← k]
            exact e5
        · exact ⟨g', by rw [upd_ne _ _ hg]; exact k⟩
      · exact Or.inr (Or.inl k)
      · exact Or.inr (Or.inr k)
    · left
      exact ⟨g, by rw [upd_same]; exact e5⟩

/-- A family is acquired. -/
theorem PyInv.acquireFamily {s : Py} {cg cf : Nat → Nat} (h : PyInv s cg cf) {g : Nat} {ok : Bool} {h' : RustHeap}
    {a : Shared} (e : acquire .family ok s.heap (s.families g) = some (h', a)) :
    a.refcount = some (cf g : Int) ∧ (∃ p, a.rs = some p ∧ h'.live p = some .family) ∧
    (∀ p o, s.heap.live p = some o → h'.live p = some o) ∧
    PyInv ({ s.setFamily g a with heap := h' }.setFamily g { a with refcount := some ((cf g : Int) + 1) })
      cg (upd cf g (cf g + 1)) := by
  obtain ⟨e1, e2, e3, e4, p, e5, e6, e7, e8⟩ := h.families.acquire h.ok e
  have heq : ({ s.setFamily g a with heap := h' }.setFamily g { a with refcount := some ((cf g : Int) + 1) }) =
      { s with heap := h', families := upd s.families g { a with refcount := some ((cf g : Int) + 1) } } := by
    unfold Py.setFamily upd
    congr 1
    funext x
    dsimp only
    split <;> simp [*]
  rw [heq]
  refine ⟨e1, ⟨p, e5, e6⟩, e4, e2, h.grids.mono fun q hq => e4 q _ hq, e3, h.keys, h.fresh, h.ptrs, ?_, h.onGrid, ?_, ?_⟩
  · intro x hx
    obtain ⟨p', q', k1, k2, k3⟩ := h.spaces x hx
    refine ⟨p', q', e4 _ _ k1, k2, ?_⟩
    by_cases hg : x.2.family = g
    · dsimp only
      rw [hg, upd_same]
      rw [hg] at k3
      rcases e7 with e7 | e7
      · rw [e7] at k3; cases k3
      · rw [e7] at k3
        rw [← k3]
        exact e5
    · dsimp only
      rw [upd_ne _ _ hg]
      exact k3
  · intro g'
    have := h.onFamily g'
    by_cases hg : g' = g
    · subst hg
      rw [upd_same]
      exact Nat.le_succ_of_le this
    · rw [upd_ne _ _ hg]
      exact this
  · intro q o hq
    dsimp only at hq ⊢
    rcases e8 q o hq with hq | ⟨-, rfl⟩
    · rcases h.alive q o hq with k | ⟨g', k⟩ | k
      · exact Or.inl k
      · right; left
        by_cases hg : g' = g
        · subst hg
          refine ⟨g', ?_⟩
          rw [upd_same]
          rcases e7 with e7 | e7
          · rw [e7] at k; cases k
          · rw [e7] at k
            rw [← k]
            exact e5
        · exact ⟨g', by rw [upd_ne _ _ hg]; exact k⟩
      · exact Or.inr (Or.inr k)
    · right; left
      exact ⟨g, by rw [upd_same]; exact e5⟩

/-- A space is added. -/
theorem PyInv.addSpace {s : Py} {cg cf : Nat → Nat} (h : PyInv s cg cf) {g f p q : Nat}
    (hp : (s.grids g).rs = some p) (hq : (s.families f).rs = some q) (hg : s.onGrid g + 1 ≤ cg g)
    (hf : s.onFamily f + 1 ≤ cf f) :
    PyInv { s with heap := (s.heap.alloc (.space p q)).1,
                   spaces := (s.nextSpace, ⟨(s.heap.alloc (.space p q)).2, g, f⟩) :: s.spaces,
                   nextSpace := s.nextSpace + 1 } cg cf := by
  obtain ⟨k1, k2, k3, k4⟩ := h.ok.alloc (.space p q)
  have mono : ∀ r o, s.heap.live r = some o → (s.heap.alloc (.space p q)).1.live r = some o := by
    intro r o hr
    rw [k4 r]
    · exact hr
    · rintro rfl
      rw [k3] at hr
      cases hr
  refine ⟨k1, h.grids.mono fun r hr => mono r _ hr, h.families.mono fun r hr => mono r _ hr, ?_, ?_, ?_, ?_, ?_, ?_, ?_⟩
  · simp only [List.map_cons, List.nodup_cons]
    refine ⟨?_, h.keys⟩
    intro hm
    obtain ⟨e, he, hk⟩ := List.mem_map.mp hm
    have := h.fresh e he
    omega
  · intro e he
    rcases List.mem_cons.mp he with rfl | he
    · exact Nat.lt_succ_self _
    · exact Nat.lt_succ_of_lt (h.fresh e he)
  · simp only [List.map_cons, List.nodup_cons]
    refine ⟨?_, h.ptrs⟩
    intro hm
    obtain ⟨e, he, hk⟩ := List.mem_map.mp hm
    obtain ⟨p', q', hl, -⟩ := h.spaces e he
    rw [hk, k3] at hl
    cases hl
  · intro e he
    rcases List.mem_cons.mp he with rfl | he
    · exact ⟨p, q, k2, hp, hq⟩
    · obtain ⟨p', q', hl, a, b⟩ := h.spaces e he
      exact ⟨p', q', mono _ _ hl, a, b⟩
  · intro g'
    have := h.onGrid g'
    unfold Py.onGrid at this hg ⊢
    dsimp only
    rw [List.countP_cons]
    dsimp only
    by_cases hgg : g = g'
    · subst hgg
      simpa using hg
    · simpa [hgg] using this
  · intro g'
    have := h.onFamily g'
    unfold Py.onFamily at this hf ⊢
    dsimp only
    rw [List.countP_cons]
    dsimp only
    by_cases hgg : f = g'
    · subst hgg
      simpa using hf
    · simpa [hgg] using this
  · intro r o hr
    dsimp only at hr ⊢
    by_cases hre : r = (s.heap.alloc (.space p q)).2
    · right; right
      exact ⟨_, List.mem_cons_self, hre.symm⟩
    · rw [k4 r hre] at hr
      rcases h.alive r o hr with k | k | ⟨e, he, k⟩
      · exact Or.inl k
      · exact Or.inr (Or.inl k)
      · exact Or.inr (Or.inr ⟨e, List.mem_cons_of_mem _ he, k⟩)

theorem get_mem {s : Map Nat PySpace} {k : Nat} {x : PySpace} (h : s.get? k = some x) : (k, x) ∈ s := by
  unfold Map.get? at h
  induction s with
  | nil => cases h
  | cons e s ih =>
    obtain ⟨a, b⟩ := e
    rw [List.lookup_cons] at h
    by_cases hk : k = a
    · subst hk
      simp only [beq_self_eq_true] at h
      cases h
      exact List.mem_cons_self
    · rw [show (k == a) = false by simpa using hk] at h
      exact List.mem_cons_of_mem _ (ih h)

theorem nodup_key_eq {α β : Type} {l : List (α × β)} (h : (l.map Prod.fst).Nodup) {e e' : α × β} (he : e ∈ l)
    (he' : e' ∈ l) (hk : e.1 = e'.1) : e = e' :=
  List.inj_on_of_nodup_map h he he' hk

/-- Removing an entry lowers the counts by one. -/
theorem countP_remove {l : List (Nat × PySpace)} (h : (l.map Prod.fst).Nodup) {k : Nat} {x : PySpace}
    (hx : (k, x) ∈ l) (P : Nat × PySpace → Bool) :
    (l.filter fun e => e.1 ≠ k).countP P + (if P (k, x) then 1 else 0) = l.countP P := by
  induction l with
  | nil => cases hx
  | cons e l ih =>
    simp only [List.map_cons, List.nodup_cons] at h
    rw [List.filter_cons, List.countP_cons]
    by_cases hk : e.1 = k
    · have : e = (k, x) := by
        rcases List.mem_cons.mp hx with h' | h'
        · exact h'.symm
        · exact absurd (List.mem_map.mpr ⟨_, h', hk.symm⟩) h.1
      subst this
      have hf : (l.filter fun e => decide (e.1 ≠ k)) = l := by
        rw [List.filter_eq_self]
        intro e he
        simp only [ne_eq, decide_not, Bool.not_eq_eq_eq_not, Bool.not_true, decide_eq_false_iff_not]
        intro hk
        exact h.1 (List.mem_map.mpr ⟨e, he, hk⟩)
      rw [hf]
      simp
    · have hx' : (k, x) ∈ l := by
        rcases List.mem_cons.mp hx with h' | h'
        · exact absurd (by rw [← h']) hk
        · exact h'
      have := ih h.2 hx'
      rw [if_pos (by simpa using hk), List.countP_cons]
      omega

/-- A space goes away. -/
theorem PyInv.removeSpace {s : Py} {cg cf : Nat → Nat} (h : PyInv s cg cf) {k : Nat} {x : PySpace}
    (hx : (k, x) ∈ s.spaces) : ∃ h', s.heap.free x.rsSpace = some h' ∧
    PyInv { s with spaces := s.spaces.filter (fun e => e.1 ≠ k), heap := h' } cg cf ∧
    (∀ g, Py.onGrid { s with spaces := s.spaces.filter (fun e => e.1 ≠ k), heap := h' } g +
      (if x.grid = g then 1 else 0) = s.onGrid g) ∧
    (∀ f, Py.onFamily { s with spaces := s.spaces.filter (fun e => e.1 ≠ k), heap := h' } f +
      (if x.family = f then 1 else 0) = s.onFamily f) := by
  obtain ⟨p, q, hl, hg, hf⟩ := h.spaces _ hx
  obtain ⟨h', e, ok', hn, hs⟩ := h.ok.free hl
  dsimp only at hl hn hs
  have cG : ∀ g, (s.spaces.filter fun e => e.1 ≠ k).countP (fun e => e.2.grid = g) + (if x.grid = g then 1 else 0) =
      s.spaces.countP (fun e => e.2.grid = g) := by
    intro g
    have := countP_remove h.keys hx (fun e => e.2.grid = g)
    simpa using this
  have cF : ∀ g, (s.spaces.filter fun e => e.1 ≠ k).countP (fun e => e.2.family = g) +
      (if x.family = g then 1 else 0) = s.spaces.countP (fun e => e.2.family = g) := by
    intro g
    have := countP_remove h.keys hx (fun e => e.2.family = g)
    simpa using this
  have ne : ∀ r o, s.heap.live r = some o → (∀ p q, o ≠ .space p q) → h'.live r = some o := by
    intro r o hr ho
    rw [hs r]
    · exact hr
    · rintro rfl
      rw [hl] at hr
      exact ho p q (Option.some.inj hr).symm
  refine ⟨h', e, ⟨ok', h.grids.mono fun r hr => ne r _ hr (by simp), h.families.mono fun r hr => ne r _ hr (by simp),
    ?_, ?_, ?_, ?_, ?_, ?_, ?_⟩, cG, cF⟩
  · exact (List.filter_sublist.map _).nodup h.keys
  · intro e he
    exact h.fresh e (List.mem_filter.mp he).1
  · exact (List.filter_sublist.map _).nodup h.ptrs
  · intro e he
    obtain ⟨he, hk⟩ := List.mem_filter.mp he
    obtain ⟨p', q', hl', a, b⟩ := h.spaces e he
    refine ⟨p', q', ?_, a, b⟩
    dsimp only
    rw [hs _ ?_]
    · exact hl'
    · intro hr
      have : e = (k, x) := List.inj_on_of_nodup_map h.ptrs he hx hr
      rw [this] at hk
      simp at hk
  · intro g
    have := h.onGrid g
    have c := cG g
    unfold Py.onGrid at *
    dsimp only at *
    split at c <;> omega
  · intro g
    have := h.onFamily g
    have c := cF g
    unfold Py.onFamily at *
    dsimp only at *
    split at c <;> omega
  · intro r o hr
    dsimp only at hr ⊢
    have hne : r ≠ x.rsSpace := by
      rintro rfl
      rw [hn] at hr
      cases hr
    rw [hs r hne] at hr
    rcases h.alive r o hr with k' | k' | ⟨e, he, k'⟩
    · exact Or.inl k'
    · exact Or.inr (Or.inl k')
    · right; right
      refine ⟨e, List.mem_filter.mpr ⟨he, ?_⟩, k'⟩
      simp only [ne_eq, decide_not, Bool.not_eq_eq_eq_not, Bool.not_true, decide_eq_false_iff_not]
      intro hk
      have : e = (k, x) := nodup_key_eq h.keys he hx hk
      rw [this] at k'
      exact hne k'.symm

/-- A family is given back. -/
theorem PyInv.releaseFamily {s : Py} {cg cf : Nat → Nat} (h : PyInv s cg cf) {f : Nat} {keep : Bool}
    (hf : s.onFamily f + 1 ≤ cf f) : ∃ h' b, release keep s.heap (s.families f) = .done h' b ∧
    PyInv { s.setFamily f b with heap := h' } cg (upd cf f (cf f - 1)) := by
  obtain ⟨h', b, e, ok', hp, hcase⟩ := h.families.release (keep := keep) h.ok (by omega : 0 < cf f)
  have none_on : cf f = 1 → ∀ e ∈ s.spaces, e.2.family ≠ f := by
    intro h1 e he heq
    have : 0 < s.onFamily f := List.countP_pos_iff.mpr ⟨e, he, by simpa using heq⟩
    omega
  refine ⟨h', b, e, ok', ?_, hp, h.keys, h.fresh, h.ptrs, ?_, h.onGrid, ?_, ?_⟩
  · rcases hcase with ⟨-, -, p, -, hl, -, hs⟩ | ⟨-, rfl, -⟩
    · refine h.grids.mono fun r hr => ?_
      dsimp only
      rw [hs r]
      · exact hr
      · rintro rfl
        rw [hl] at hr
        cases hr
    · exact h.grids
  · intro x hx
    obtain ⟨p', q', hl', a, c⟩ := h.spaces x hx
    rcases hcase with ⟨h1, -, p, hr, hl, -, hs⟩ | ⟨-, rfl, hb⟩
    · refine ⟨p', q', ?_, a, ?_⟩
      · dsimp only
        rw [hs]
        · exact hl'
        · intro hr
          rw [hr, hl] at hl'
          cases hl'
      · simp only [Py.setFamily]
        rw [if_neg (none_on h1 x hx)]
        exact c
    · refine ⟨p', q', hl', a, ?_⟩
      simp only [Py.setFamily]
      split
      · rename_i heq
        rw [hb, ← heq]
        exact c
      · exact c
  · intro f'
    have := h.onFamily f'
    unfold upd
    split
    · rename_i heq
      subst heq
      exact Nat.le_sub_of_add_le hf
    · exact this
  · intro r o hr
    dsimp only at hr
    rcases hcase with ⟨h1, -, p, hrs, hl, hn, hs⟩ | ⟨-, rfl, hb⟩
    · have hne : r ≠ p := by
        rintro rfl
        rw [hn] at hr
        cases hr
      rw [hs r hne] at hr
      rcases h.alive r o hr with k' | ⟨f', k'⟩ | k'
      · exact Or.inl k'
      · right; left
        refine ⟨f', ?_⟩
        simp only [Py.setFamily]
        rw [if_neg]
        · exact k'
        · rintro rfl
          rw [hrs] at k'
          exact hne (Option.some.inj k').symm
      · exact Or.inr (Or.inr k')
    · rcases h.alive r o hr with k' | ⟨f', k'⟩ | k'
      · exact Or.inl k'
      · right; left
        refine ⟨f', ?_⟩
        simp only [Py.setFamily]
        split
        · rename_i heq
          rw [hb, ← heq]
          exact k'
        · exact k'
      · exact Or.inr (Or.inr k')

/-- A grid is given back. -/
theorem PyInv.releaseGrid {s : Py} {cg cf : Nat → Nat} (h : PyInv s cg cf) {f : Nat} {keep : Bool}
    (hf : s.onGrid f + 1 ≤ cg f) : ∃ h' b, release keep s.heap (s.grids f) = .done h' b ∧
    PyInv { s.setGrid f b with heap := h' } (upd cg f (cg f - 1)) cf := by
  obtain ⟨h', b, e, ok', hp, hcase⟩ := h.grids.release (keep := keep) h.ok (by omega : 0 < cg f)
  have none_on : cg f = 1 → ∀ e ∈ s.spaces, e.2.grid ≠ f := by
    intro h1 e he heq
    have : 0 < s.onGrid f := List.countP_pos_iff.mpr ⟨e, he, by simpa using heq⟩
    omega
  refine ⟨h', b, e, ok', hp, ?_, h.keys, h.fresh, h.ptrs, ?_, ?_, h.onFamily, ?_⟩
  · rcases hcase with ⟨-, -, p, -, hl, -, hs⟩ | ⟨-, rfl, -⟩
    · refine h.families.mono fun r hr => ?_
      dsimp only
      rw [hs r]
      · exact hr
      · rintro rfl
        rw [hl] at hr
        cases hr
    · exact h.families
  · intro x hx
    obtain ⟨p', q', hl', a, c⟩ := h.spaces x hx
    rcases hcase with ⟨h1, -, p, hr, hl, -, hs⟩ | ⟨-, rfl, hb⟩
    · refine ⟨p', q', ?_, ?_, c⟩
      · dsimp only
        rw [hs]
        · exact hl'
        · intro hr
          rw [hr, hl] at hl'
          cases hl'
      · simp only [Py.setGrid]
        rw [if_neg (none_on h1 x hx)]
        exact a
    · refine ⟨p', q', hl', ?_, c⟩
      simp only [Py.setGrid]
      split
      · rename_i heq
        rw [hb, ← heq]
        exact a
      · exact a
  · intro f'
    have := h.onGrid f'
    unfold upd
    split
    · rename_i heq
      subst heq
      exact Nat.le_sub_of_add_le hf
    · exact this
  · intro r o hr
    dsimp only at hr
    rcases hcase with ⟨h1, -, p, hrs, hl, hn, hs⟩ | ⟨-, rfl, hb⟩
    · have hne : r ≠ p := by
        rintro rfl
        rw [hn] at hr
        cases hr
      rw [hs r hne] at hr
      rcases h.alive r o hr with ⟨f', k'⟩ | k' | k'
      · left
        refine ⟨f', ?_⟩
        simp only [Py.setGrid]
        rw [if_neg]
        · exact k'
        · rintro rfl
          rw [hrs] at k'
          exact hne (Option.some.inj k').symm
      · exact Or.inr (Or.inl k')
      · exact Or.inr (Or.inr k')
    · rcases h.alive r o hr with ⟨f', k'⟩ | k' | k'
      · left
        refine ⟨f', ?_⟩
        simp only [Py.setGrid]
        split
        · rename_i heq
          rw [hb, ← heq]
          exact k'
        · exact k'
      · exact Or.inr (Or.inl k')
      · exact Or.inr (Or.inr k')

/-- What is known after some calls: the counts of families are exact; those of grids are too large by `leak`. -/
structure PyGood (s : Py) (leak : Nat → Nat) : Prop where
  inv : ∃ cg cf, PyInv s cg cf ∧ (∀ f, cf f = s.onFamily f) ∧ ∀ g, cg g = s.onGrid g + leak g

/-- When a Rust object can be had. -/
theorem acquire_some {k : RustObj} {ok : Bool} {h h' : RustHeap} {a b : Shared} (e : acquire k ok h a = some (h', b)) :
    ok = true ∨ a.rs ≠ none := by
  unfold acquire at e
  cases hr : a.rs with
  | some r => exact Or.inr (by simp)
  | none =>
    rw [hr] at e
    cases ok with
    | true => exact Or.inl rfl
    | false => simp at e

/-- Creating a space. -/
theorem create_good {s : Py} {leak : Nat → Nat} (h : PyGood s leak) (g f : Nat) (gridOk familyOk : Bool) :
    (∃ s' r, functionSpaceCall g f gridOk familyOk s = .done s' ∧ PyGood s' leak ∧
      s'.spaces = (s.nextSpace, ⟨r, g, f⟩) :: s.spaces ∧ s.heap.live r = none ∧ s'.nextSpace = s.nextSpace + 1 ∧
      (gridOk = true ∨ (s.grids g).rs ≠ none) ∧ (familyOk = true ∨ (s.families f).rs ≠ none)) ∨
    (functionSpaceCall g f gridOk familyOk s = .raised s ∧ gridOk = false ∧ (s.grids g).rs = none) ∨
    ∃ s', functionSpaceCall g f gridOk familyOk s = .raised s' ∧ familyOk = false ∧ s'.spaces = s.spaces ∧
      PyGood s' (upd leak g (leak g + 1)) ∧ s'.nextSpace = s.nextSpace ∧ (gridOk = true ∨ (s.grids g).rs ≠ none) ∧
      (s.families f).rs = none := by
  obtain ⟨cg, cf, inv, hcf, hcg⟩ := h.inv
  unfold functionSpaceCall
  cases eg : acquire .grid gridOk s.heap (s.grids g) with
  | none =>
    right
    left
    unfold acquire at eg
    cases hgr : (s.grids g).rs with
    | some r => rw [hgr] at eg; cases eg
    | none =>
      rw [hgr] at eg
      cases gridOk with
      | true => simp at eg
      | false => exact ⟨rfl, rfl, rfl⟩
  | some r =>
    obtain ⟨h1, a⟩ := r
    obtain ⟨ra, ⟨p, hp, hpl⟩, inv1⟩ := inv.acquireGrid eg
    dsimp only
    rw [ra]
    dsimp only
    set s1 := { s.setGrid g a with heap := h1 }.setGrid g { a with refcount := some ((cg g : Int) + 1) } with hs1
    have gon : s1.onGrid g + 1 ≤ upd cg g (cg g + 1) g := by
      rw [upd_same]
      exact Nat.succ_le_succ (inv.onGrid g)
    have grs : (s1.grids g).rs = some p := by
      simp only [hs1, Py.setGrid, ite_true]
      exact hp
    cases ef : acquire .family familyOk s1.heap (s1.families f) with
    | none =>
      right
      right
      refine ⟨s1, rfl, ?_, rfl, ⟨_, cf, inv1, hcf, ?_⟩, rfl, acquire_some eg, ?_⟩
      · unfold acquire at ef
        cases hfam : (s1.families f).rs with
        | some r => rw [hfam] at ef; cases ef
        | none =>
          rw [hfam] at ef
          cases familyOk with
          | true => simp at ef
          | false => rfl
      · intro g'
        have := hcg g'
        unfold upd
        show _ = s.onGrid g' + _
        by_cases hgg : g' = g
        · subst hgg
          simp only [if_true]
          omega
        · simp only [if_neg hgg]
          exact this
      · unfold acquire at ef
        cases hfam : (s1.families f).rs with
        | some r => rw [hfam] at ef; cases ef
        | none => exact hfam
    | some r =>
      obtain ⟨h2, b⟩ := r
      obtain ⟨rb, ⟨q, hq, hql⟩, mono, inv2⟩ := inv1.acquireFamily ef
      left
      dsimp only
      rw [rb]
      dsimp only
      set s2 := { s1.setFamily f b with heap := h2 }.setFamily f { b with refcount := some ((cf f : Int) + 1) } with hs2
      rw [hp, hq]
      dsimp only
      have l1 : s2.heap.live p = some .grid := mono p _ hpl
      have l2 : s2.heap.live q = some .family := hql
      rw [l1, l2]
      dsimp only
      have frs : (s2.families f).rs = some q := by
        simp only [hs2, Py.setFamily, ite_true]
        exact hq
      have fon : s2.onFamily f + 1 ≤ upd cf f (cf f + 1) f := by
        rw [upd_same]
        exact Nat.succ_le_succ (inv.onFamily f)
      refine ⟨_, _, rfl, ⟨_, _, inv2.addSpace grs frs gon fon, ?_, ?_⟩, rfl, ?_, rfl, acquire_some eg, acquire_some ef⟩
      · intro f'
        unfold Py.onFamily
        dsimp only
        rw [List.countP_cons]
        have := hcf f'
        unfold Py.onFamily at this
        unfold upd
        by_cases hf : f' = f
        · subst hf
          simp only [if_true, decide_true]
          rw [this]
          rfl
        · rw [if_neg hf, this, if_neg (by simpa using fun h => hf h.symm)]
          rfl
      · intro g'
        unfold Py.onGrid
        dsimp only
        rw [List.countP_cons]
        have := hcg g'
        unfold Py.onGrid at this
        unfold upd
        by_cases hf : g' = g
        · subst hf
          simp only [if_true, decide_true]
          rw [this]
          show _ + _ + 1 = s.spaces.countP _ + 1 + _
          omega
        · rw [if_neg hf, this, if_neg (by simpa using fun h => hf h.symm)]
          rfl
      · cases hl : s.heap.live (s2.heap.alloc (.space p q)).2 with
        | none => rfl
        | some o =>
          have h1l : h1.live (s2.heap.alloc (.space p q)).2 = some o :=
            (inv.grids.acquire inv.ok eg).2.2.2.1 _ _ hl
          have h2l := mono _ _ h1l
          have := (inv2.ok.alloc (.space p q)).2.2.1
          rw [show s2.heap.live (s2.heap.alloc (.space p q)).2 = some o from h2l] at this
          cases this

/-- Deleting a space. -/
theorem delete_good {s : Py} {leak : Nat → Nat} (h : PyGood s leak) (k : Nat) :
    ∃ s', deleteSpaceCall k s = .done s' ∧ PyGood s' leak ∧
      s'.spaces = s.spaces.filter (fun e => e.1 ≠ k) ∧ s'.nextSpace = s.nextSpace := by
  obtain ⟨cg, cf, inv, hcf, hcg⟩ := h.inv
  unfold deleteSpaceCall
  cases hk : s.spaces.get? k with
  | none =>
    refine ⟨s, rfl, ⟨cg, cf, inv, hcf, hcg⟩, ?_, rfl⟩
    symm
    rw [List.filter_eq_self]
    intro e he
    simp only [ne_eq, decide_not, Bool.not_eq_eq_eq_not, Bool.not_true, decide_eq_false_iff_not]
    intro hek
    unfold Map.get? at hk
    rw [List.lookup_eq_none_iff] at hk
    have := hk e he
    simp [hek] at this
  | some x =>
    have hx := get_mem hk
    obtain ⟨h1, e1, inv1, oG, oF⟩ := inv.removeSpace hx
    dsimp only
    rw [e1]
    dsimp only
    set s1 : Py := { s with spaces := s.spaces.filter (fun e => e.1 ≠ k), heap := h1 } with hs1
    have fF : s1.onFamily x.family + 1 = s.onFamily x.family := by simpa using oF x.family
    have fG : s1.onGrid x.grid + 1 = s.onGrid x.grid := by simpa using oG x.grid
    obtain ⟨h2, b, e2, inv2⟩ := inv1.releaseFamily (f := x.family) (keep := false)
      (by rw [fF]; exact inv.onFamily _)
    rw [show release false h1 (s.families x.family) = .done h2 b from e2]
    dsimp only
    set s2 : Py := { s1.setFamily x.family b with heap := h2 } with hs2
    have fG2 : s2.onGrid x.grid + 1 = s.onGrid x.grid := fG
    obtain ⟨h3, a, e3, inv3⟩ := inv2.releaseGrid (f := x.grid) (keep := true)
      (by rw [fG2]; exact inv.onGrid _)
    rw [show release true h2 (s2.grids x.grid) = .done h3 a from e3]
    refine ⟨_, rfl, ⟨_, _, inv3, ?_, ?_⟩, rfl, rfl⟩
    · intro f'
      show _ = s1.onFamily f'
      have o := oF f'
      have := hcf f'
      unfold upd
      by_cases hf : f' = x.family
      · subst hf
        rw [if_pos rfl]
        omega
      · rw [if_neg hf]
        rw [if_neg (fun h => hf h.symm)] at o
        omega
    · intro g'
      show _ = s1.onGrid g' + _
      have o := oG g'
      have := hcg g'
      unfold upd
      by_cases hf : g' = x.grid
      · subst hf
        rw [if_pos rfl]
        omega
      · rw [if_neg hf]
        rw [if_neg (fun h => hf h.symm)] at o
        omega

/-- Using a space. -/
theorem use_good {s : Py} {leak : Nat → Nat} (h : PyGood s leak) (k : Nat) : useSpaceCall k s = .done s := by
  obtain ⟨cg, cf, inv, hcf, hcg⟩ := h.inv
  unfold useSpaceCall
  cases hk : s.spaces.get? k with
  | none => rfl
  | some x =>
    obtain ⟨p, q, e1, e2, e3⟩ := inv.spaces _ (get_mem hk)
    dsimp only at e1 ⊢
    rw [e1]
    dsimp only
    rcases inv.grids.entry x.grid with ⟨h1, -⟩ | ⟨p', h1, h2, -⟩
    · rw [h1] at e2; cases e2
    rcases inv.families.entry x.family with ⟨h3, -⟩ | ⟨q', h3, h4, -⟩
    · rw [h3] at e3; cases e3
    rw [h1] at e2
    rw [h3] at e3
    cases e2
    cases e3
    rw [h2, h4]

/-- The family conversion of a call succeeds if it is made. -/
def PyCall.familyFine : PyCall → Prop
  | .create _ _ _ familyOk => familyOk = true
  | _ => True

theorem call_good {s : Py} {leak : Nat → Nat} (h : PyGood s leak) (c : PyCall) :
    ∃ s' leak', (c.run s = .done s' ∨ c.run s = .raised s') ∧ PyGood s' leak' ∧ (∀ g, leak g ≤ leak' g) ∧
      (c.familyFine → leak' = leak) := by
  cases c with
  | create g f gridOk familyOk =>
    rcases create_good h g f gridOk familyOk with ⟨s', r, e, hs, -⟩ | ⟨e, -⟩ | ⟨s', e, hf, -, hs, -⟩
    · exact ⟨s', leak, Or.inl e, hs, fun _ => Nat.le_refl _, fun _ => rfl⟩
    · exact ⟨s, leak, Or.inr e, h, fun _ => Nat.le_refl _, fun _ => rfl⟩
    · refine ⟨s', _, Or.inr e, hs, ?_, ?_⟩
      · intro g'
        unfold upd
        split
        · rename_i hg
          subst hg
          omega
        · exact Nat.le_refl _
      · intro hff
        change familyOk = true at hff
        rw [hf] at hff
        cases hff
  | delete k =>
    obtain ⟨s', e, hs, -⟩ := delete_good h k
    exact ⟨s', leak, Or.inl e, hs, fun _ => Nat.le_refl _, fun _ => rfl⟩
  | use k => exact ⟨s, leak, Or.inl (use_good h k), h, fun _ => Nat.le_refl _, fun _ => rfl⟩

theorem runPy_good : ∀ (calls : List PyCall) {s : Py} {leak : Nat → Nat}, PyGood s leak →
    ∃ s' leak', runPy s calls = some s' ∧ PyGood s' leak' ∧ (∀ g, leak g ≤ leak' g) ∧
      ((∀ c ∈ calls, c.familyFine) → leak' = leak)
  | [], s, leak, h => ⟨s, leak, rfl, h, fun _ => Nat.le_refl _, fun _ => rfl⟩
  | c :: calls, s, leak, h => by
    unfold runPy
    obtain ⟨s1, l1, e, h1, m1, f1⟩ := call_good h c
    obtain ⟨s2, l2, e2, h2, m2, f2⟩ := runPy_good calls h1
    refine ⟨s2, l2, ?_, h2, fun g => Nat.le_trans (m1 g) (m2 g), fun hf => ?_⟩
    · rcases e with e | e <;> rw [e] <;> exact e2
    · rw [f2 fun c' hc' => hf c' (List.mem_cons_of_mem _ hc'), f1 (hf c List.mem_cons_self)]

theorem PyGood.start : PyGood Py.start fun _ => 0 :=
  ⟨_, _, PyInv.start, fun _ => rfl, fun _ => rfl⟩

/-- A leaked grid exists. -/
theorem PyGood.leaked {s : Py} {leak : Nat → Nat} (h : PyGood s leak) {g : Nat} (hg : 0 < leak g) :
    ∃ p, (s.grids g).rs = some p ∧ s.heap.live p = some .grid := by
  obtain ⟨cg, cf, inv, hcf, hcg⟩ := h.inv
  rcases inv.grids.entry g with ⟨-, h1⟩ | ⟨p, h1, h2, -⟩
  · rw [hcg g] at h1
    omega
  · exact ⟨p, h1, h2⟩

/-- With no spaces left nothing is alive if the counts are exact. -/
theorem PyGood.empty {s : Py} (h : PyGood s fun _ => 0) (he : s.spaces = []) : ∀ p, s.heap.live p = none := by
  obtain ⟨cg, cf, inv, hcf, hcg⟩ := h.inv
  intro p
  by_contra hn
  obtain ⟨o, ho⟩ := Option.ne_none_iff_exists'.mp hn
  rcases inv.alive p o ho with ⟨g, k⟩ | ⟨f, k⟩ | ⟨e, hm, -⟩
  · rcases inv.grids.entry g with ⟨h1, -⟩ | ⟨p', -, -, -, hpos⟩
    · rw [h1] at k; cases k
    · rw [hcg g, Nat.add_zero] at hpos
      simp [Py.onGrid, he] at hpos
  · rcases inv.families.entry f with ⟨h1, -⟩ | ⟨p', -, -, -, hpos⟩
    · rw [h1] at k; cases k
    · rw [hcf f] at hpos
      simp [Py.onFamily, he] at hpos
  · rw [he] at hm; cases hm

/-- Every allocation belongs to a live space, its grid or its family if the counts are exact. -/
theorem PyGood.owned {s : Py} (h : PyGood s fun _ => 0) {p : Nat} {o : RustObj} (ho : s.heap.live p = some o) :
    ∃ e ∈ s.spaces, ∃ q r, s.heap.live e.2.rsSpace = some (.space q r) ∧ (p = e.2.rsSpace ∨ p = q ∨ p = r) := by
  obtain ⟨cg, cf, inv, hcf, hcg⟩ := h.inv
  rcases inv.alive p o ho with ⟨g, k⟩ | ⟨f, k⟩ | ⟨e, hm, hp⟩
  · rcases inv.grids.entry g with ⟨h1, -⟩ | ⟨p', h1, -, -, hpos⟩
    · rw [h1] at k; cases k
    · rw [hcg g, Nat.add_zero] at hpos
      obtain ⟨e, he, hg⟩ := List.countP_pos_iff.mp hpos
      obtain ⟨q, r, a, b, c⟩ := inv.spaces e he
      simp only [decide_eq_true_eq] at hg
      rw [hg, k] at b
      exact ⟨e, he, q, r, a, Or.inr (Or.inl (Option.some.inj b))⟩
  · rcases inv.families.entry f with ⟨h1, -⟩ | ⟨p', h1, -, -, hpos⟩
    · rw [h1] at k; cases k
    · rw [hcf f] at hpos
      obtain ⟨e, he, hg⟩ := List.countP_pos_iff.mp hpos
      obtain ⟨q, r, a, b, c⟩ := inv.spaces e he
      simp only [decide_eq_true_eq] at hg
      rw [hg, k] at c
      exact ⟨e, he, q, r, a, Or.inr (Or.inr (Option.some.inj c))⟩
  · obtain ⟨q, r, a, -⟩ := inv.spaces e hm
    exact ⟨e, hm, q, r, a, Or.inl hp.symm⟩

end Bempp
