import Verif.Spec.Ledger
import Verif.Props.Python
/-
C66: exactly which Rust objects exist.
-/
set_option linter.unusedVariables false

namespace Bempp

/-- The wrappers' state is what the ledger says. -/
structure Booked (s : Py) (l : Ledger) : Prop where
  good : PyGood s fun g => l.failed.count g
  spaces : s.spaces.map (fun e => (e.1, e.2.grid, e.2.family)) = l.spaces
  next : s.nextSpace = l.next

theorem Booked.onGrid {s : Py} {l : Ledger} (h : Booked s l) (g : Nat) :
    0 < s.onGrid g ↔ ∃ e ∈ l.spaces, e.2.1 = g := by
  rw [← h.spaces]
  unfold Py.onGrid
  rw [List.countP_pos_iff]
  simp

theorem Booked.onFamily {s : Py} {l : Ledger} (h : Booked s l) (f : Nat) :
    0 < s.onFamily f ↔ ∃ e ∈ l.spaces, e.2.2 = f := by
  rw [← h.spaces]
  unfold Py.onFamily
  rw [List.countP_pos_iff]
  simp

theorem Booked.hasGrid {s : Py} {l : Ledger} (h : Booked s l) (g : Nat) : (s.grids g).rs ≠ none ↔ l.hasGrid g := by
  obtain ⟨cg, cf, inv, hcf, hcg⟩ := h.good.inv
  have h1 := h.onGrid g
  have h2 : 0 < l.failed.count g ↔ g ∈ l.failed := List.count_pos_iff
  unfold Ledger.hasGrid
  rw [← h1, ← h2]
  rcases inv.grids.entry g with ⟨e, c⟩ | ⟨p, e, -, -, c⟩
  · rw [hcg] at c
    rw [e]
    simp only [ne_eq, not_true_eq_false, false_iff]
    omega
  · rw [hcg] at c
    rw [e]
    simp only [ne_eq, reduceCtorEq, not_false_eq_true, true_iff]
    omega

theorem Booked.hasFamily {s : Py} {l : Ledger} (h : Booked s l) (f : Nat) :
    (s.families f).rs ≠ none ↔ l.hasFamily f := by
  obtain ⟨cg, cf, inv, hcf, hcg⟩ := h.good.inv
  unfold Ledger.hasFamily
  rw [← h.onFamily f]
  rcases inv.families.entry f with ⟨e, c⟩ | ⟨p, e, -, -, c⟩
  · rw [hcf] at c
    rw [e]
    simp only [ne_eq, not_true_eq_false, false_iff]
    omega
  · rw [hcf] at c
    rw [e]
    simp only [ne_eq, reduceCtorEq, not_false_eq_true, true_iff]
    exact c

theorem Booked.call {s : Py} {l : Ledger} (h : Booked s l) (c : PyCall) :
    ∃ s', c.run s = (if (l.call c).2 then .raised s' else .done s') ∧ Booked s' (l.call c).1 := by
  cases c with
  | create g f gridOk familyOk =>
    have hg := h.hasGrid g
    have hf := h.hasFamily f
    rcases create_good h.good g f gridOk familyOk with ⟨s', r, e, hs, e1, -, e2, e3, e4⟩ | ⟨e, e1, e2⟩ |
        ⟨s', e, e1, e2, hs, e3, e4, e5⟩
    · have hc : l.call (.create g f gridOk familyOk) =
          ({ l with spaces := (l.next, g, f) :: l.spaces, next := l.next + 1 }, false) := by
        simp only [Ledger.call]
        rw [if_neg (by rw [← hg]; tauto), if_neg (by rw [← hf]; tauto)]
      rw [hc]
      refine ⟨s', e, hs, ?_, ?_⟩
      · rw [e1, List.map_cons, h.spaces, h.next]
      · rw [e2, h.next]
    · have hc : l.call (.create g f gridOk familyOk) = (l, true) := by
        simp only [Ledger.call]
        rw [if_pos (by rw [← hg, e1, e2]; simp)]
      rw [hc]
      exact ⟨s, e, h⟩
    · have hc : l.call (.create g f gridOk familyOk) = ({ l with failed := g :: l.failed }, true) := by
        simp only [Ledger.call]
        rw [if_neg (by rw [← hg]; tauto), if_pos (by rw [← hf, e1, e5]; simp)]
      rw [hc]
      refine ⟨s', e, ?_, ?_, ?_⟩
      · convert hs using 1
        funext x
        unfold upd
        rw [List.count_cons]
        by_cases hx : x = g
        · subst hx; simp
        · simp [hx, Ne.symm hx]
      · rw [e2, h.spaces]
      · rw [e3, h.next]
  | delete k =>
    obtain ⟨s', e, hs, e1, e2⟩ := delete_good h.good k
    refine ⟨s', e, hs, ?_, ?_⟩
    · rw [e1]
      simp only [Ledger.call]
      rw [← h.spaces, List.filter_map]
      rfl
    · rw [e2, h.next]
      rfl
  | use k => exact ⟨s, use_good h.good k, h⟩

theorem Booked.run : ∀ (calls : List PyCall) {s : Py} {l : Ledger}, Booked s l →
    ∃ s', runPy s calls = some s' ∧ Booked s' (l.run calls)
  | [], s, l, h => ⟨s, rfl, h⟩
  | c :: calls, s, l, h => by
    obtain ⟨s1, e1, h1⟩ := h.call c
    obtain ⟨s2, e2, h2⟩ := Booked.run calls h1
    refine ⟨s2, ?_, h2⟩
    unfold runPy
    rw [e1]
    by_cases hc : (l.call c).2 = true
    · rw [if_pos hc]
      exact e2
    · rw [if_neg hc]
      exact e2

theorem Booked.start : Booked Py.start Ledger.start := ⟨PyGood.start, rfl, rfl⟩

/-- **C66.** After any history of creations, deletions and uses of spaces, in which any conversion may
fail, the Rust objects that exist are exactly
* one space for each live space, and these are different;
* one grid for each grid that has a live space or for which some call raised in the conversion of its family;
* one family for each family that has a live space.
So a grid stays for ever exactly if a call with it raised in the conversion of its family. Which calls raise is also
what the ledger says. -/
theorem C66_what_exists (calls : List PyCall) : ∃ s, runPy Py.start calls = some s ∧
    s.spaces.map (fun e => (e.1, e.2.grid, e.2.family)) = (Ledger.start.run calls).spaces ∧
    (s.spaces.map fun e => e.2.rsSpace).Nodup ∧
    (∀ g, (∃ p, (s.grids g).rs = some p ∧ s.heap.live p = some .grid) ↔ (Ledger.start.run calls).hasGrid g) ∧
    (∀ f, (∃ p, (s.families f).rs = some p ∧ s.heap.live p = some .family) ↔ (Ledger.start.run calls).hasFamily f) ∧
    (∀ p, s.heap.live p = some .grid ↔ ∃ g, (s.grids g).rs = some p) ∧
    (∀ p, s.heap.live p = some .family ↔ ∃ f, (s.families f).rs = some p) ∧
    (∀ p, (∃ q r, s.heap.live p = some (.space q r)) ↔ ∃ e ∈ s.spaces, e.2.rsSpace = p) ∧
    (∀ g g' p, (s.grids g).rs = some p → (s.grids g').rs = some p → g = g') ∧
    (∀ f f' p, (s.families f).rs = some p → (s.families f').rs = some p → f = f') ∧
    ∀ c, (∃ s', c.run s = .raised s') ↔ ((Ledger.start.run calls).call c).2 = true := by
  obtain ⟨s, e, h⟩ := Booked.run calls Booked.start
  obtain ⟨cg, cf, inv, hcf, hcg⟩ := h.good.inv
  have gr : ∀ g p, (s.grids g).rs = some p → s.heap.live p = some .grid := by
    intro g p hp
    rcases inv.grids.entry g with ⟨h1, -⟩ | ⟨q, h1, h2, -⟩
    · rw [h1] at hp; cases hp
    · rw [h1] at hp; cases hp; exact h2
  have fr : ∀ f p, (s.families f).rs = some p → s.heap.live p = some .family := by
    intro g p hp
    rcases inv.families.entry g with ⟨h1, -⟩ | ⟨q, h1, h2, -⟩
    · rw [h1] at hp; cases hp
    · rw [h1] at hp; cases hp; exact h2
  have sr : ∀ e ∈ s.spaces, ∃ q r, s.heap.live e.2.rsSpace = some (.space q r) := fun e he => by
    obtain ⟨q, r, h1, -⟩ := inv.spaces e he
    exact ⟨q, r, h1⟩
  refine ⟨s, e, h.spaces, inv.ptrs, fun g => ?_, fun f => ?_, fun p => ⟨fun hp => ?_, fun ⟨g, hg⟩ => gr g p hg⟩,
    fun p => ⟨fun hp => ?_, fun ⟨g, hg⟩ => fr g p hg⟩, fun p => ⟨fun ⟨q, r, hp⟩ => ?_, ?_⟩, inv.grids.inj,
    inv.families.inj, fun c => ?_⟩
  · rw [← h.hasGrid g, Option.ne_none_iff_exists']
    exact ⟨fun ⟨p, hp, _⟩ => ⟨p, hp⟩, fun ⟨p, hp⟩ => ⟨p, hp, gr g p hp⟩⟩
  · rw [← h.hasFamily f, Option.ne_none_iff_exists']
    exact ⟨fun ⟨p, hp, _⟩ => ⟨p, hp⟩, fun ⟨p, hp⟩ => ⟨p, hp, fr f p hp⟩⟩
  · rcases inv.alive p _ hp with k | ⟨f, k⟩ | ⟨e, he, k⟩
    · exact k
    · rw [fr f p k] at hp; cases hp
    · obtain ⟨q, r, h1⟩ := sr e he
      rw [k, hp] at h1; cases h1
  · rcases inv.alive p _ hp with ⟨f, k⟩ | k | ⟨e, he, k⟩
    · rw [gr f p k] at hp; cases hp
    · exact k
    · obtain ⟨q, r, h1⟩ := sr e he
      rw [k, hp] at h1; cases h1
  · rcases inv.alive p _ hp with ⟨f, k⟩ | ⟨f, k⟩ | k
    · rw [gr f p k] at hp; cases hp
    · rw [fr f p k] at hp; cases hp
    · exact k
  · rintro ⟨e, he, rfl⟩
    exact sr e he
  · obtain ⟨s', e', -⟩ := h.call c
    rw [e']
    constructor
    · rintro ⟨s'', k⟩
      split at k
      · assumption
      · cases k
    · intro k
      rw [if_pos k]
      exact ⟨s', rfl⟩

/-- Two failures with grid 0, whose spaces are deleted, and one live space: grids 0 and 1 exist, family 1 only. -/
example : let l := Ledger.start.run [.create 0 0 true true, .create 0 2 false false, .create 0 3 true false, .delete 0,
      .create 1 1 true true, .create 2 1 false true]
    l.spaces = [(1, 1, 1)] ∧ l.failed = [0, 0] ∧ l.hasGrid 0 ∧ l.hasGrid 1 ∧ ¬ l.hasGrid 2 ∧ l.hasFamily 1 ∧
      ¬ l.hasFamily 0 := by decide

end Bempp
