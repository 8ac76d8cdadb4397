import Mathlib.Data.List.Basic
import Mathlib.Data.List.Range
/-
Counting lemmas.
-/
namespace Bempp

/-- The elements satisfying `P` are numbered `0 .. countP-1` by the count before them. -/
theorem countP_take_exists {α : Type} (P : α → Bool) : ∀ (l : List α) (j : Nat), j < l.countP P →
    ∃ i x, l[i]? = some x ∧ P x = true ∧ (l.take i).countP P = j
  | [], j, h => by simp at h
  | a :: l, j, h => by
    by_cases ha : P a = true
    · rcases j with _ | j
      · exact ⟨0, a, rfl, ha, rfl⟩
      · rw [List.countP_cons_of_pos ha] at h
        obtain ⟨i, x, h1, h2, h3⟩ := countP_take_exists P l j (by omega)
        exact ⟨i + 1, x, h1, h2, by rw [List.take_succ_cons, List.countP_cons_of_pos ha, h3]⟩
    · rw [List.countP_cons_of_neg ha] at h
      obtain ⟨i, x, h1, h2, h3⟩ := countP_take_exists P l j h
      exact ⟨i + 1, x, h1, h2, by rw [List.take_succ_cons, List.countP_cons_of_neg ha, h3]⟩

theorem countP_take_mono {α : Type} (P : α → Bool) (l : List α) {i j : Nat} (h : i ≤ j) :
    (l.take i).countP P ≤ (l.take j).countP P := by
  have : l.take i = (l.take j).take i := by rw [List.take_take, Nat.min_eq_left h]
  rw [this]
  exact (List.take_sublist _ _).countP_le

theorem countP_take_lt {α : Type} (P : α → Bool) (l : List α) {i j : Nat} {x : α}
    (hx : l[i]? = some x) (hP : P x = true) (h : i < j) :
    (l.take i).countP P < (l.take j).countP P := by
  have h1 : (l.take (i + 1)).countP P = (l.take i).countP P + 1 := by
    rw [List.take_add_one, hx]; simp [hP]
  have := countP_take_mono P l (i := i + 1) (j := j) h
  omega

theorem countP_take_inj {α : Type} (P : α → Bool) (l : List α) {i j : Nat} {x y : α}
    (hx : l[i]? = some x) (hy : l[j]? = some y) (hPx : P x = true) (hPy : P y = true)
    (h : (l.take i).countP P = (l.take j).countP P) : i = j := by
  rcases Nat.lt_trichotomy i j with hlt | heq | hlt
  · have := countP_take_lt P l hx hPx hlt; omega
  · exact heq
  · have := countP_take_lt P l hy hPy hlt; omega

theorem countP_take_lt_total {α : Type} (P : α → Bool) (l : List α) {i : Nat} {x : α}
    (hx : l[i]? = some x) (hP : P x = true) : (l.take i).countP P < l.countP P := by
  have := countP_take_lt P l hx hP (List.getElem?_eq_some_iff.mp hx).1
  rwa [List.take_length] at this

end Bempp
