import Mathlib.Data.List.Nodup
/-
Small facts about lists.
-/
namespace Bempp

theorem nodup_flatMap_disj {α β : Type} {l : List α} {f : α → List β} (h : (l.flatMap f).Nodup)
    {a b : α} (ha : a ∈ l) (hb : b ∈ l) (hab : a ≠ b) {x : β} (hx : x ∈ f a) : x ∉ f b := by
  induction l with
  | nil => simp at ha
  | cons y ys ih =>
    rw [List.flatMap_cons, List.nodup_append] at h
    obtain ⟨_, h2, h3⟩ := h
    intro hxb
    rcases List.mem_cons.mp ha with ha' | ha' <;> rcases List.mem_cons.mp hb with hb' | hb'
    · exact hab (ha'.trans hb'.symm)
    · subst ha'
      exact h3 x hx x (List.mem_flatMap.mpr ⟨b, hb', hxb⟩) rfl
    · subst hb'
      exact h3 x hxb x (List.mem_flatMap.mpr ⟨a, ha', hx⟩) rfl
    · exact ih h2 ha' hb' hxb

theorem set_same {α : Type} (l : List α) (i : Nat) (a : α) (h : l[i]? = some a) :
    l.set i a = l := by
  apply List.ext_getElem?; intro j
  rw [List.getElem?_set]; split
  · subst_vars
    rw [if_pos (List.getElem?_eq_some_iff.mp h).1, h]
  · rfl

theorem pairwise_forall {α : Type} {R : α → α → Prop} (hR : ∀ x y, R x y → R y x) {l : List α}
    (h : l.Pairwise R) {a b : α} (ha : a ∈ l) (hb : b ∈ l) (hab : a ≠ b) : R a b := by
  induction l with
  | nil => simp at ha
  | cons x xs ih =>
    rw [List.pairwise_cons] at h
    rcases List.mem_cons.mp ha with ha' | ha' <;> rcases List.mem_cons.mp hb with hb' | hb'
    · exact absurd (ha'.trans hb'.symm) hab
    · rw [ha']; exact h.1 b hb'
    · rw [hb']; exact hR _ _ (h.1 a ha')
    · exact ih h.2 ha' hb'

end Bempp
