/-
Loop rules for `foldl` / `foldlM` in the `Option` monad.
-/
namespace Bempp

/-- Total-correctness loop rule: an invariant indexed by the processed prefix. -/
theorem foldlM_inv {σ α : Type} (f : σ → α → Option σ) (P : List α → σ → Prop) (l : List α) (s0 : σ)
    (h0 : P [] s0)
    (step : ∀ pre x post s, l = pre ++ x :: post → P pre s →
      ∃ s', f s x = some s' ∧ P (pre ++ [x]) s') :
    ∃ s', l.foldlM f s0 = some s' ∧ P l s' := by
  suffices H : ∀ (rest pre : List α) (s : σ), l = pre ++ rest → P pre s →
      ∃ s', rest.foldlM f s = some s' ∧ P l s' from H l [] s0 rfl h0
  intro rest
  induction rest with
  | nil =>
    intro pre s hl hp
    refine ⟨s, rfl, ?_⟩
    simpa [hl] using hp
  | cons x xs ih =>
    intro pre s hl hp
    obtain ⟨s1, h1, h2⟩ := step pre x xs s hl hp
    obtain ⟨s2, h3, h4⟩ := ih (pre ++ [x]) s1 (by simp [hl]) h2
    refine ⟨s2, ?_, h4⟩
    simp [List.foldlM_cons, h1, h3]

/-- Partial-correctness loop rule. -/
theorem foldlM_inv_of_eq {σ α : Type} (f : σ → α → Option σ) (P : List α → σ → Prop) (l : List α)
    (s0 s' : σ) (h : l.foldlM f s0 = some s')
    (h0 : P [] s0)
    (step : ∀ pre x post s s', l = pre ++ x :: post → P pre s → f s x = some s' →
      P (pre ++ [x]) s') : P l s' := by
  suffices H : ∀ (rest pre : List α) (s : σ), l = pre ++ rest → P pre s →
      rest.foldlM f s = some s' → P l s' from H l [] s0 rfl h0 h
  intro rest
  induction rest with
  | nil =>
    intro pre s hl hp h
    simp at h
    subst h
    simpa [hl] using hp
  | cons x xs ih =>
    intro pre s hl hp h
    rw [List.foldlM_cons] at h
    cases hf : f s x with
    | none => simp [hf] at h
    | some s1 =>
      simp [hf] at h
      exact ih (pre ++ [x]) s1 (by simp [hl]) (step pre x xs s s1 hl hp hf) h

/-- Loop rule for pure loops. -/
theorem foldl_inv {σ α : Type} (f : σ → α → σ) (P : List α → σ → Prop) (l : List α) (s0 : σ)
    (h0 : P [] s0)
    (step : ∀ pre x post s, l = pre ++ x :: post → P pre s → P (pre ++ [x]) (f s x)) :
    P l (l.foldl f s0) := by
  suffices H : ∀ (rest pre : List α) (s : σ), l = pre ++ rest → P pre s →
      P l (rest.foldl f s) from H l [] s0 rfl h0
  intro rest
  induction rest with
  | nil => intro pre s hl hp; simpa [hl] using hp
  | cons x xs ih =>
    intro pre s hl hp
    exact ih (pre ++ [x]) (f s x) (by simp [hl]) (step pre x xs s hl hp)

/-- A nested loop is a loop over the flattened list. -/
theorem foldlM_flatMap {σ α β : Type} (f : σ → β → Option σ) (g : α → List β) (l : List α) (s : σ) :
    (l.flatMap g).foldlM f s = l.foldlM (fun s x => (g x).foldlM f s) s := by
  induction l generalizing s with
  | nil => rfl
  | cons x xs ih =>
    simp only [List.flatMap_cons, List.foldlM_append, List.foldlM_cons]
    cases (g x).foldlM f s with
    | none => rfl
    | some s1 => exact ih s1

theorem foldlM_map {σ α β : Type} (f : σ → β → Option σ) (g : α → β) (l : List α) (s : σ) :
    (l.map g).foldlM f s = l.foldlM (fun s x => f s (g x)) s := by
  induction l generalizing s with
  | nil => rfl
  | cons x xs ih =>
    simp only [List.map_cons, List.foldlM_cons]
    cases f s (g x) with
    | none => rfl
    | some s1 => exact ih s1

end Bempp
