import Verif.Model.Blocks
import Verif.Lemmas.Perm
/-
The batching loops.
-/
namespace Bempp

variable {α β : Type}

theorem take_drop_drop (c : List α) {start stop : Nat} (h1 : start ≤ stop) :
    (c.drop start).take (stop - start) ++ c.drop stop = c.drop start := by
  have : c.drop stop = (c.drop start).drop (stop - start) := by
    rw [List.drop_drop]; congr 1; omega
  rw [this, List.take_append_drop]

theorem Split.flatten {b : Nat} {c : List α} {start : Nat} {bs : List (List α)}
    (h : Split b c start bs) : bs.flatten = c.drop start := by
  induction h with
  | stop h => rw [List.drop_eq_nil_of_le (by omega)]; rfl
  | step h1 h2 _ ih =>
    rw [List.flatten_cons, ih, take_drop_drop c (by omega)]

theorem Split.length_le {b : Nat} {c : List α} {start : Nat} {bs : List (List α)}
    (h : Split b c start bs) : ∀ x ∈ bs, x.length ≤ b := by
  induction h with
  | stop h => simp
  | step h1 h2 _ ih =>
    intro x hx
    rcases List.mem_cons.mp hx with rfl | hx
    · rw [List.length_take]; omega
    · exact ih x hx

theorem Split.exists {b : Nat} (hb : 0 < b) (c : List α) (start : Nat) : ∃ bs, Split b c start bs := by
  generalize hn : c.length - start = n
  induction n using Nat.strongRecOn generalizing start with
  | _ n ih =>
    by_cases h : start < c.length
    · obtain ⟨bs, hbs⟩ := ih (c.length - min (start + b) c.length) (by omega) _ rfl
      exact ⟨_, .step h rfl hbs⟩
    · exact ⟨[], .stop h⟩

/-- With batch size 0 the loop does not end unless there is nothing to do. -/
theorem Split.zero {c : List α} {start : Nat} {bs : List (List α)} (h : Split 0 c start bs) :
    ¬ start < c.length := by
  induction h with
  | stop h => exact h
  | step h1 h2 _ ih =>
    omega

theorem SplitTrial.flatten {b : Nat} {c : List α} {start : Nat} {bs : List (List α)}
    (h : SplitTrial b c start bs) : bs.flatten = c.drop start := by
  induction h with
  | stop h => rw [List.drop_eq_nil_of_le (by omega)]; rfl
  | @step start stop rest h1 h2 _ ih =>
    rw [List.flatten_cons, ih, take_drop_drop c (by split at h2 <;> omega)]

theorem SplitTrial.exists {b : Nat} (hb : 0 < b) (c : List α) (start : Nat) :
    ∃ bs, SplitTrial b c start bs := by
  generalize hn : c.length - start = n
  induction n using Nat.strongRecOn generalizing start with
  | _ n ih =>
    by_cases h : start < c.length
    · obtain ⟨bs, hbs⟩ := ih (c.length - (if start + b < c.length then start + b else c.length))
        (by split <;> omega) _ rfl
      exact ⟨_, .step h rfl hbs⟩
    · exact ⟨[], .stop h⟩

theorem SplitTrial.zero {c : List α} {start : Nat} {bs : List (List α)} (h : SplitTrial 0 c start bs) :
    ¬ start < c.length := by
  induction h with
  | stop h => exact h
  | step h1 h2 _ ih =>
    split at h2 <;> omega

theorem SplitTrial.unique {b : Nat} {c : List α} {start : Nat} {bs bs' : List (List α)}
    (h : SplitTrial b c start bs) (h' : SplitTrial b c start bs') : bs = bs' := by
  induction h generalizing bs' with
  | stop h =>
    cases h' with
    | stop _ => rfl
    | step h1 _ _ => exact absurd h1 h
  | step h1 h2 _ ih =>
    cases h' with
    | stop h => exact absurd h1 h
    | step _ h2' h3' => subst h2; subst h2'; rw [ih h3']

theorem SplitPairs.unique {b : Nat} {testC trialC : List Nat} {start : Nat}
    {tasks tasks' : List (List Nat × List Nat)} (h : SplitPairs b testC trialC start tasks)
    (h' : SplitPairs b testC trialC start tasks') : tasks = tasks' := by
  induction h generalizing tasks' with
  | stop h =>
    cases h' with
    | stop _ => rfl
    | step h1 _ _ _ => exact absurd h1 h
  | step h1 h2 h3 _ ih =>
    cases h' with
    | stop h => exact absurd h1 h
    | step _ h2' h3' h4' => subst h2; subst h2'; rw [ih h4', h3.unique h3']

theorem SplitPairs.exists {b : Nat} (hb : 0 < b) (testC trialC : List Nat) (start : Nat) :
    ∃ tasks, SplitPairs b testC trialC start tasks := by
  generalize hn : testC.length - start = n
  induction n using Nat.strongRecOn generalizing start with
  | _ n ih =>
    by_cases h : start < testC.length
    · obtain ⟨ts, hts⟩ := ih
        (testC.length - (if start + b < testC.length then start + b else testC.length))
        (by split <;> omega) _ rfl
      obtain ⟨trs, htrs⟩ := SplitTrial.exists hb trialC 0
      exact ⟨_, .step h rfl htrs hts⟩
    · exact ⟨[], .stop h⟩

theorem SplitPairs.zero {testC trialC : List Nat} {start : Nat} {tasks : List (List Nat × List Nat)}
    (h : SplitPairs 0 testC trialC start tasks) : ¬ start < testC.length := by
  induction h with
  | stop h => exact h
  | step h1 h2 _ _ ih =>
    split at h2 <;> omega

/-- The tasks visit every pair (test cell, trial cell) exactly once. -/
theorem SplitPairs.perm {b : Nat} {testC trialC : List Nat} {start : Nat}
    {tasks : List (List Nat × List Nat)} (h : SplitPairs b testC trialC start tasks)
    (f : Nat → Nat → List β) :
    (tasks.flatMap fun t => t.2.flatMap fun rc => t.1.flatMap fun tc => f tc rc).Perm
      ((testC.drop start).flatMap fun tc => trialC.flatMap fun rc => f tc rc) := by
  induction h with
  | stop h => rw [List.drop_eq_nil_of_le (by omega)]; simp
  | @step start stop trs rest h1 h2 h3 _ ih =>
    have e := take_drop_drop testC (start := start) (stop := stop) (by split at h2 <;> omega)
    generalize hx : (testC.drop start).take (stop - start) = x at e ⊢
    rw [List.flatMap_append, ← e, List.flatMap_append]
    refine List.Perm.append ?_ ih
    rw [List.flatMap_map]
    have hf := h3.flatten
    rw [List.drop_zero] at hf
    simp only
    rw [← flatten_flatMap trs fun rc => x.flatMap fun tc => f tc rc, hf]
    exact flatMap_swap _ _ _

theorem SplitPairs.mem {b : Nat} {testC trialC : List Nat} {start : Nat}
    {tasks : List (List Nat × List Nat)} (h : SplitPairs b testC trialC start tasks) :
    ∀ t ∈ tasks, (∀ x ∈ t.1, x ∈ testC) ∧ (∀ x ∈ t.2, x ∈ trialC) := by
  induction h with
  | stop h => simp
  | @step start stop trs rest h1 h2 h3 _ ih =>
    intro t ht
    rw [List.mem_append] at ht
    rcases ht with ht | ht
    · obtain ⟨tr, htr, rfl⟩ := List.mem_map.mp ht
      refine ⟨fun x hx => List.mem_of_mem_drop (List.mem_of_mem_take hx), fun x hx => ?_⟩
      have hf := h3.flatten
      rw [List.drop_zero] at hf
      rw [← hf]
      exact List.mem_flatten.mpr ⟨tr, htr, hx⟩
    · exact ih t ht

end Bempp
