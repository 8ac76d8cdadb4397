import Verif.Props.Distributed
import Verif.Model.Sequence
/-
Several constructions one after the other: their traces, one after the other, match.
-/
namespace Bempp

/-- The same actions, later. -/
def delay (b : Nat) (t : Trace) : Trace := t.map fun x => (x.1, x.2 + b)

theorem Runs.delay {α : Type} (b : Nat) {p : Prog α} {t : Trace} {a : α} (h : Runs p t a) : Runs p (delay b t) a := by
  induction h with
  | done a => exact .done a
  | send _ ih => exact .send ih
  | recv _ ih => exact .recv ih

theorem sendsTo_delay (b d : Nat) (t : Trace) : sendsTo d (delay b t) = (sendsTo d t).map fun x => (x.1, x.2 + b) := by
  induction t with
  | nil => rfl
  | cons x t ih =>
    obtain ⟨a, τ⟩ := x
    simp only [sendsTo, delay, List.map_cons, List.filterMap_cons] at ih ⊢
    cases a with
    | send d' m => by_cases h : d' = d <;> simp [h, ih]
    | recv => simpa using ih

theorem recvsFrom_delay (b s : Nat) (t : Trace) :
    recvsFrom s (delay b t) = (recvsFrom s t).map fun x => (x.1, x.2 + b) := by
  induction t with
  | nil => rfl
  | cons x t ih =>
    obtain ⟨a, τ⟩ := x
    simp only [recvsFrom, delay, List.map_cons, List.filterMap_cons] at ih ⊢
    cases a with
    | send => simpa using ih
    | recv s' m => by_cases h : s' = s <;> simp [h, ih]

theorem mem_delay {b : Nat} {t : Trace} {x : Act × Nat} : x ∈ delay b t ↔ ∃ τ, (x.1, τ) ∈ t ∧ x.2 = τ + b := by
  constructor
  · intro h
    obtain ⟨y, hy, rfl⟩ := List.mem_map.mp h
    exact ⟨y.2, hy, rfl⟩
  · rintro ⟨τ, h1, h2⟩
    exact List.mem_map.mpr ⟨_, h1, by rw [← h2]⟩

/-- Matching traces, and after them other matching ones. -/
theorem Matching.append {n b : Nat} {T U : Nat → Trace} (hT : Matching n T) (hU : Matching n U)
    (hb : ∀ r, r < n → ∀ x ∈ T r, x.2 ≤ b) : Matching n fun r => T r ++ delay b (U r) where
  dst := by
    intro r hr d m τ h
    rcases List.mem_append.mp h with h | h
    · exact hT.dst r hr d m τ h
    · obtain ⟨τ', h, -⟩ := mem_delay.mp h
      exact hU.dst r hr d m τ' h
  src := by
    intro r hr s m τ h
    rcases List.mem_append.mp h with h | h
    · exact hT.src r hr s m τ h
    · obtain ⟨τ', h, -⟩ := mem_delay.mp h
      exact hU.src r hr s m τ' h
  chan := by
    intro s d hs hd
    rw [sendsTo_append, recvsFrom_append, sendsTo_delay, recvsFrom_delay]
    refine List.rel_append (hT.chan s d hs hd) ?_
    rw [List.forall₂_map_left_iff, List.forall₂_map_right_iff]
    exact (hU.chan s d hs hd).imp fun _ _ h => ⟨h.1, Nat.add_lt_add_right h.2 b⟩
  sorted := by
    intro r hr
    rw [List.pairwise_append]
    refine ⟨hT.sorted r hr, ?_, ?_⟩
    · unfold delay
      rw [List.pairwise_map]
      exact (hU.sorted r hr).imp fun h => Nat.add_le_add_right h b
    · intro x hx y hy
      obtain ⟨τ, -, h⟩ := mem_delay.mp hy
      have := hb r hr x hx
      omega

theorem traceOf_stamp {n : Nat} {D : Nat → DofState} {r : Nat} (hr : r < n) {x : Act × Nat} (hx : x ∈ traceOf n D r) :
    x.2 ≤ 2 * n + 4 := by
  obtain ⟨h1, h2, h3, h4, h5, h6⟩ := mem_trace n D hr
  unfold traceOf at hx
  simp only [List.mem_append] at hx
  rcases hx with h | h | h | h | h | h
  · have := (h1 x h).1; omega
  · have := (h2 x h).1; omega
  · have := (h3 x h).1; omega
  · have := (h4 x h).1; omega
  · have := (h5 x h).1; omega
  · have := (h6 x h).1; omega

/-- The actions of process `r` in several constructions. -/
def seqTrace (n : Nat) : List (Nat → DofState) → Nat → Trace
  | [], _ => []
  | D :: Ds, r => traceOf n D r ++ delay (2 * n + 4) (seqTrace n Ds r)

theorem seqTrace_matching (n : Nat) : ∀ Ds : List (Nat → DofState), Matching n (seqTrace n Ds)
  | [] => by constructor <;> intros <;> simp_all [seqTrace, sendsTo, recvsFrom]
  | D :: Ds => (traceOf_matching n D).append (seqTrace_matching n Ds) fun _ hr _ hx => traceOf_stamp hr hx

/-- Grids (one part for each process) and element families. -/
abbrev Jobs := List ((Nat → Grid) × (CellType → ElementDofs))

theorem createSpaces_runs {n : Nat} : ∀ jobs : Jobs, (∀ j ∈ jobs, ∃ nd, Distributed n j.1 j.2 nd) →
    ∃ (Ds : List (Nat → DofState)) (sp : Nat → List FunctionSpace),
      (∀ r, r < n → Runs (createSpaces r n (jobs.map fun j => (j.1 r, j.2))) (seqTrace n Ds r) (sp r)) ∧
      (∀ r, r < n → (sp r).length = jobs.length) ∧
      ∀ (i : Nat) j, jobs[i]? = some j → ∃ s, Finished n j.1 j.2 s ∧ ∀ r, r < n → (sp r)[i]? = some (s r)
  | [], _ => ⟨[], fun _ => [], fun _ _ => .done _, fun _ _ => rfl, fun _ _ h => by simp at h⟩
  | j :: js, h => by
    obtain ⟨Ds, sp, h1, h2, h3⟩ := createSpaces_runs js fun x hx => h x (List.mem_cons_of_mem _ hx)
    obtain ⟨nd, dist⟩ := h j (by simp)
    obtain ⟨s, hs⟩ := finished_exists dist
    obtain ⟨D, hD, he⟩ := finished_spaces dist hs
    refine ⟨D :: Ds, fun r => s r :: sp r, fun r hr => ?_, fun r hr => by simp [h2 r hr], ?_⟩
    · have hrun := new_runs dist hD hr
      rw [← he r hr] at hrun
      have hrest := (h1 r hr).delay (2 * n + 4)
      have := (hrest.bind (f := fun rest => pure (s r :: rest)) (.done (s r :: sp r)))
      rw [List.append_nil] at this
      exact hrun.bind this
    · intro i x hx
      cases i with
      | zero =>
        simp only [List.getElem?_cons_zero, Option.some.injEq] at hx
        subst hx
        exact ⟨s, hs, fun _ _ => rfl⟩
      | succ i => simpa using h3 i x (by simpa using hx)

/-- Run a program along a trace. -/
def follow {α : Type} : Prog α → Trace → Option α
  | .done a, [] => some a
  | .send d m k, (.send d' m', _) :: t => if d = d' ∧ m = m' then follow k t else none
  | .recv s k, (.recv s' m', _) :: t => if s = s' then follow (k m') t else none
  | _, _ => none

theorem follow_runs {α : Type} : ∀ {t : Trace} {p : Prog α} {a : α}, follow p t = some a → Runs p t a
  | [], .done _, _, h => by simp only [follow, Option.some.injEq] at h; subst h; exact .done _
  | [], .panic, _, h => by simp [follow] at h
  | [], .send _ _ _, _, h => by simp [follow] at h
  | [], .recv _ _, _, h => by simp [follow] at h
  | (.send d' m', _) :: t, .send d m k, a, h => by
    simp only [follow] at h
    split at h
    · rename_i e; obtain ⟨rfl, rfl⟩ := e; exact .send (follow_runs h)
    · cases h
  | (.recv s' m', _) :: t, .recv s k, a, h => by
    simp only [follow] at h
    split at h
    · rename_i e; subst e; exact .recv (follow_runs h)
    · cases h
  | (.send _ _, _) :: _, .done _, _, h => by simp [follow] at h
  | (.send _ _, _) :: _, .panic, _, h => by simp [follow] at h
  | (.send _ _, _) :: _, .recv _ _, _, h => by simp [follow] at h
  | (.recv _ _, _) :: _, .done _, _, h => by simp [follow] at h
  | (.recv _ _, _) :: _, .panic, _, h => by simp [follow] at h
  | (.recv _ _, _) :: _, .send _ _ _, _, h => by simp [follow] at h

end Bempp
