import Verif.Props.Sequence
import Verif.Proofs.SequenceEager
/-
C93: several spaces created one after the other if MPI buffers messages up to some length only.
-/
namespace Bempp
open Examples

variable {α : Type} {n L : Nat} {G : Nat → Grid} {fam : CellType → ElementDofs} {nd : Nat → Nat → Nat → Nat}

/-- Process `r` returns in some execution that starts with `c0`, if messages of up to `L` numbers are buffered. -/
def Returns (n L : Nat) (c0 : Config α) (r : Nat) : Prop :=
  ∃ k c x, Config.Reach (Config.EagerStep n L) k c0 c ∧ c.prog r = .done x

/-- **C93, any schedule.** Whatever the programs and the buffers: a process that returns in some execution has returned with the same
result in every execution that cannot continue. -/
theorem C93_determined {c0 c c' : Config α} {k k' r : Nat} {x : α} (h : Config.Reach (Config.EagerStep n L) k c0 c)
    (hx : c.prog r = .done x) (h' : Config.Reach (Config.EagerStep n L) k' c0 c') (hs : ¬ ∃ c'', Config.EagerStep n L c' c'') :
    c'.prog r = .done x := by
  obtain ⟨j, hj⟩ := Config.eager_confluent h h' hs
  exact Config.eager_done hj hx

theorem Returns.stuck {c0 c : Config α} {k r : Nat} (h : Returns n L c0 r) (h' : Config.Reach (Config.EagerStep n L) k c0 c)
    (hs : ¬ ∃ c'', Config.EagerStep n L c c'') : ∃ x, c.prog r = .done x := by
  obtain ⟨_, _, x, h1, h2⟩ := h
  exact ⟨x, C93_determined h1 h2 h' hs⟩

/-- **C93, safety.** Whatever the length up to which messages are buffered, every execution stops, no process panics, and a process
that returns has got the spaces that are created alone with unlimited buffers. -/
theorem C93_safe (jobs : List ((Nat → Grid) × (CellType → ElementDofs))) (h : ∀ j ∈ jobs, ∃ nd, Distributed n j.1 j.2 nd) (L : Nat) :
    ∃ (K : Nat) (sp : Nat → List FunctionSpace),
      (∀ r, r < n → (sp r).length = jobs.length) ∧
      (∀ (i : Nat) j, jobs[i]? = some j → ∃ s, Finished n j.1 j.2 s ∧ ∀ r, r < n → (sp r)[i]? = some (s r)) ∧
      ∀ k c, Config.Reach (Config.EagerStep n L) k (launchAll n jobs) c →
        k ≤ K ∧ (∀ r, r < n → c.prog r ≠ .panic) ∧ ∀ r, r < n → ∀ s, c.prog r = .done s → s = sp r := by
  obtain ⟨Ds, sp, hruns, hlen, hfin⟩ := createSpaces_runs jobs h
  have hM := seqTrace_matching n Ds
  refine ⟨doneCount n (seqTrace n Ds), sp, hlen, hfin, ?_⟩
  intro k c hk
  obtain ⟨pre, suf, inv, hc, -⟩ := eager_reach hM hruns hk rfl
  refine ⟨hc.trans (doneCount_le pre suf inv.split), ?_, ?_⟩
  · intro r hr h
    have := inv.runs r hr
    rw [h] at this
    cases this
  · intro r hr s h
    have := inv.runs r hr
    rw [h] at this
    generalize sp r = s' at this ⊢
    generalize suf r = t at this
    cases this; rfl

/-- **C93, no process returns before all have called.** As soon as some process has returned, all have made their first step. -/
theorem C93_barrier (dist : Distributed n G fam nd) (hn : 2 ≤ n) {k : Nat} {c : Config FunctionSpace}
    (hk : Config.Reach (Config.EagerStep n L) k (launch n G fam) c) {r : Nat} (hr : r < n) {s : FunctionSpace}
    (h : c.prog r = .done s) : ∀ q, q < n → c.prog q ≠ FunctionSpace.new q n (G q) fam := by
  obtain ⟨sp, hsp⟩ := finished_exists dist
  obtain ⟨D, hD, he⟩ := finished_spaces dist hsp
  have hT : ∀ r, seqTrace n [D] r = traceOf n D r := fun r => by simp [seqTrace, delay]
  obtain ⟨pre, suf, inv, -, hmove⟩ := eager_reach (seqTrace_matching n [D])
    (fun r hr => by rw [hT]; exact new_runs dist hD hr) hk rfl
  intro q hq
  exact Prog.next_ne (hmove q hq (all_started inv hr hn h q hq))

theorem exists_stuck {c0 : Config α} {K : Nat} (h : ∀ k c, Config.Reach (Config.EagerStep n L) k c0 c → k ≤ K) :
    ∃ k c, Config.Reach (Config.EagerStep n L) k c0 c ∧ ¬ ∃ c', Config.EagerStep n L c c' := by
  by_contra hno
  push Not at hno
  have : ∀ m, ∃ c, Config.Reach (Config.EagerStep n L) m c0 c := by
    intro m
    induction m with
    | zero => exact ⟨_, .refl _⟩
    | succ m ih =>
      obtain ⟨c, hc⟩ := ih
      obtain ⟨c', hc'⟩ := hno m c hc
      exact ⟨c', .tail hc hc'⟩
  obtain ⟨c, hc⟩ := this (K + 1)
  have := h _ c hc
  omega

section
variable {j : (Nat → Grid) × (CellType → ElementDofs)} {js : List ((Nat → Grid) × (CellType → ElementDofs))}

theorem launch_tidy (dist : Distributed n j.1 j.2 nd) {k : Nat} {a : Config FunctionSpace}
    (h : Config.Reach (Config.EagerStep n L) k (launch n j.1 j.2) a) : Tidy n a := by
  obtain ⟨sp, hsp⟩ := finished_exists dist
  obtain ⟨D, hD, he⟩ := finished_spaces dist hsp
  obtain ⟨pre, suf, inv, -, -⟩ := eager_reach (traceOf_matching n D) (fun r hr => new_runs dist hD hr) h rfl
  exact inv.tidy (traceOf_matching n D)

theorem launch_sim : Sim n (launchAll n js) List.cons (launch n j.1 j.2) (launchAll n js) (launchAll n (j :: js)) :=
  Sim.init (fun _ _ => rfl) (fun _ _ => rfl) (fun _ _ => rfl) fun _ => rfl

/-- The first of several constructions. -/
theorem returns_cons (dist : Distributed n j.1 j.2 nd) (h : ∀ j ∈ js, ∃ nd, Distributed n j.1 j.2 nd) {r : Nat} (hr : r < n) :
    Returns n L (launchAll n (j :: js)) r ↔
      ((if js = [] then Returns n L (launch n j.1 j.2) r else ∀ q, q < n → Returns n L (launch n j.1 j.2) q) ∧
        Returns n L (launchAll n js) r) := by
  have hall : ∀ x ∈ j :: js, ∃ nd, Distributed n x.1 x.2 nd := by
    intro x hx
    rcases List.mem_cons.mp hx with rfl | hx
    · exact ⟨nd, dist⟩
    · exact h x hx
  constructor
  · rintro ⟨k, c, x, hk, hx⟩
    obtain ⟨i, i', a, b, -, ha, hb, sim⟩ := Sim.reach launch_sim (fun k a h => launch_tidy dist h) hk
    rw [sim.prog] at hx
    obtain ⟨u, v, hu, hv, -⟩ := both_done hx
    refine ⟨?_, ⟨i', b, v, hb, hv⟩⟩
    split
    · exact ⟨i, a, u, ha, hu⟩
    · rename_i hne
      intro q hq
      by_cases hn : 2 ≤ n
      · obtain ⟨Ds, sp, hruns, -, -⟩ := createSpaces_runs js h
        have hDs : ∃ D Ds', Ds = D :: Ds' := by
          cases hD : Ds with
          | cons D Ds' => exact ⟨D, Ds', rfl⟩
          | nil =>
            -- the trace of a construction is not empty
            exfalso
            obtain ⟨j', js', rfl⟩ := List.exists_cons_of_ne_nil hne
            obtain ⟨nd', dist'⟩ := h j' (by simp)
            obtain ⟨sp', hsp'⟩ := finished_exists dist'
            obtain ⟨D, hD', he'⟩ := finished_spaces dist' hsp'
            have h1 := hruns 1 (by omega)
            rw [hD] at h1
            have h2 := new_runs dist' hD' (r := 1) (by omega)
            have h3 : ∃ m t, traceOf n D 1 = (.recv 0 m, 2) :: t := ⟨[offs D 1], _, by simp [traceOf, trOffRecv]; rfl⟩
            obtain ⟨m, t, h3⟩ := h3
            rw [h3] at h2
            simp only [List.map_cons, createSpaces, seqTrace] at h1
            generalize FunctionSpace.new 1 n (j'.1 1) j'.2 = p at h1 h2
            cases h2
            cases h1
        obtain ⟨D, Ds', rfl⟩ := hDs
        obtain ⟨pre, suf, inv, -, hmove⟩ := eager_reach (seqTrace_matching n _) hruns hb rfl
        have hne := Prog.next_ne (hmove q hq (all_started inv hr hn hv q hq))
        by_contra hno
        refine hne (sim.late q fun y hy => hno ⟨i, a, y, ha, hy⟩).1
      · have : q = r := by omega
        subst this
        exact ⟨i, a, u, ha, hu⟩
  · rintro ⟨h1, h2⟩
    obtain ⟨K, sp, -, -, hK⟩ := C93_safe (j :: js) hall L
    obtain ⟨k, c, hk, hs⟩ := exists_stuck fun k c h => (hK k c h).1
    obtain ⟨i, i', a, b, -, ha, hb, sim⟩ := Sim.reach launch_sim (fun k a h => launch_tidy dist h) hk
    have sa : ¬ ∃ a', Config.EagerStep n L a a' := fun ⟨a', h⟩ => hs (sim.go_first h)
    split at h1
    · rename_i he
      subst he
      obtain ⟨u, hu⟩ := h1.stuck ha sa
      have hv : b.prog r = .done [] := Config.eager_done hb rfl
      exact ⟨k, c, [u], hk, by rw [sim.prog, hu, hv]; rfl⟩
    · have hd : ∀ q, q < n → ∃ x, a.prog q = .done x := fun q hq => (h1 q hq).stuck ha sa
      have sb : ¬ ∃ b', Config.EagerStep n L b b' := fun ⟨b', h⟩ => hs (sim.go_second (launch_tidy dist ha) hd h)
      obtain ⟨u, hu⟩ := hd r hr
      obtain ⟨v, hv⟩ := h2.stuck hb sb
      exact ⟨k, c, u :: v, hk, by rw [sim.prog, hu, hv]; rfl⟩

end

/-- **C93.** All processes create spaces for the grids `js` and then for `j`; messages of up to `L` numbers are buffered. Process `r`
returns exactly if it returns from the last construction on its own and all processes return from each of the others on its own. -/
theorem C93_returns_iff (js : List ((Nat → Grid) × (CellType → ElementDofs))) (j : (Nat → Grid) × (CellType → ElementDofs))
    (h : ∀ i ∈ js ++ [j], ∃ nd, Distributed n i.1 i.2 nd) (L : Nat) {r : Nat} (hr : r < n) :
    Returns n L (launchAll n (js ++ [j])) r ↔
      (∀ i ∈ js, ∀ q, q < n → Returns n L (launch n i.1 i.2) q) ∧ Returns n L (launch n j.1 j.2) r := by
  induction js with
  | nil =>
    obtain ⟨nd, dist⟩ := h j (by simp)
    rw [List.nil_append, returns_cons dist (by simp) hr]
    simp only [if_true, List.not_mem_nil, false_implies, implies_true, true_and]
    exact and_iff_left ⟨0, _, [], .refl _, rfl⟩
  | cons i js ih =>
    obtain ⟨nd, dist⟩ := h i (by simp)
    rw [List.cons_append, returns_cons dist (fun x hx => h x (by simp at hx ⊢; tauto)) hr,
      if_neg (by simp), ih fun x hx => h x (by simp at hx ⊢; tauto)]
    simp only [List.mem_cons, forall_eq_or_imp]
    tauto

/-- **C93, all processes.** Creating several spaces one after the other succeeds exactly if creating each of them on its own does. -/
theorem C93_all_return_iff (jobs : List ((Nat → Grid) × (CellType → ElementDofs)))
    (h : ∀ j ∈ jobs, ∃ nd, Distributed n j.1 j.2 nd) (L : Nat) :
    (∀ r, r < n → Returns n L (launchAll n jobs) r) ↔ ∀ j ∈ jobs, ∀ r, r < n → Returns n L (launch n j.1 j.2) r := by
  rcases List.eq_nil_or_concat jobs with rfl | ⟨js, j, rfl⟩
  · simp only [List.not_mem_nil, false_implies, implies_true, iff_true]
    exact fun r _ => ⟨0, _, [], .refl _, rfl⟩
  · rw [List.concat_eq_append] at h ⊢
    constructor
    · intro hall i hi q hq
      have := (C93_returns_iff js j h L hq).mp (hall q hq)
      rcases List.mem_append.mp hi with hi | hi
      · exact this.1 i hi q hq
      · rw [List.mem_singleton.mp hi]; exact this.2
    · intro hall r hr
      exact (C93_returns_iff js j h L hr).mpr ⟨fun i hi q hq => hall i (by simp [hi]) q hq, hall j (by simp) r hr⟩

/-- **C93, one space.** When a process returns from one construction (C64). -/
theorem C93_single (dist : Distributed n G fam nd) (L : Nat) {r : Nat} (hr : r < n) :
    Returns n L (launch n G fam) r ↔ ∀ e : Event, e.Valid n → e.rank = r → ¬ e.Hangs n fun p q => L < ghostDofs (G p) (nd p) q := by
  obtain ⟨sp, -, h⟩ := C64_returns_iff dist L
  obtain ⟨K, _, -, hK⟩ := C21_eager_safe dist L
  constructor
  · rintro ⟨k, c, x, hk, hx⟩ e hv he hh
    exact (h r hr).2 ⟨e, hv, he, hh⟩ k c hk x hx
  · intro hfree
    obtain ⟨k, c, hk, hs⟩ := exists_stuck fun k c h => (hK k c h).1
    exact ⟨k, c, _, hk, (h r hr).1 hfree k c hk hs⟩

/-! ### The hypotheses can be met -/

theorem trees_dist : ∀ j ∈ [(treeParts, p1)] ++ [(treeParts, p1)], ∃ nd, Distributed 4 j.1 j.2 nd := by
  intro j hj
  simp only [List.mem_append, List.mem_cons, List.not_mem_nil, or_false, or_self] at hj
  subst hj
  exact ⟨_, treeParts_dist⟩

/-- Buffers for two numbers are enough for `treeParts`: all processes return, however often they create a space. -/
example : ∀ r, r < 4 → Returns 4 2 (launchAll 4 ([(treeParts, p1)] ++ [(treeParts, p1)])) r := by
  rw [C93_all_return_iff _ trees_dist]
  intro j hj r hr
  simp only [List.mem_append, List.mem_cons, List.not_mem_nil, or_false, or_self] at hj
  subst hj
  have hle : ∀ p, p < 4 → ∀ q, q < 4 → ghostDofs (treeParts p) (fun d _ => if d = 0 then 1 else 0) q ≤ 2 := by
    apply lt4 <;> apply lt4 <;> decide
  obtain ⟨sp, -, h⟩ := C21_eager_terminates_partial treeParts_dist (L := 2) (by decide) 0
    (fun r hr _ p hp _ => hle r hr p hp)
  obtain ⟨K, _, -, hK⟩ := C21_eager_safe treeParts_dist 2
  obtain ⟨k, c, hk, hs⟩ := exists_stuck fun k c h => (hK k c h).1
  rcases h k c hk with h' | h'
  · exact absurd h' hs
  · exact ⟨k, c, _, hk, h'.1 r hr⟩

/-- Buffers for single numbers are not: process 1 returns from the first construction, but no process returns from the second. -/
example : Returns 4 1 (launch 4 treeParts p1) 1 ∧ ∀ r, r < 4 → ¬ Returns 4 1 (launchAll 4 ([(treeParts, p1)] ++ [(treeParts, p1)])) r := by
  obtain ⟨sp, -, h⟩ := treeParts_one
  obtain ⟨K, _, -, hK⟩ := C21_eager_safe treeParts_dist 1
  obtain ⟨k, c, hk, hs⟩ := exists_stuck fun k c h => (hK k c h).1
  refine ⟨⟨k, c, _, hk, (h k c hk).2.resolve_left hs⟩, fun r hr hret => ?_⟩
  obtain ⟨k', c', x, hk', hx⟩ := ((C93_returns_iff _ _ trees_dist 1 hr).mp hret).1 (treeParts, p1) (by simp) 0 (by decide)
  exact ((h k' c' hk').1 x).1 hx

/-- As soon as one of four processes has returned, all have started. -/
example : ∀ k c, Config.Reach (Config.EagerStep 4 2) k (launch 4 treeParts p1) c → ∀ r, r < 4 → ∀ s, c.prog r = .done s →
    ∀ q, q < 4 → c.prog q ≠ FunctionSpace.new q 4 (treeParts q) p1 :=
  fun _ _ hk _ hr _ h => C93_barrier treeParts_dist (by decide) hk hr h

end Bempp
