import Verif.Props.Waiting
import Verif.Proofs.Sequence
/-
C69: several spaces created one after the other.
-/
namespace Bempp
open Examples

/-- All `n` processes create spaces for the same list of grids and families, each at its own speed. -/
def launchAll (n : Nat) (jobs : List ((Nat → Grid) × (CellType → ElementDofs))) : Config (List FunctionSpace) :=
  Config.init fun r => createSpaces r n (jobs.map fun j => (j.1 r, j.2))

/-- **C69** (sends that complete without waiting for the receiver). If all processes create spaces one after the other in the same
order, every execution stops, no process panics, an execution in which not all processes have returned can continue, and at the
end no message is left over and each space is the one that would have been created alone. -/
theorem C69_sequence {n : Nat} (jobs : List ((Nat → Grid) × (CellType → ElementDofs)))
    (h : ∀ j ∈ jobs, ∃ nd, Distributed n j.1 j.2 nd) :
    ∃ (K : Nat) (sp : Nat → List FunctionSpace),
      (∀ r, r < n → (sp r).length = jobs.length) ∧
      (∀ (i : Nat) j, jobs[i]? = some j → ∃ s, Finished n j.1 j.2 s ∧ ∀ r, r < n → (sp r)[i]? = some (s r)) ∧
      ∀ k c, Config.Reach (Config.Step n) k (launchAll n jobs) c →
        k ≤ K ∧ (∀ r, r < n → c.prog r ≠ .panic) ∧
        ((∃ c', Config.Step n c c') ∨
          ((∀ r, r < n → c.prog r = .done (sp r)) ∧ ∀ s d, s < n → d < n → c.chan s d = [])) := by
  obtain ⟨Ds, sp, hruns, hlen, hfin⟩ := createSpaces_runs jobs h
  have hM := seqTrace_matching n Ds
  refine ⟨doneCount n (seqTrace n Ds), sp, hlen, hfin, ?_⟩
  intro k c hk
  obtain ⟨pre, suf, inv, rfl⟩ := net_reach hM hruns hk rfl
  refine ⟨doneCount_le pre suf inv.split, ?_, ?_⟩
  · intro r hr h
    have := inv.runs r hr
    rw [h] at this
    cases this
  · rcases net_progress hM inv with h | h
    · exact Or.inl h
    · right
      refine ⟨h, ?_⟩
      intro s d hs hd
      have hnil : ∀ r, r < n → suf r = [] := by
        intro r hr
        have := inv.runs r hr
        rw [h r hr] at this
        generalize suf r = t at this
        cases this; rfl
      have h1 := inv.chan s d hs hd
      have h2 := forall2_map_fst (hM.chan s d hs hd)
      rw [inv.split s hs, inv.split d hd, hnil s hs, hnil d hd, List.append_nil, List.append_nil, h1] at h2
      simpa using h2

/-- The hypotheses are met: a continuous space on four processes twice. -/
example : ∀ j ∈ [(treeParts, p1), (treeParts, p1)], ∃ nd, Distributed 4 j.1 j.2 nd := by
  intro j hj
  simp only [List.mem_cons, List.not_mem_nil, or_false, or_self] at hj
  subst hj
  exact ⟨_, treeParts_dist⟩

/-- One triangle on each of two processes, with nothing in common. -/
theorem apart_dist {fam : CellType → ElementDofs} {nd : Nat → Nat → Nat} (h : ∀ r, r < 2 → FamilyOn (treeParts r) fam nd) :
    Distributed 2 treeParts fam (fun _ => nd) where
  pos := by decide
  wf r hr := treeParts_wf r (by omega)
  family := h
  ghost := by
    intro r hr d hd e he p i h
    have key : ∀ r, r < 2 → ∀ d, d ≤ 2 → ∀ x ∈ ghostsOf (treeParts r) d, False := by
      intro r hr
      have : r = 0 ∨ r = 1 := by omega
      rcases this with rfl | rfl <;> apply le2 <;> decide
    exact (key r hr d hd _ (mem_ghostsOf he h)).elim
  ghost_inj := by
    intro r hr d hd e he e' he' p i h h'
    have key : ∀ r, r < 2 → ∀ d, d ≤ 2 → ∀ x ∈ ghostsOf (treeParts r) d, False := by
      intro r hr
      have : r = 0 ∨ r = 1 := by omega
      rcases this with rfl | rfl <;> apply le2 <;> decide
    exact (key r hr d hd _ (mem_ghostsOf he h)).elim

/-- What the two processes send and receive when one creates a continuous space first and the other one a discontinuous one. -/
def crossedTrace (r : Nat) : Trace :=
  let ask : Nat → Trace := fun p => [(.send p [], 6), (.send p [], 6), (.send p [], 6), (.recv p [], 7), (.recv p [], 7),
    (.recv p [], 7), (.send p [], 7), (.send p [], 7), (.recv p [], 8), (.recv p [], 8)]
  if r = 0 then
    [(.send 1 [3], 1), (.recv 1 [4], 5)] ++ ask 1 ++ delay 8 ([(.send 1 [1], 1), (.recv 1 [4], 5)] ++ ask 1)
  else
    [(.recv 0 [3], 2), (.send 0 [4], 4)] ++ ask 0 ++ delay 8 ([(.recv 0 [1], 2), (.send 0 [4], 4)] ++ ask 0)

/-- The programs: process 0 creates the continuous space first, process 1 the discontinuous one. -/
def crossed (r : Nat) : Prog (List FunctionSpace) :=
  createSpaces r 2 (if r = 0 then [(treeParts 0, p1), (treeParts 0, dp0)] else [(treeParts 1, dp0), (treeParts 1, p1)])

theorem crossed_matching : Matching 2 crossedTrace where
  dst := by
    intro r hr d m τ h
    have : ∀ r, r < 2 → ∀ x ∈ crossedTrace r, x.1.partner < 2 := by
      intro r hr
      have : r = 0 ∨ r = 1 := by omega
      rcases this with rfl | rfl <;> decide
    exact this r hr _ h
  src := by
    intro r hr s m τ h
    have : ∀ r, r < 2 → ∀ x ∈ crossedTrace r, x.1.partner < 2 := by
      intro r hr
      have : r = 0 ∨ r = 1 := by omega
      rcases this with rfl | rfl <;> decide
    exact this r hr _ h
  chan := by
    intro s d hs hd
    have hs : s = 0 ∨ s = 1 := by omega
    have hd : d = 0 ∨ d = 1 := by omega
    rcases hs with rfl | rfl <;> rcases hd with rfl | rfl <;> simp [crossedTrace, sendsTo, recvsFrom, delay]
  sorted := by
    intro r hr
    have : r = 0 ∨ r = 1 := by omega
    rcases this with rfl | rfl <;> decide

/-- **C69 needs the same order on all processes.** Process 0 creates a continuous and then a discontinuous space, process 1 the
discontinuous one first. Every execution ends without panic or hanging, but in the continuous spaces `s0`, `s1` that they have got
two DOFs owned by different processes have the same global number: the spaces are not those of any execution in which the processes
agree. -/
theorem C69_order_matters :
    ∃ s0 d0 s1 d1 : FunctionSpace,
      (∀ k c, Config.Reach (Config.Step 2) k (Config.init crossed) c →
        (∀ r, r < 2 → c.prog r ≠ .panic) ∧
          ((∃ c', Config.Step 2 c c') ∨ (c.prog 0 = .done [s0, d0] ∧ c.prog 1 = .done [d1, s1]))) ∧
      (s0.ownership 1 = some .owned ∧ s0.globalDofIndex 1 = some 1 ∧
        s1.ownership 0 = some .owned ∧ s1.globalDofIndex 0 = some 1) ∧
      ∀ sp, Finished 2 treeParts p1 sp → ¬ (sp 0 = s0 ∧ sp 1 = s1) := by
  have h0 : ∃ s0 d0, follow (crossed 0) (crossedTrace 0) = some [s0, d0] ∧ s0.ownership 1 = some .owned ∧
      s0.globalDofIndex 1 = some 1 := ⟨_, _, rfl, by decide, by decide⟩
  have h1 : ∃ d1 s1, follow (crossed 1) (crossedTrace 1) = some [d1, s1] ∧ s1.ownership 0 = some .owned ∧
      s1.globalDofIndex 0 = some 1 := ⟨_, _, rfl, by decide, by decide⟩
  obtain ⟨s0, d0, hf0, ho0, hg0⟩ := h0
  obtain ⟨d1, s1, hf1, ho1, hg1⟩ := h1
  refine ⟨s0, d0, s1, d1, ?_, ⟨ho0, hg0, ho1, hg1⟩, ?_⟩
  · intro k c hk
    have hP : ∀ r, r < 2 → Runs (crossed r) (crossedTrace r) (if r = 0 then [s0, d0] else [d1, s1]) := by
      intro r hr
      have : r = 0 ∨ r = 1 := by omega
      rcases this with rfl | rfl
      · exact follow_runs hf0
      · exact follow_runs hf1
    obtain ⟨pre, suf, inv, -⟩ := net_reach crossed_matching hP hk rfl
    refine ⟨?_, ?_⟩
    · intro r hr h
      have := inv.runs r hr
      rw [h] at this
      cases this
    · rcases net_progress crossed_matching inv with h | h
      · exact Or.inl h
      · exact Or.inr ⟨h 0 (by decide), h 1 (by decide)⟩
  · rintro sp hsp ⟨rfl, rfl⟩
    have dist : Distributed 2 treeParts p1 fun _ d _ => if d = 0 then 1 else 0 :=
      apart_dist fun r hr => treeParts_dist.family r (by omega)
    obtain ⟨total, -, hlt, huniq⟩ := C19_global_numbering dist hsp
    obtain ⟨x, -, hx⟩ := huniq 1 (hlt 0 (by decide) 1 1 ho0 hg0)
    have e0 := hx (0, 1) ⟨by decide, ho0, hg0⟩
    have e1 := hx (1, 0) ⟨by decide, ho1, hg1⟩
    rw [← e1] at e0
    cases e0

end Bempp
