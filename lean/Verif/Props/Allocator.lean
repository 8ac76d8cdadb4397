import Verif.Proofs.Allocator
import Verif.Props.CInterface
/-
C111: C programs when the addresses of freed objects are used again.
-/
set_option linter.unusedVariables false
namespace Bempp

variable {Γ Φ R T : Type}

section
variable [Zero T] [Add T] [Sub T] [Mul T] [Div T] [Neg T] [Zero R] [Mul R] {newSpace : Γ → Φ → Option (Space R T)}
  {kernel : DType → Kernel R T} {env : DType → Env R T} {gives : CHeap Γ Φ T → CVars → Nat → Prop}

/-- **C111.** Whichever free addresses the allocator gives out, a disciplined program gets the results that it would get if everything
behind its pointers were a value; only the addresses in the results are those that the allocator chose. -/
theorem C111_any_allocator (ok : AllocatorOk gives) {calls : List (CCall Γ Φ R T)}
    (hd : Disciplined newSpace kernel env CValues.start calls) {h : CHeap Γ Φ T} {vars : CVars} {rs : List (Ffi (CResult T))}
    (hr : CAllocRuns newSpace kernel env gives CHeap.start [] calls h vars rs) :
    ∃ v rs₀, CMeans newSpace kernel env CValues.start calls v rs₀ ∧ rs = rs₀.map (Ffi.at vars) := by
  obtain ⟨_, v, rs₀, hm, -, -, e⟩ := Placed.runs ok hr Placed.start StandFor.start hd
  exact ⟨v, rs₀, hm, e⟩

/-- **C111.** All of these results occur, unless the allocator has no address to give. -/
theorem C111_exists (ok : AllocatorOk gives) (full : NeverFull gives) {calls : List (CCall Γ Φ R T)}
    (hd : Disciplined newSpace kernel env CValues.start calls) {v : CValues Γ Φ R T} {rs₀ : List (Ffi (CResult T))}
    (hm : CMeans newSpace kernel env CValues.start calls v rs₀) :
    ∃ h vars, CAllocRuns newSpace kernel env gives CHeap.start [] calls h vars (rs₀.map (Ffi.at vars)) :=
  Placed.means ok full hm Placed.start StandFor.start hd

/-- **C111.** Two allocators: for each run with the one there is a run with the other that differs only in the addresses. -/
theorem C111_two_allocators {gives' : CHeap Γ Φ T → CVars → Nat → Prop} (ok : AllocatorOk gives) (ok' : AllocatorOk gives')
    (full' : NeverFull gives') {calls : List (CCall Γ Φ R T)} (hd : Disciplined newSpace kernel env CValues.start calls)
    {h : CHeap Γ Φ T} {vars : CVars} {rs : List (Ffi (CResult T))}
    (hr : CAllocRuns newSpace kernel env gives CHeap.start [] calls h vars rs) :
    ∃ (h' : CHeap Γ Φ T) (vars' : CVars) (rs' rs₀ : List (Ffi (CResult T))),
      CAllocRuns newSpace kernel env gives' CHeap.start [] calls h' vars' rs' ∧
      rs = rs₀.map (Ffi.at vars) ∧ rs' = rs₀.map (Ffi.at vars') := by
  obtain ⟨v, rs₀, hm, e⟩ := C111_any_allocator ok hd hr
  obtain ⟨h', vars', hr'⟩ := C111_exists ok' full' hd hm
  exact ⟨h', vars', _, rs₀, hr', e, rfl⟩

/-- **C111.** No call of a disciplined program has undefined behaviour with any allocator. -/
theorem C111_defined (ok : AllocatorOk gives) {calls : List (CCall Γ Φ R T)}
    (hd : Disciplined newSpace kernel env CValues.start calls) {h : CHeap Γ Φ T} {vars : CVars} {rs : List (Ffi (CResult T))}
    (hr : CAllocRuns newSpace kernel env gives CHeap.start [] calls h vars rs) : ∀ r ∈ rs, r = .panic ∨ ∃ x, r = .ok x := by
  obtain ⟨v, rs₀, hm, rfl⟩ := C111_any_allocator ok hd hr
  obtain ⟨h', hr'⟩ := (C97_values hd rs₀).mpr ⟨v, hm⟩
  intro r hr₀
  obtain ⟨r₀, hmem, rfl⟩ := List.mem_map.mp hr₀
  rcases C97_defined hd hr' r₀ hmem with rfl | ⟨x, rfl⟩
  · exact .inl rfl
  · exact .inr ⟨_, rfl⟩

/-- **C111.** What is in memory after a disciplined program is what it made and did not free, each object at an address of its own. -/
theorem C111_memory (ok : AllocatorOk gives) {calls : List (CCall Γ Φ R T)}
    (hd : Disciplined newSpace kernel env CValues.start calls) {h : CHeap Γ Φ T} {vars : CVars} {rs : List (Ffi (CResult T))}
    (hr : CAllocRuns newSpace kernel env gives CHeap.start [] calls h vars rs) :
    ∃ v rs₀, CMeans newSpace kernel env CValues.start calls v rs₀ ∧ rs = rs₀.map (Ffi.at vars) ∧
      (∀ a, h.live a ≠ none ↔ ∃ k, v.value k ≠ none ∧ vars.address k = a) ∧
      ∀ k l, v.value k ≠ none → v.value l ≠ none → vars.address k = vars.address l → k = l := by
  obtain ⟨h₀, v, rs₀, hm, s, p, e⟩ := Placed.runs ok hr Placed.start StandFor.start hd
  have hv : ∀ k, v.value k ≠ none ↔ h₀.live k ≠ none := fun k => not_congr (s.all k).none_iff.symm
  refine ⟨v, rs₀, hm, e, fun a => ⟨fun ha => ?_, ?_⟩, fun k l hk hl => p.inj k l ((hv k).mp hk) ((hv l).mp hl)⟩
  · obtain ⟨k, hk, hka⟩ := p.only a ha
    exact ⟨k, (hv k).mpr hk, hka⟩
  · rintro ⟨k, hk, rfl⟩
    obtain ⟨o, ho⟩ := Option.ne_none_iff_exists'.mp ((hv k).mp hk)
    rw [p.live k o ho]
    simp

end

section
open Classical in
theorem leastFree_ok : AllocatorOk (leastFree (Γ := Γ) (Φ := Φ) (T := T)) ∧ NeverFull (leastFree (Γ := Γ) (Φ := Φ) (T := T)) := by
  refine ⟨fun h vars a ha => ha.1, fun h vars ⟨n, hn⟩ => ?_⟩
  have he : ∃ a, h.live a = none := ⟨n, hn n le_rfl⟩
  exact ⟨Nat.find he, Nat.find_spec he, fun b hb => Nat.find_min he hb⟩

theorem neverAgain_ok : AllocatorOk (neverAgain (Γ := Γ) (Φ := Φ) (T := T)) ∧ NeverFull (neverAgain (Γ := Γ) (Φ := Φ) (T := T)) := by
  refine ⟨fun h vars a ha => ha.1, fun h vars ⟨n, hn⟩ => ⟨n + vars.sum + 1, hn _ (by omega), fun hm => ?_⟩⟩
  have := List.le_sum_of_mem hm
  omega
end

section
variable [Zero T] [Add T] [Sub T] [Mul T] [Div T] [Neg T] [Zero R] [Mul R] {newSpace : Γ → Φ → Option (Space R T)}
  {kernel : DType → Kernel R T} {env : DType → Env R T}

theorem firstStep {h : CHeap Γ Φ T} (hz : h.live 0 = none) (vars : CVars) : leastFree h vars 0 :=
  ⟨hz, fun b hb => absurd hb (Nat.not_lt_zero b)⟩

/-- **C111.** Without discipline it does matter: a program that uses options after it freed them has undefined behaviour; where it happens
not to crash, it silently reads other options, those that were made later at the same address. -/
theorem C111_use_after_free (n : Nat) :
    (∃ h, CRuns newSpace kernel env CHeap.start
      [.newOptions, .free .options (some 0), .newOptions, .setOptions 1 (.batch n), .getOptions 0 .batch] h
      [.ok (.handle 0), .ok .nothing, .ok (.handle 1), .ok .nothing, .undefined]) ∧
    ∃ h : CHeap Γ Φ T, CAllocRuns newSpace kernel env leastFree CHeap.start []
      [.newOptions, .free .options (some 0), .newOptions, .setOptions 1 (.batch n), .getOptions 0 .batch] h [0, 0]
      [.ok (.handle 0), .ok .nothing, .ok (.handle 0), .ok .nothing, .ok (.nat n)] := by
  let o : CObj Γ Φ T := .options Options.default
  let o' : CObj Γ Φ T := .options (Options.default.setBatchSize n)
  constructor
  · let h1 : CHeap Γ Φ T := CHeap.start.alloc o
    let h2 : CHeap Γ Φ T := h1.store 0 none
    let h3 : CHeap Γ Φ T := h2.alloc o
    let h4 : CHeap Γ Φ T := h3.store 1 (some o')
    have nb : ¬ h3.Borrowed 1 := by
      rintro ⟨q, e, op, d, hq⟩
      rcases q with _ | _ | q <;> simp [h3, h2, h1, o, CHeap.alloc, CHeap.store, CHeap.start] at hq
    have hr : h3.readOptions 1 = .ok Options.default := rfl
    refine ⟨h4, .returned (h' := h1) rfl (.returned (h' := h2) rfl (.returned (h' := h3) rfl
      (.returned (h' := h4) ?_ (.ended (h' := h4) rfl (by simp)))))⟩
    simp [CCall.Step, CHeap.call, hr, nb, h4, o', OptionChange.apply]
  · let g1 : CHeap Γ Φ T := CHeap.start.alloc o
    let g2 : CHeap Γ Φ T := ({ g1 with next := 1 } : CHeap Γ Φ T).store 0 none
    let g3 : CHeap Γ Φ T := ({ g2 with next := 0 } : CHeap Γ Φ T).alloc o
    let g4 : CHeap Γ Φ T := ({ g3 with next := 1 } : CHeap Γ Φ T).store 0 (some o')
    have free1 : ∀ {h : CHeap Γ Φ T} {vars}, h.live 1 = none → h.live 0 ≠ none → leastFree h vars 1 := by
      intro h vars h1 h0
      refine ⟨h1, fun b hb => ?_⟩
      obtain rfl : b = 0 := by omega
      exact h0
    have nb : ¬ ({ g3 with next := 1 } : CHeap Γ Φ T).Borrowed 0 := by
      rintro ⟨q, e, op, d, hq⟩
      rcases q with _ | _ | q <;> simp [g3, g2, g1, o, CHeap.alloc, CHeap.store, CHeap.start] at hq
    have hr : ({ g3 with next := 1 } : CHeap Γ Φ T).readOptions 0 = .ok Options.default := rfl
    refine ⟨{ g4 with next := 1 }, .returned (h' := g1) (a := 0) (firstStep rfl _) rfl
      (.returned (h' := g2) (a := 1) (free1 rfl (by simp [g1, CHeap.alloc, CHeap.start])) rfl
        (.returned (h' := g3) (a := 0) (firstStep rfl _) rfl
          (.returned (h' := g4) (a := 1) (free1 rfl (by simp [g3, CHeap.alloc])) ?_
            (.returned (h' := { g4 with next := 1 }) (a := 1) (free1 rfl (by simp [g4, CHeap.store])) rfl (.nil _ _)))))⟩
    show (_, _) = CHeap.call newSpace _ (.setOptions 0 (.batch n) : CCall Γ Φ R T)
    simp [CHeap.call, hr, nb, g4, o', OptionChange.apply]

end

open Examples

/-- The octahedron program of C97, with any allocator: the addresses are those in the variables, the rest is as before. -/
example {gives : CHeap Unit Unit Rat → CVars → Nat → Prop} (ok : AllocatorOk gives) : ∃ x : Rat, ∀ h vars rs,
    CAllocRuns octNewSpace (fun _ => kernelOf squareKernel) (fun _ => exEnv) gives CHeap.start [] octProgram h vars rs →
      rs = [.ok (.handle (vars.address 0)), .ok (.handle (vars.address 1)), .ok (.handle (vars.address 2)),
        .ok (.handle (vars.address 3)), .ok .nothing, .ok (.handle (vars.address 4)), .ok (.handle (vars.address 5)),
        .ok .nothing, .ok .nothing, .ok .nothing, .ok .nothing, .ok (.shape (6, 6)),
        .ok (.pointer (vars.address 5) .dense), .ok (.value x)] := by
  obtain ⟨hd, x, hx⟩ := octProgram_results
  refine ⟨x, fun h vars rs hr => ?_⟩
  obtain ⟨v, rs₀, hm, rfl⟩ := C111_any_allocator ok hd hr
  rw [(hx rs₀).mp ((C97_values hd rs₀).mpr ⟨v, hm⟩)]
  rfl

/-- It does run with the allocator that gives out the least free address. -/
example : ∃ h vars rs,
    CAllocRuns octNewSpace (fun _ => kernelOf squareKernel) (fun _ => exEnv) leastFree CHeap.start [] octProgram h vars rs := by
  obtain ⟨hd, x, hx⟩ := octProgram_results
  obtain ⟨v, hm⟩ := (C97_values hd _).mp ((hx _).mpr rfl)
  obtain ⟨h, vars, hr⟩ := C111_exists leastFree_ok.1 leastFree_ok.2 hd hm
  exact ⟨h, vars, _, hr⟩

end Bempp
