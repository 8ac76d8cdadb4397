import Verif.Proofs.SessionAddresses
import Verif.Props.SessionMisuse
import Verif.Props.Python
import Mathlib.Data.Set.Finite.Lattice
/-
C116: sessions of the Python interface while addresses are used again.
-/
set_option linter.unusedVariables false
set_option linter.unusedSectionVars false
namespace Bempp

variable {R T : Type} [Zero T] [Add T] [Mul T] [Sub T] [Div T] [Neg T] [Zero R] [Mul R]
  {content : Nat → Nat → PyFs R T} {kernel : DType → Kernel R T} {env : DType → Env R T}
  {pick : Picker RustObj} {pickAsm : Picker AsmObj}

/-- **C116.** Whatever addresses the allocator gives, if only they are not in use, the calls of a session end in the ways in which they end if
every object gets a new address. -/
theorem C116_results (hp : pick.Honest) (hpa : pickAsm.Honest) (calls : List SessionCall) (rs : List (Ffi (PyValue T))) :
    (∃ s, SessionRunsAt pick pickAsm content kernel env PySession.start calls s rs) ↔
      ∃ s, SessionRuns content kernel env PySession.start calls s rs := by
  constructor
  · rintro ⟨t, h⟩
    obtain ⟨s, -, -, hs, -⟩ := SessSim.start.runs (Agrees.start kernel) hp hpa h
    exact ⟨s, hs⟩
  · rintro ⟨s, h⟩
    exact SessSim.start.back (Agrees.start kernel) hp hpa h

/-- **C116.** They are those of a session in which everything is a value, so that they do not depend on the allocator. -/
theorem C116_values (hp : pick.Honest) (hpa : pickAsm.Honest) (calls : List SessionCall) (rs : List (Ffi (PyValue T))) :
    (∃ s, SessionRunsAt pick pickAsm content kernel env PySession.start calls s rs) ↔
      ∃ v, SessionMeans content kernel env Values.start calls v rs :=
  (C116_results hp hpa calls rs).trans (C74_values calls rs)

/-- **C116.** No call of a session uses or frees something that was freed, or something else that is now at its address. -/
theorem C116_defined (hp : pick.Honest) (hpa : pickAsm.Honest) {calls : List SessionCall} {s : PySession} {rs : List (Ffi (PyValue T))}
    (h : SessionRunsAt pick pickAsm content kernel env PySession.start calls s rs) : ∀ r ∈ rs, r ≠ .undefined := by
  obtain ⟨s', hs⟩ := (C116_results hp hpa calls rs).mp ⟨s, h⟩
  exact C74_defined hs

/-- **C116.** What exists after a session: one Rust assembler for each assembler, one Rust options object for each options object, at different
addresses; each assembler refers to the Rust options of the object that it was created with. -/
theorem C116_memory (hp : pick.Honest) (hpa : pickAsm.Honest) {calls : List SessionCall} {s : PySession} {rs : List (Ffi (PyValue T))}
    (h : SessionRunsAt pick pickAsm content kernel env PySession.start calls s rs) :
    (∀ p, s.heap.HasAssembler p ↔ ∃ k y, s.assemblers k = some y ∧ y.rs = p) ∧
    (∀ i j x y, s.assemblers i = some x → s.assemblers j = some y → x.rs = y.rs → i = j) ∧
    (∀ p, s.heap.HasOptions p ↔ ∃ i x, s.options i = some x ∧ x.rs = p) ∧
    (∀ i j x y, s.options i = some x → s.options j = some y → x.rs = y.rs → i = j) ∧
    ∀ k y, s.assemblers k = some y → ∃ op d x, s.heap.live y.rs = some (.assembler op d x.rs) ∧ s.options y.options = some x := by
  obtain ⟨u, τ, v, hu, hs, ha⟩ := SessSim.start.runs (Agrees.start kernel) hp hpa h
  have asm : ∀ k y, s.assemblers k = some y → ∃ z op d x, u.assemblers k = some z ∧ y = z.ren τ ∧ u.heap.live z.rs = some (.assembler op d x.rs) ∧
      u.options z.options = some x := by
    intro k y hy
    rw [hs.assemblers k] at hy
    rcases ha.asms k with k1 | ⟨z, a, op', d', x, o, k1, k2, k3, k4, k5, k6, k7⟩
    · rw [k1.1] at hy; cases hy
    · rw [k1] at hy
      cases hy
      exact ⟨z, op', d', x, k1, rfl, k5, k3⟩
  have opt : ∀ i x, s.options i = some x → ∃ z o, u.options i = some z ∧ x = z.ren τ ∧ u.heap.live z.rs = some (.options o) := by
    intro i x hx
    rw [hs.options i] at hx
    rcases ha.opts i with k1 | ⟨z, o, k1, k2, k3, k4⟩
    · rw [k1.1] at hx; cases hx
    · rw [k1] at hx
      cases hx
      exact ⟨z, o, k1, rfl, k3⟩
  refine ⟨fun p => ⟨?_, ?_⟩, ?_, fun p => ⟨?_, ?_⟩, ?_, ?_⟩
  · rintro ⟨op, d, q, e⟩
    obtain ⟨p', hp', rfl⟩ := hs.heap.onto p (by rw [e]; simp)
    obtain ⟨o, ho⟩ := Option.ne_none_iff_exists'.mp hp'
    rw [hs.heap.map p' o ho] at e
    cases o with
    | options => cases e
    | assembler op' d' q' =>
      obtain ⟨k, y, hy, rfl⟩ := ha.aliveA _ _ _ _ ho
      exact ⟨k, y.ren τ, by rw [hs.assemblers k, hy]; rfl, rfl⟩
  · rintro ⟨k, y, hy, rfl⟩
    obtain ⟨z, op, d, x, -, rfl, k3, -⟩ := asm k y hy
    exact ⟨op, d, τ x.rs, hs.heap.map _ _ k3⟩
  · intro i j x y hx hy e
    obtain ⟨z, op, d, w, k1, rfl, k3, -⟩ := asm i x hx
    obtain ⟨z', op', d', w', k1', rfl, k3', -⟩ := asm j y hy
    exact ha.injA i j z z' k1 k1' (hs.heap.inj _ _ (by rw [k3]; simp) (by rw [k3']; simp) e)
  · rintro ⟨o, e⟩
    obtain ⟨p', hp', rfl⟩ := hs.heap.onto p (by rw [e]; simp)
    obtain ⟨o', ho⟩ := Option.ne_none_iff_exists'.mp hp'
    rw [hs.heap.map p' o' ho] at e
    cases o' with
    | assembler => cases e
    | options o' =>
      obtain ⟨i, x, hx, rfl⟩ := ha.aliveO _ _ ho
      exact ⟨i, x.ren τ, by rw [hs.options i, hx]; rfl, rfl⟩
  · rintro ⟨i, x, hx, rfl⟩
    obtain ⟨z, o, -, rfl, k3⟩ := opt i x hx
    exact ⟨o, hs.heap.map _ _ k3⟩
  · intro i j x y hx hy e
    obtain ⟨z, o, k1, rfl, k3⟩ := opt i x hx
    obtain ⟨z', o', k1', rfl, k3'⟩ := opt j y hy
    exact ha.injO i j z z' k1 k1' (hs.heap.inj _ _ (by rw [k3]; simp) (by rw [k3']; simp) e)
  · intro k y hy
    obtain ⟨z, op, d, x, k1, rfl, k3, k4⟩ := asm k y hy
    exact ⟨op, d, x.ren τ, hs.heap.map _ _ k3, by rw [show (z.ren τ).options = z.options from rfl, hs.options, k4]; rfl⟩

/-- **C116.** The spaces after a session are those that the program made and did not delete. The Rust space, grid and family of each exist, are
of the right kind and refer to each other; spaces have different addresses; and all that exists belongs to a space or is kept by a grid or
family. -/
theorem C116_spaces (hp : pick.Honest) (hpa : pickAsm.Honest) {calls : List SessionCall} {s : PySession} {rs : List (Ffi (PyValue T))}
    (h : SessionRunsAt pick pickAsm content kernel env PySession.start calls s rs) :
    s.py.spaces.map (fun e => (e.1, e.2.grid, e.2.family)) = (Ledger.start.run (spaceCalls (calls.take rs.length))).spaces ∧
    (∀ e ∈ s.py.spaces, s.py.Alive e) ∧ (s.py.spaces.map fun e => e.2.rsSpace).Nodup ∧
    ∀ q, s.py.heap.live q ≠ none → (∃ g, (s.py.grids g).rs = some q) ∨ (∃ f, (s.py.families f).rs = some q) ∨
      ∃ e ∈ s.py.spaces, e.2.rsSpace = q := by
  obtain ⟨u, τ, v, hu, hs, ha⟩ := SessSim.start.runs (Agrees.start kernel) hp hpa h
  obtain ⟨σ, hσ⟩ := hs.py
  obtain ⟨w, hw, ha', -⟩ := (Agrees.start kernel).runs hu
  obtain ⟨cg, cf, inv, -, -⟩ := ha.booked.good.inv
  have gr : ∀ g, (s.py.grids g).rs = ((u.py.grids g).rs).map σ := fun g => by rw [(hσ.grids g).ren]; rfl
  have fr : ∀ f, (s.py.families f).rs = ((u.py.families f).rs).map σ := fun f => by rw [(hσ.families f).ren]; rfl
  have kind : ∀ {k c} {pool : Nat → Shared}, Pool k u.py.heap.live pool c → ∀ i p, (pool i).rs = some p → u.py.heap.live p = some k := by
    intro k c pool hk i p e
    rcases hk.entry i with ⟨h1, -⟩ | ⟨q, h1, h2, -⟩
    · rw [h1] at e; cases e
    · rw [h1] at e; cases e; exact h2
  refine ⟨?_, ?_, ?_, ?_⟩
  · rw [hσ.spaces, List.map_map]
    have e : w.ledger = Ledger.start.run (spaceCalls (calls.take rs.length)) := hw.ledger
    rw [← e, ← ha'.booked.spaces]
    rfl
  · intro e he
    rw [hσ.spaces] at he
    obtain ⟨e', he', rfl⟩ := List.mem_map.mp he
    obtain ⟨p, q, h1, h2, h3⟩ := inv.spaces e' he'
    exact ⟨σ p, σ q, hσ.heap.ren.map _ _ h1, hσ.heap.ren.map _ _ (kind inv.grids _ _ h2), hσ.heap.ren.map _ _ (kind inv.families _ _ h3),
      (gr e'.2.grid).trans (congrArg _ h2), (fr e'.2.family).trans (congrArg _ h3)⟩
  · rw [hσ.spaces, List.map_map]
    have e : (u.py.spaces.map ((fun e => e.2.rsSpace) ∘ fun e : Nat × PySpace => (e.1, e.2.ren σ))) =
        (u.py.spaces.map fun e => e.2.rsSpace).map σ := by rw [List.map_map]; rfl
    rw [e]
    have alive : ∀ p ∈ u.py.spaces.map (fun e => e.2.rsSpace), u.py.heap.live p ≠ none := by
      intro p hp
      obtain ⟨e, he, rfl⟩ := List.mem_map.mp hp
      obtain ⟨p, q, h1, -⟩ := inv.spaces e he
      rw [h1]
      simp
    exact inv.ptrs.map_on fun p hp q hq e => hσ.heap.ren.inj p q (alive p hp) (alive q hq) e
  · intro q hq
    obtain ⟨p, hp', rfl⟩ := hσ.heap.ren.onto q hq
    obtain ⟨o, ho⟩ := Option.ne_none_iff_exists'.mp hp'
    rcases inv.alive p o ho with ⟨g, k⟩ | ⟨f, k⟩ | ⟨e, he, k⟩
    · exact .inl ⟨g, by rw [gr, k]; rfl⟩
    · exact .inr (.inl ⟨f, by rw [fr, k]; rfl⟩)
    · refine .inr (.inr ⟨(e.1, e.2.ren σ), ?_, ?_⟩)
      · rw [hσ.spaces]
        exact List.mem_map.mpr ⟨e, he, rfl⟩
      · exact congrArg σ k

open Classical in
/-- An allocator that gives the smallest address that is not in use, as many do. -/
noncomputable def smallestFree {α : Type} : Picker α := fun _ live => if h : ∃ p, live p = none then Nat.find h else 0

theorem smallestFree_honest {α : Type} : (smallestFree (α := α)).Honest := by
  intro n live hf
  have h : ∃ p, live p = none := by
    by_contra hc
    have : {p | live p ≠ none} = Set.univ := Set.eq_univ_of_forall fun p e => hc ⟨p, e⟩
    rw [this] at hf
    exact Set.infinite_univ hf
  unfold smallestFree
  rw [dif_pos h]
  classical
  exact Nat.find_spec h

theorem smallestFree_eq {α : Type} {n p : Nat} {live : Nat → Option α} (hp : live p = none) (h : ∀ q, q < p → live q ≠ none) :
    smallestFree n live = p := by
  unfold smallestFree
  rw [dif_pos ⟨p, hp⟩]
  classical
  exact (Nat.find_eq_iff _).mpr ⟨hp, fun q hq => h q hq⟩

/-- With this allocator the second assembler gets the address that the first had. -/
example : ∃ s s', SessionRunsAt smallestFree smallestFree content kernel env PySession.start [.createLaplace .singleLayer 0 (some .f64)] s
      [.ok .nothing] ∧
    SessionRunsAt smallestFree smallestFree content kernel env PySession.start
      [.createLaplace .singleLayer 0 (some .f64), .deleteAssembler 0, .createLaplace .doubleLayer 0 (some .f32), .dtype 1, .dtype 0] s'
      [.ok .nothing, .ok .nothing, .ok .nothing, .ok (.dtype .f32), .raised] ∧
    s.assemblers 0 = some ⟨0, 1⟩ ∧ s'.assemblers 1 = some ⟨0, 1⟩ ∧ s'.assemblers 0 = none := by
  have e1 : smallestFree (PySession.start).heap.next (PySession.start).heap.live = 1 :=
    smallestFree_eq rfl (fun q hq => by
      obtain rfl : q = 0 := by omega
      exact fun e => by cases e)
  let s1 : PySession := { PySession.start with
    heap := ⟨2, fun p => if p = 1 then some (.assembler .singleLayer .f64 0) else PySession.start.heap.live p⟩
    options := fun j => if j = 0 then some ⟨true, 0⟩ else PySession.start.options j
    assemblers := fun k => if k = 0 then some ⟨0, 1⟩ else none
    nextAssembler := 1 }
  have h1 : (SessionCall.createLaplace .singleLayer 0 (some .f64)).StepAt smallestFree smallestFree content kernel env PySession.start s1
      (.ok .nothing) := by
    change _ = PySession.createLaplaceAt _ _ _ _ _ _
    have : PySession.start.heap.allocAt smallestFree (.assembler .singleLayer .f64 0) = (s1.heap, 1) := by
      unfold AsmHeap.allocAt
      rw [e1]
      rfl
    unfold PySession.createLaplaceAt
    simp only [show PySession.start.options 0 = some ⟨false, 0⟩ from rfl, show PySession.start.heap.readOptions 0 = .ok Options.default from rfl,
      createLaplaceAssembler, this]
    rfl
  let s2 : PySession := { s1 with
    heap := ⟨2, fun q => if q = 1 then none else s1.heap.live q⟩
    assemblers := fun j => if j = 0 then none else s1.assemblers j }
  have h2 : (SessionCall.deleteAssembler 0).StepAt smallestFree smallestFree content kernel env s1 s2 (.ok .nothing) := ⟨rfl, rfl⟩
  have e2 : smallestFree s2.heap.next s2.heap.live = 1 :=
    smallestFree_eq rfl (fun q hq => by
      obtain rfl : q = 0 := by omega
      exact fun e => by cases e)
  let s3 : PySession := { s2 with
    heap := ⟨3, fun p => if p = 1 then some (.assembler .doubleLayer .f32 0) else s2.heap.live p⟩
    options := fun j => if j = 0 then some ⟨true, 0⟩ else s2.options j
    assemblers := fun k => if k = 1 then some ⟨0, 1⟩ else s2.assemblers k
    nextAssembler := 2 }
  have h3 : (SessionCall.createLaplace .doubleLayer 0 (some .f32)).StepAt smallestFree smallestFree content kernel env s2 s3
      (.ok .nothing) := by
    change _ = PySession.createLaplaceAt _ _ _ _ _ _
    have : s2.heap.allocAt smallestFree (.assembler .doubleLayer .f32 0) = (s3.heap, 1) := by
      unfold AsmHeap.allocAt
      rw [e2]
    unfold PySession.createLaplaceAt
    simp only [show s2.options 0 = some ⟨true, 0⟩ from rfl, show s2.heap.readOptions 0 = .ok Options.default from rfl,
      createLaplaceAssembler, this]
    rfl
  refine ⟨s1, s3, .returned h1 (by simp) (.nil _), .returned h1 (by simp) (.returned h2 (by simp) (.returned h3 (by simp)
    (.returned (show _ ∧ _ from ⟨rfl, rfl⟩) (by simp) (.returned (show _ ∧ _ from ⟨rfl, rfl⟩) (by simp) (.nil _))))), rfl, rfl, rfl⟩

/-- An allocator that gives addresses that are in use does not keep the promise, and then two options objects share one memory: the change of one
is seen through the other. -/
example : ∃ s, SessionRunsAt (R := R) (T := T) pick (fun _ _ => 0) content kernel env PySession.start [.newOptions, .setBatch 1 7, .getBatch 0] s
    [.ok .nothing, .ok .nothing, .ok (.nat 7)] :=
  ⟨_, .returned ⟨rfl, rfl⟩ (by simp) (.returned (show _ = _ from rfl) (by simp) (.returned ⟨rfl, rfl⟩ (by simp) (.nil _)))⟩

end Bempp
