import Verif.Proofs.PyApart
import Verif.Props.Python
/-
C117: calls of the Python interface that overlap.
-/
namespace Bempp

/-- A call that nothing interrupts ends as `Model/Python` says, after any calls before it: the model in small steps describes the same calls. -/
theorem C117_alone (calls : List PyCall) : ∃ s, runPy Py.start calls = some s ∧ ∀ c : PyCall, c.EndsAs s (c.run s) := by
  obtain ⟨s, e, _, h, _⟩ := C37_never_freed_early calls
  refine ⟨s, e, fun c => ?_⟩
  cases c with
  | create g f gridOk familyOk => exact create_ends s g f gridOk familyOk
  | delete k =>
    obtain ⟨⟨s', d, _⟩, _⟩ := h k
    rw [d]
    exact delete_ends d
  | use k => exact use_ends s k

/-- `function_space` and the methods of a space that nothing interrupts end as `Model/Python` says in every state, also if this is undefined. -/
theorem C117_alone_everywhere (s : Py) :
    (∀ g f gridOk familyOk, (PyCall.create g f gridOk familyOk).EndsAs s ((PyCall.create g f gridOk familyOk).run s)) ∧
    (∀ k, (PyCall.use k).EndsAs s ((PyCall.use k).run s)) ∧
    ∀ k s', (PyCall.delete k).run s = .done s' → (PyCall.delete k).EndsAs s (.done s') :=
  ⟨fun g f gridOk familyOk => create_ends s g f gridOk familyOk, fun k => use_ends s k, fun _ _ e => delete_ends e⟩

/-- Calls may overlap in any way, any number of them, if those that make or delete spaces are not on the same grid or the same family and no space is
deleted while it is used; the methods of spaces may overlap with everything else. No call is ever undefined, a call
raises only when it tries a conversion that fails, and at every moment the Rust space, grid and family of each space exist and belong together. -/
theorem C117_apart {s : PyProcess} (h : PyProcess.start.ApartSteps s) : ¬s.Undefined ∧
    (∀ pc ∈ s.calls, ∃ py pc', pc.step s.py = some (py, pc') ∧ pc.RaisesOnly pc') ∧
    (∀ e ∈ s.py.spaces, s.py.Alive e) ∧ (s.py.spaces.map fun e => e.2.rsSpace).Nodup := by
  obtain ⟨ap, own, lk, inv⟩ := apart_inv h
  have next : ∀ pc ∈ s.calls, ∃ py pc', pc.step s.py = some (py, pc') ∧ pc.RaisesOnly pc' := by
    intro pc hpc
    obtain ⟨j, hj⟩ := List.getElem?_of_mem hpc
    obtain ⟨py, pc', _, _, h1, _, h2⟩ := inv.next ap hj
    exact ⟨py, pc', h1, h2⟩
  refine ⟨?_, next, ?_, List.pairwise_map.mpr (inv.nodup.imp fun h => h.2)⟩
  · rintro ⟨pc, hpc, hs⟩
    obtain ⟨py, pc', h1, _⟩ := next pc hpc
    rw [hs] at h1
    cases h1
  · intro e he
    obtain ⟨p, q, h1, h2, h3⟩ := inv.spaces e he
    obtain ⟨p', k1, k2⟩ := inv.alive he .grid
    obtain ⟨q', k3, k4⟩ := inv.alive he .family
    have e1 : some p = some p' := h2.symm.trans k1
    have e2 : some q = some q' := h3.symm.trans k3
    cases e1
    cases e2
    exact ⟨p, q, h1, k2, k4, h2, h3⟩

/-- When calls that were apart are all over, nothing is lost: every Rust grid, family and space is known to exactly the Python objects that it was made
for. If no call raised, a grid or family has a Rust object just if there is a space on it, and its count is the number of these spaces: as if
the calls had come one after the other (`C66_what_exists`). -/
theorem C117_apart_memory {s : PyProcess} (h : PyProcess.start.ApartSteps s) (ho : ∀ pc ∈ s.calls, ∃ b, pc = .over b) :
    (∀ p, s.py.heap.live p = some .grid ↔ ∃ g, (s.py.grids g).rs = some p) ∧
    (∀ p, s.py.heap.live p = some .family ↔ ∃ f, (s.py.families f).rs = some p) ∧
    (∀ r, (∃ p q, s.py.heap.live r = some (.space p q)) ↔ ∃ e ∈ s.py.spaces, e.2.rsSpace = r) ∧
    ((∀ pc ∈ s.calls, pc = .over false) →
      (∀ g, ((s.py.grids g).rs = none ↔ ∀ e ∈ s.py.spaces, e.2.grid ≠ g) ∧
        ∀ p, (s.py.grids g).rs = some p → (s.py.grids g).refcount = some ↑(s.py.spaces.countP fun e => e.2.grid == g)) ∧
      ∀ f, ((s.py.families f).rs = none ↔ ∀ e ∈ s.py.spaces, e.2.family ≠ f) ∧
        ∀ p, (s.py.families f).rs = some p → (s.py.families f).refcount = some ↑(s.py.spaces.countP fun e => e.2.family == f)) := by
  obtain ⟨ap, own, lk, inv⟩ := apart_inv h
  have base : ∀ w i, s.py.Base lk w i := by
    refine fun w i => inv.idle w i fun j pc hj => ?_
    obtain ⟨b, rfl⟩ := ho pc (List.mem_of_getElem? hj)
    exact nofun
  have live : ∀ w i p, (s.py.shared w i).rs = some p → s.py.heap.live p = some w.kind := by
    intro w i p hp
    rcases base w i with ⟨k, _⟩ | ⟨p', k, _⟩
    · rw [hp] at k
      cases k
    · have := k.1
      rw [hp] at this
      cases this
      exact k.2
  have known : ∀ p o, s.py.heap.live p = some o → s.py.Knows p := by
    intro p o hp
    rcases inv.known p o hp with k | ⟨j, pc, k1, k2⟩
    · exact k
    · obtain ⟨b, rfl⟩ := ho pc (List.mem_of_getElem? k1)
      cases k2
  have exact1 : ∀ w p, s.py.heap.live p = some (Which.kind w) ↔ ∃ i, (s.py.shared w i).rs = some p := by
    intro w p
    constructor
    · intro hp
      rcases known p _ hp with ⟨w', i, k⟩ | ⟨e, he, k⟩
      · have := live w' i p k
        rw [hp] at this
        cases w <;> cases w'
        · exact ⟨i, k⟩
        · cases this
        · cases this
        · exact ⟨i, k⟩
      · obtain ⟨p', q', k1, _⟩ := inv.spaces e he
        rw [k, hp] at k1
        exact absurd (Option.some.inj k1) (Which.kind_ne _ _ _)
    · rintro ⟨i, k⟩
      exact live w i p k
  have exact2 : (∀ pc ∈ s.calls, pc = .over false) → ∀ w i, ((s.py.shared w i).rs = none ↔ ∀ e ∈ s.py.spaces, e.2.which w ≠ i) ∧
      ∀ p, (s.py.shared w i).rs = some p → (s.py.shared w i).refcount = some ↑(s.py.count w i) := by
    intro ok w i
    have hlk : lk w i = 0 := by
      by_cases e : lk w i = 0
      · exact e
      · cases ok _ (inv.raised ⟨w, i, e⟩)
    rcases base w i with ⟨k1, k2⟩ | ⟨p', k1, c, k2, k3, k4⟩
    · refine ⟨⟨fun _ => Py.count_zero (Py.total_zero k2), fun _ => k1⟩, fun p hp => ?_⟩
      rw [k1] at hp
      cases hp
    · have hc : (s.py.count w i : Int) = c := by
        rw [← k4]
        unfold Py.total
        rw [hlk, Nat.add_zero]
      refine ⟨⟨fun hn => ?_, fun hn => ?_⟩, fun _ _ => by rw [k2, hc]⟩
      · rw [k1.1] at hn
        cases hn
      · have : s.py.count w i = 0 := List.countP_eq_zero.mpr fun e he => by simpa using hn e he
        omega
  refine ⟨exact1 .grid, exact1 .family, ?_, fun ok => ⟨exact2 ok .grid, exact2 ok .family⟩⟩
  intro r
  constructor
  · rintro ⟨p, q, hp⟩
    rcases known r _ hp with ⟨w, i, k⟩ | k
    · have := live w i r k
      rw [hp] at this
      exact absurd (Option.some.inj this).symm (Which.kind_ne _ _ _)
    · exact k
  · rintro ⟨e, he, rfl⟩
    obtain ⟨p, q, k, _⟩ := inv.spaces e he
    exact ⟨p, q, k⟩

/-- Two calls that work on different grids and families. -/
def apart2 (a b : PyPc) : Bool :=
  ([Which.grid, Which.family].all fun w => a.uses w == none || a.uses w != b.uses w) &&
  match a, b.deletes with
  | .use x, some y => x.rsSpace != y.rsSpace
  | _, _ => true

theorem apart2_spec {a b : PyPc} (h : apart2 a b = true) :
    (∀ w n, a.uses w = some n → b.uses w ≠ some n) ∧ ∀ x, a = .use x → b.deletes ≠ some x := by
  unfold apart2 at h
  rw [Bool.and_eq_true] at h
  constructor
  · intro w n e e'
    have : (a.uses w == none || a.uses w != b.uses w) = true := by
      refine List.all_eq_true.mp h.1 w ?_
      cases w <;> simp
    rw [e, e'] at this
    simp at this
  · rintro x rfl e
    have := h.2
    rw [e] at this
    simp at this

/-- Every two of the calls are apart. -/
def apartAll (l : List PyPc) : Bool :=
  (List.range l.length).all fun i => (List.range l.length).all fun j =>
    i == j || match l[i]?, l[j]? with
      | some a, some b => apart2 a b
      | _, _ => true

theorem apart_of_apartAll {s : PyProcess} (h : apartAll s.calls = true) : s.Apart := by
  intro i j pc pc' hi hj hij
  have hi' := (List.getElem?_eq_some_iff.mp hi).1
  have hj' := (List.getElem?_eq_some_iff.mp hj).1
  have := List.all_eq_true.mp (List.all_eq_true.mp h i (List.mem_range.mpr hi')) j (List.mem_range.mpr hj')
  rw [hi, hj, Bool.or_eq_true, beq_iff_eq] at this
  exact apart2_spec (this.resolve_left hij)

/-- A schedule (`PyProcess.exec`) whose calls are always apart. -/
def execApart : PyProcess → List (PyCall ⊕ Nat) → Option PyProcess
  | s, [] => some s
  | s, .inl c :: l =>
    if apartAll (s.calls ++ [(c.begin s.py).2]) then execApart ⟨(c.begin s.py).1, s.calls ++ [(c.begin s.py).2]⟩ l else none
  | s, .inr i :: l =>
    match s.calls[i]? with
    | none => none
    | some pc =>
      match pc.step s.py with
      | none => none
      | some (py, pc') => if apartAll (s.calls.set i pc') then execApart ⟨py, s.calls.set i pc'⟩ l else none

theorem execApart_steps {l : List (PyCall ⊕ Nat)} {s0 s s' : PyProcess} (h0 : s0.ApartSteps s) (h : execApart s l = some s') :
    s0.ApartSteps s' := by
  induction l generalizing s with
  | nil => cases h; exact h0
  | cons x l ih =>
    cases x with
    | inl c =>
      unfold execApart at h
      split at h
      · rename_i k
        exact ih (h0.step (.begin s c) (apart_of_apartAll k)) h
      · cases h
    | inr i =>
      unfold execApart at h
      split at h
      · cases h
      · rename_i pc e
        split at h
        · cases h
        · rename_i py pc' e'
          split at h
          · rename_i k
            exact ih (h0.step (.step s e e') (apart_of_apartAll k)) h
          · cases h

/-- What `C117_apart` and `C117_apart_memory` are about: two calls that take turns until both are over, so that there are two spaces. -/
example : ∃ s, PyProcess.start.ApartSteps s ∧ s.calls = [.over false, .over false] ∧ s.py.spaces = [(1, ⟨5, 1, 1⟩), (0, ⟨4, 0, 0⟩)] := by
  let l : List (PyCall ⊕ Nat) := [.inl (.create 0 0 true true), .inl (.create 1 1 true true)] ++ (List.replicate 16 [.inr 0, .inr 1]).flatten
  obtain ⟨s, hs⟩ : ∃ s, execApart PyProcess.start l = some s := Option.isSome_iff_exists.mp rfl
  have e1 : (execApart PyProcess.start l).map (fun s => s.calls) = some [.over false, .over false] := rfl
  have e2 : (execApart PyProcess.start l).map (fun s => s.py.spaces) = some [(1, ⟨5, 1, 1⟩), (0, ⟨4, 0, 0⟩)] := rfl
  rw [hs] at e1 e2
  exact ⟨s, execApart_steps (.refl _) hs, Option.some.inj e1, Option.some.inj e2⟩

/-- Another case: a space is used while another space is made on its grid, and while a third one on this grid is deleted. -/
example : ∃ s x c, PyProcess.start.ApartSteps s ∧ s.calls = [.over false, .over false, .use x, .over false, .drop c, .use x] ∧
    s.py.spaces.get? 0 = some x ∧ x.grid = c.grid := by
  let l : List (PyCall ⊕ Nat) := [.inl (.create 0 0 true true)] ++ List.replicate 16 (.inr 0) ++ [.inl (.create 0 1 true true)] ++
    List.replicate 16 (.inr 1) ++ [.inl (.use 0), .inl (.create 0 2 true true)] ++ List.replicate 16 (.inr 3) ++
    [.inl (.delete 1), .inl (.use 0)]
  obtain ⟨s, hs⟩ : ∃ s, execApart PyProcess.start l = some s := Option.isSome_iff_exists.mp rfl
  have e1 : (execApart PyProcess.start l).map (fun s => s.calls) =
    some [.over false, .over false, .use ⟨2, 0, 0⟩, .over false, .drop ⟨4, 0, 1⟩, .use ⟨2, 0, 0⟩] := rfl
  have e2 : (execApart PyProcess.start l).map (fun s => s.py.spaces.get? 0) = some (some ⟨2, 0, 0⟩) := rfl
  rw [hs] at e1 e2
  exact ⟨s, _, _, execApart_steps (.refl _) hs, Option.some.inj e1, Option.some.inj e2, rfl⟩

/-- What Rust gets must exist: a step that gives Rust the address of something that is gone is undefined, and not an exception. The use of a
space is also undefined if its grid or family is gone. -/
theorem C117_gone (s : Py) (pc : PyPc) (z : Nat) (hz : s.heap.live z = none) :
    (z ∈ pc.gives → pc.step s = none) ∧
    ∀ x p q, pc = .use x → s.heap.live x.rsSpace = some (.space p q) → z = p ∨ z = q → pc.step s = none := by
  constructor
  · intro h
    cases pc <;> simp only [PyPc.gives, List.mem_cons, List.not_mem_nil, or_false] at h
    case new p q a =>
      rcases h with rfl | rfl
      · simp only [PyPc.step, hz]
      · simp only [PyPc.step, hz]
        split <;> simp_all
    case drop x =>
      subst h
      simp only [PyPc.step, RustHeap.free, hz]
    case free w p x =>
      subst h
      simp only [PyPc.step, RustHeap.free, hz]
    case use x =>
      subst h
      simp only [PyPc.step, hz]
  · rintro x p q rfl h hz'
    rcases hz' with rfl | rfl
    · simp only [PyPc.step, h, hz]
    · simp only [PyPc.step, h, hz]
      split <;> simp_all

/-- Calls one after the other are apart. -/
theorem C117_one_at_a_time {s : PyProcess} (h : ∀ (i j : Nat) (pc pc' : PyPc), s.calls[i]? = some pc → s.calls[j]? = some pc' → i ≠ j →
    (∃ b, pc = .over b) ∨ ∃ b, pc' = .over b) : s.Apart := by
  intro i j pc pc' hi hj hij
  rcases h i j pc pc' hi hj hij with ⟨b, rfl⟩ | ⟨b, rfl⟩
  · exact ⟨nofun, nofun⟩
  · exact ⟨fun _ _ _ => nofun, fun _ _ => nofun⟩

/-- All steps of call number `i`: at most 25 of them. -/
def finish (i : Nat) : List (PyCall ⊕ Nat) := List.replicate 25 (.inr i)

/-- Two threads that make a space on grid 0, which has a space, both read the count first. Then two spaces are deleted. -/
def lostCount : List (PyCall ⊕ Nat) := [.inl (.create 0 0 true true)] ++ finish 0 ++
  [.inl (.create 0 1 true true), .inl (.create 0 2 true true), .inr 1, .inr 2, .inr 1, .inr 2] ++ finish 1 ++ finish 2 ++
  [.inl (.delete 0)] ++ finish 3 ++ [.inl (.delete 1)] ++ finish 4 ++ [.inl (.use 2)]

/-- The count of a grid can lose an update: two threads make a space on the same grid, both read the count 1 and both write 2. When two of the
three spaces are gone, the Rust grid is freed although the third space is still there, and the use of this space is undefined. No call raised. -/
theorem C117_lost_count : ∃ s k x, PyProcess.start.Steps s ∧ s.py.spaces.get? k = some x ∧
    s.calls = [.over false, .over false, .over false, .over false, .over false, .use x] ∧ s.Undefined := by
  obtain ⟨s, hs⟩ : ∃ s, PyProcess.start.exec lostCount = some s := Option.isSome_iff_exists.mp rfl
  have h1 : (PyProcess.start.exec lostCount).bind (fun s => s.py.spaces.get? 2) = some ⟨6, 0, 2⟩ := rfl
  have h2 : (PyProcess.start.exec lostCount).map (fun s => s.calls) =
      some [.over false, .over false, .over false, .over false, .over false, .use ⟨6, 0, 2⟩] := rfl
  have h3 : (PyProcess.start.exec lostCount).map (fun s => ((PyPc.use ⟨6, 0, 2⟩).step s.py).isNone) = some true := rfl
  rw [hs] at h1 h2 h3
  have h2' : s.calls = _ := Option.some.inj h2
  refine ⟨s, 2, ⟨6, 0, 2⟩, PyProcess.exec_steps hs, h1, h2', .use ⟨6, 0, 2⟩, ?_, Option.isNone_iff_eq_none.mp (Option.some.inj h3)⟩
  rw [h2']
  simp

/-- Two threads find that grid 0 has no attribute yet. Both spaces are deleted. -/
def madeTwice : List (PyCall ⊕ Nat) :=
  [.inl (.create 0 0 true true), .inl (.create 0 1 true true), .inr 0, .inr 1] ++ finish 0 ++ finish 1 ++
  [.inl (.delete 0)] ++ finish 2 ++ [.inl (.delete 1)] ++ finish 3

/-- Two threads that make the first spaces on a grid can both convert it. No space, no grid then refers to one of the two Rust grids when
both spaces are gone: nobody can free it. No call raised. -/
theorem C117_made_twice : ∃ s p, PyProcess.start.Steps s ∧ s.calls = [.over false, .over false, .over false, .over false] ∧
    s.py.spaces = [] ∧ s.py.heap.live p = some .grid ∧ ∀ g, (s.py.grids g).rs ≠ some p := by
  obtain ⟨s, hs⟩ : ∃ s, PyProcess.start.exec madeTwice = some s := Option.isSome_iff_exists.mp rfl
  have h1 : (PyProcess.start.exec madeTwice).map (fun s => s.py.spaces) = some [] := rfl
  have h2 : (PyProcess.start.exec madeTwice).map (fun s => s.calls) = some [.over false, .over false, .over false, .over false] := rfl
  have h3 : (PyProcess.start.exec madeTwice).map (fun s => s.py.heap.live 0) = some (some .grid) := rfl
  have h4 : (PyProcess.start.exec madeTwice).map (fun s => (s.py.grids 0).rs) = some none := rfl
  have h5 : ∀ g, (PyProcess.start.exec madeTwice).map (fun s => (s.py.grids (g + 1)).rs) = some none := fun _ => rfl
  rw [hs] at h1 h2 h3 h4 h5
  refine ⟨s, 0, PyProcess.exec_steps hs, Option.some.inj h2, Option.some.inj h1, Option.some.inj h3, fun g => ?_⟩
  cases g with
  | zero => rw [show (s.py.grids 0).rs = none from Option.some.inj h4]; decide
  | succ g => rw [show (s.py.grids (g + 1)).rs = none from Option.some.inj (h5 g)]; decide

/-- `__del__` of space 0 runs while a third space is made on grid 0, after the count was read. All spaces are deleted then. -/
def collected : List (PyCall ⊕ Nat) := [.inl (.create 0 0 true true)] ++ finish 0 ++ [.inl (.create 0 1 true true)] ++ finish 1 ++
  [.inl (.create 0 2 true true), .inr 2, .inr 2, .inl (.delete 0)] ++ finish 3 ++ finish 2 ++
  [.inl (.delete 1)] ++ finish 4 ++ [.inl (.delete 2)] ++ finish 5

/-- No threads are needed: if the garbage collector runs `__del__` of a space in the middle of `function_space`, the count is too high, and the
Rust grid is not freed when all spaces are gone. No call raised. -/
theorem C117_collected : ∃ s p, PyProcess.start.Steps s ∧
    s.calls = [.over false, .over false, .over false, .over false, .over false, .over false] ∧
    s.py.spaces = [] ∧ s.py.heap.live p = some .grid ∧ s.py.grids 0 = ⟨some p, some 1⟩ := by
  obtain ⟨s, hs⟩ : ∃ s, PyProcess.start.exec collected = some s := Option.isSome_iff_exists.mp rfl
  have h1 : (PyProcess.start.exec collected).map (fun s => s.py.spaces) = some [] := rfl
  have h2 : (PyProcess.start.exec collected).map (fun s => s.calls) =
      some [.over false, .over false, .over false, .over false, .over false, .over false] := rfl
  have h3 : (PyProcess.start.exec collected).map (fun s => s.py.heap.live 0) = some (some .grid) := rfl
  have h4 : (PyProcess.start.exec collected).map (fun s => s.py.grids 0) = some ⟨some 0, some 1⟩ := rfl
  rw [hs] at h1 h2 h3 h4
  exact ⟨s, 0, PyProcess.exec_steps hs, Option.some.inj h2, Option.some.inj h1, Option.some.inj h3, Option.some.inj h4⟩

/-- `__del__` of the only space on grid 0 runs while another space is made, after the attribute was found. -/
def collectedLast : List (PyCall ⊕ Nat) := [.inl (.create 0 0 true true)] ++ finish 0 ++
  [.inl (.create 0 1 true true), .inr 1, .inl (.delete 0)] ++ finish 2 ++ finish 1

/-- The same with only one space before: `function_space` raises `AttributeError` although both conversions succeed. Alone it never
does (`C37_never_freed_early`). -/
theorem C117_collected_last : ∃ s, PyProcess.start.Steps s ∧ s.calls = [.over false, .over true, .over false] := by
  obtain ⟨s, hs⟩ : ∃ s, PyProcess.start.exec collectedLast = some s := Option.isSome_iff_exists.mp rfl
  have h2 : (PyProcess.start.exec collectedLast).map (fun s => s.calls) = some [.over false, .over true, .over false] := rfl
  rw [hs] at h2
  exact ⟨s, PyProcess.exec_steps hs, Option.some.inj h2⟩

/-- How many steps a call can still make. -/
def PyPc.left : PyPc → Nat
  | .has .grid _ => 16 | .make .grid _ => 15 | .keep .grid _ _ => 14 | .zero .grid _ => 13 | .load .grid _ => 12 | .plus .grid _ _ => 11
  | .has .family _ => 10 | .make .family _ => 9 | .keep .family _ _ => 8 | .zero .family _ => 7 | .load .family _ => 6 | .plus .family _ _ => 5
  | .argGrid _ => 4 | .argFamily _ _ => 3 | .new _ _ _ => 2 | .wrap _ _ => 1
  | .drop _ => 14
  | .loadDown .family _ => 13 | .minus .family _ _ => 12 | .test .family _ => 11 | .argFree .family _ => 10 | .free .family _ _ => 9
  | .delRs .family _ => 8 | .delCount _ => 7
  | .loadDown .grid _ => 6 | .minus .grid _ _ => 5 | .test .grid _ => 4 | .argFree .grid _ => 3 | .free .grid _ _ => 2 | .delRs .grid _ => 1
  | .use _ => 1
  | .over _ => 0

theorem PyPc.left_step {s s' : Py} {pc pc' : PyPc} (h : pc.step s = some (s', pc')) : pc'.left ≤ pc.left - 1 := by
  cases pc
  case over b => cases h; exact Nat.le_refl _
  all_goals
    try rename Which => w
    try cases w
    all_goals
      dsimp only [PyPc.step, CreateArgs.after, PySpace.after] at h
      repeat' split at h
      all_goals first
        | cases h; done
        | (simp only [Option.some.injEq, Prod.mk.injEq] at h
           obtain ⟨-, rfl⟩ := h
           first
             | decide
             | simp [PyPc.left])

theorem PyPc.left_own {n : Nat} {pc pc' : PyPc} (h : PyPc.Own n pc pc') : pc'.left ≤ pc.left - n := by
  induction h with
  | none => exact Nat.le_refl _
  | next _ h ih => have := PyPc.left_step h; omega

theorem PyPc.over_of_left {pc : PyPc} (h : pc.left = 0) : ∃ b, pc = .over b := by
  cases pc
  case over b => exact ⟨b, rfl⟩
  all_goals
    try rename Which => w
    try cases w
    all_goals cases h

/-- No call waits for another one or runs for ever, however calls overlap, also on the same grid: after 16 steps of its own it is over (if no
step was undefined). -/
theorem C117_ends {c : PyCall} {s : Py} {n : Nat} {pc : PyPc} (h : PyPc.Own n (c.begin s).2 pc) (hn : 16 ≤ n) : ∃ b, pc = .over b := by
  have h1 := PyPc.left_own h
  have h2 : (c.begin s).2.left ≤ 16 := by
    cases c <;> dsimp only [PyCall.begin]
    · exact Nat.le_refl _
    all_goals
      split
      all_goals simp [PyPc.left]
  exact PyPc.over_of_left (by omega)

/-- The first `n` steps of a call that nothing interrupts. -/
def ownSteps : Nat → Py → PyPc → Option (Py × PyPc)
  | 0, s, pc => some (s, pc)
  | n + 1, s, pc => (ownSteps n s pc).bind fun x => x.2.step x.1

theorem ownSteps_own {n : Nat} {s s' : Py} {pc pc' : PyPc} (h : ownSteps n s pc = some (s', pc')) : PyPc.Own n pc pc' := by
  induction n generalizing s' pc' with
  | zero => cases h; exact .none _
  | succ n ih =>
    obtain ⟨⟨s1, pc1⟩, h1, h2⟩ := Option.bind_eq_some_iff.mp h
    exact .next (ih h1) h2

/-- 16 steps happen, and 15 are not enough: the first `function_space` of a program. -/
example : (∃ a r, PyPc.Own 15 ((PyCall.create 0 0 true true).begin Py.start).2 (.wrap r a)) ∧
    PyPc.Own 16 ((PyCall.create 0 0 true true).begin Py.start).2 (.over false) := by
  have h : ∀ n, (ownSteps n Py.start (.has .grid ⟨0, 0, true, true⟩)).map (·.2) = some (.over false) →
      PyPc.Own n ((PyCall.create 0 0 true true).begin Py.start).2 (.over false) := by
    intro n h
    obtain ⟨⟨s, pc⟩, h1, h2⟩ := Option.map_eq_some_iff.mp h
    cases h2
    exact ownSteps_own h1
  refine ⟨⟨⟨0, 0, true, true⟩, 2, ?_⟩, h 16 rfl⟩
  have h : (ownSteps 15 Py.start (.has .grid ⟨0, 0, true, true⟩)).map (·.2) = some (.wrap 2 ⟨0, 0, true, true⟩) := rfl
  obtain ⟨⟨s, pc⟩, h1, h2⟩ := Option.map_eq_some_iff.mp h
  cases h2
  exact ownSteps_own h1

theorem PyPc.step_keeps {s s' : Py} {pc pc' : PyPc} (h : pc.step s = some (s', pc')) :
    (∀ w n, pc'.uses w = some n → pc.uses w = some n) ∧ (∀ x, pc'.deletes = some x → pc.deletes = some x) ∧ ∀ x, pc' ≠ .use x := by
  cases pc
  case over b => cases h; exact ⟨fun _ _ h => h, fun _ h => h, nofun⟩
  all_goals
    try rename Which => w
    try cases w
    all_goals
      dsimp only [PyPc.step, CreateArgs.after, PySpace.after] at h
      repeat' split at h
      all_goals first
        | cases h; done
        | (simp only [Option.some.injEq, Prod.mk.injEq] at h
           obtain ⟨-, rfl⟩ := h
           exact ⟨fun _ _ h => (by first | exact h | cases h), fun _ h => (by first | exact h | cases h), nofun⟩)

/-- Calls that are apart stay apart until another call begins. -/
theorem PyProcess.Apart.step {s : PyProcess} (ap : s.Apart) {i : Nat} {pc pc' : PyPc} {py : Py} (hi : s.calls[i]? = some pc)
    (h : pc.step s.py = some (py, pc')) : PyProcess.Apart ⟨py, s.calls.set i pc'⟩ := by
  obtain ⟨k1, k2, k3⟩ := PyPc.step_keeps h
  intro a b pa pb ha hb hab
  simp only [List.getElem?_set] at ha hb
  split at ha
  · rename_i e
    subst e
    rw [if_neg hab] at hb
    split at ha
    · cases ha
      exact ⟨fun w n hu => (ap i b pc pb hi hb hab).1 w n (k1 w n hu), fun x hx => absurd hx (k3 x)⟩
    · cases ha
  · split at hb
    · rename_i e
      subst e
      split at hb
      · cases hb
        have := ap a i pa pc ha hi hab
        exact ⟨fun w n hu hu' => this.1 w n hu (k1 w n hu'), fun x hx hd => this.2 x hx (k2 x hd)⟩
      · cases hb
    · exact ap a b pa pb ha hb hab

theorem PyProcess.ApartSteps.trans {a b c : PyProcess} (h : a.ApartSteps b) (h' : b.ApartSteps c) : a.ApartSteps c := by
  induction h' with
  | refl => exact h
  | step _ k ap ih => exact ih.step k ap

theorem left_set {l : List PyPc} {i : Nat} {pc pc' : PyPc} (hi : l[i]? = some pc) (h : pc'.left < pc.left) :
    ((l.set i pc').map PyPc.left).sum < (l.map PyPc.left).sum := by
  induction l generalizing i with
  | nil => cases hi
  | cons a l ih =>
    cases i with
    | zero =>
      cases hi
      simp only [List.set_cons_zero, List.map_cons, List.sum_cons]
      omega
    | succ i =>
      have := ih (i := i) hi
      simp only [List.set_cons_succ, List.map_cons, List.sum_cons]
      omega

/-- Calls that are apart can always be finished, from every state that they get to: no new calls are needed, and all of them are over then. -/
theorem C117_can_finish {s : PyProcess} (h : PyProcess.start.ApartSteps s) :
    ∃ s', s.ApartSteps s' ∧ s'.calls.length = s.calls.length ∧ ∀ pc ∈ s'.calls, ∃ b, pc = .over b := by
  generalize hn : (s.calls.map PyPc.left).sum = n
  induction n using Nat.strongRecOn generalizing s with
  | ind n ih =>
    by_cases ho : ∀ pc ∈ s.calls, ∃ b, pc = .over b
    · exact ⟨s, .refl s, rfl, ho⟩
    · obtain ⟨pc, hpc, hb⟩ : ∃ pc ∈ s.calls, ¬∃ b, pc = .over b := by
        by_contra hc
        exact ho fun pc hpc => by
          by_contra hb
          exact hc ⟨pc, hpc, hb⟩
      obtain ⟨i, hi⟩ := List.getElem?_of_mem hpc
      obtain ⟨py, pc', hs, -⟩ := (C117_apart h).2.1 pc hpc
      have hl := PyPc.left_step hs
      have hp : pc.left ≠ 0 := fun e => hb (PyPc.over_of_left e)
      have st := PyProcess.Step.step s hi hs
      have ap := (apart_inv h).1.step hi hs
      obtain ⟨s', k1, k2, k3⟩ := ih _ (by rw [← hn]; exact left_set hi (by omega)) (h.step st ap) rfl
      exact ⟨s', ((PyProcess.ApartSteps.refl s).step st ap).trans k1, by rw [k2, List.length_set], k3⟩

/-- A space is deleted after one of its methods began and before it calls Rust. -/
def deletedInUse : List (PyCall ⊕ Nat) :=
  [.inl (.create 0 0 true true)] ++ finish 0 ++ [.inl (.use 0), .inl (.delete 0), .inr 2]

/-- Why `PyProcess.Apart` also speaks about methods: if a space could be deleted while one of its methods runs, the method would be undefined. The
two calls do not share the attributes of a grid or a family. -/
theorem C117_deleted_in_use : ∃ s x pc, PyProcess.start.Steps s ∧ s.calls = [.over false, .use x, pc] ∧ pc.deletes = some x ∧
    (∀ w, (PyPc.use x).uses w = none) ∧ s.Undefined := by
  obtain ⟨s, hs⟩ : ∃ s, PyProcess.start.exec deletedInUse = some s := Option.isSome_iff_exists.mp rfl
  have h1 : (PyProcess.start.exec deletedInUse).map (fun s => s.calls) =
      some [.over false, .use ⟨2, 0, 0⟩, .loadDown .family ⟨2, 0, 0⟩] := rfl
  have h2 : (PyProcess.start.exec deletedInUse).map (fun s => ((PyPc.use ⟨2, 0, 0⟩).step s.py).isNone) = some true := rfl
  rw [hs] at h1 h2
  have h1' : s.calls = _ := Option.some.inj h1
  refine ⟨s, ⟨2, 0, 0⟩, _, PyProcess.exec_steps hs, h1', rfl, fun w => by cases w <;> rfl, .use ⟨2, 0, 0⟩, ?_,
    Option.isNone_iff_eq_none.mp (Option.some.inj h2)⟩
  rw [h1']
  simp

end Bempp
