import Verif.Spec.PyThreads
/-
For C117: a call that nothing interrupts does what `Model/Python` says.
-/
namespace Bempp

theorem PyPc.Runs.trans {s s' s'' : Py} {pc pc' pc'' : PyPc} (h : PyPc.Runs s pc s' pc') (t : PyPc.Runs s' pc' s'' pc'') :
    PyPc.Runs s pc s'' pc'' := by
  induction h with
  | refl => exact t
  | step h _ ih => exact .step h (ih t)

theorem Py.shared_set (s : Py) (w : Which) (i : Nat) (a : Shared) : (s.setShared w i a).shared w i = a := by
  cases w <;> exact if_pos rfl

theorem Py.set_set (s : Py) (w : Which) (i : Nat) (a b : Shared) : (s.setShared w i a).setShared w i b = s.setShared w i b := by
  cases w
  · simp only [Py.setShared, Py.setGrid]
    congr 1
    funext x
    by_cases h : x = i
    · rw [if_pos h, if_pos h]
    · rw [if_neg h, if_neg h, if_neg h]
  · simp only [Py.setShared, Py.setFamily]
    congr 1
    funext x
    by_cases h : x = i
    · rw [if_pos h, if_pos h]
    · rw [if_neg h, if_neg h, if_neg h]

theorem Py.set_self (s : Py) (w : Which) (i : Nat) : s.setShared w i (s.shared w i) = s := by
  cases w
  · simp only [Py.setShared, Py.setGrid, Py.shared]
    have : (fun x => if x = i then s.grids i else s.grids x) = s.grids := by
      funext x
      split
      · rename_i h; rw [h]
      · rfl
    rw [this]
  · simp only [Py.setShared, Py.setFamily, Py.shared]
    have : (fun x => if x = i then s.families i else s.families x) = s.families := by
      funext x
      split
      · rename_i h; rw [h]
      · rfl
    rw [this]

theorem Py.set_heap (s : Py) (w : Which) (i : Nat) (a : Shared) (h : RustHeap) :
    ({ s with heap := h } : Py).setShared w i a = { s.setShared w i a with heap := h } := by
  cases w <;> rfl

theorem Py.shared_heap (s : Py) (w : Which) (i : Nat) (h : RustHeap) : ({ s with heap := h } : Py).shared w i = s.shared w i := by
  cases w <;> rfl

/-- `+= 1`. -/
theorem runs_plus (s : Py) (w : Which) (a : CreateArgs) {c : Int} (h : (s.shared w (a.which w)).refcount = some c) :
    PyPc.Runs s (.load w a) (s.setShared w (a.which w) { s.shared w (a.which w) with refcount := some (c + 1) }) (a.after w) := by
  refine .step (s' := s) (pc' := .plus w c a) ?_ (.step rfl (.refl _ _))
  simp only [PyPc.step, h]

/-- The lines about a grid or family in `function_space`. -/
theorem runs_acquire (s : Py) (w : Which) (a : CreateArgs) :
    (acquire w.kind (a.ok w) s.heap (s.shared w (a.which w)) = none ∧ PyPc.Runs s (.has w a) s (.over true)) ∨
    ∃ h b, acquire w.kind (a.ok w) s.heap (s.shared w (a.which w)) = some (h, b) ∧
      ((b.refcount = none ∧ PyPc.Runs s (.has w a) { s.setShared w (a.which w) b with heap := h } (.over true)) ∨
      ∃ c, b.refcount = some c ∧
        PyPc.Runs s (.has w a) ({ s.setShared w (a.which w) b with heap := h }.setShared w (a.which w) { b with refcount := some (c + 1) })
          (a.after w)) := by
  unfold acquire
  cases e : (s.shared w (a.which w)).rs with
  | some p =>
    refine .inr ⟨s.heap, s.shared w (a.which w), rfl, ?_⟩
    rw [Py.set_self]
    have h0 : (PyPc.has w a).step s = some (s, .load w a) := by simp [PyPc.step, e]
    cases ec : (s.shared w (a.which w)).refcount with
    | none =>
      refine .inl ⟨rfl, .step h0 (.step (s' := s) (pc' := .over true) ?_ (.refl _ _))⟩
      simp only [PyPc.step, ec]
    | some c => exact .inr ⟨c, rfl, .step h0 (runs_plus s w a ec)⟩
  | none =>
    have h0 : (PyPc.has w a).step s = some (s, .make w a) := by simp [PyPc.step, e]
    cases ok : a.ok w with
    | false =>
      refine .inl ⟨rfl, .step h0 (.step (s' := s) (pc' := .over true) ?_ (.refl _ _))⟩
      simp [PyPc.step, ok]
    | true =>
      refine .inr ⟨_, _, rfl, .inr ⟨0, rfl, ?_⟩⟩
      refine .step h0 (.step (s' := { s with heap := (s.heap.alloc w.kind).1 }) (pc' := .keep w s.heap.next a) ?_ ?_)
      · simp only [PyPc.step, ok]
        rfl
      · refine .step rfl (.step rfl ?_)
        rw [Py.shared_heap, Py.shared_set, Py.set_set, Py.set_heap]
        have := runs_plus { s.setShared w (a.which w) ⟨some s.heap.next, some 0⟩ with heap := (s.heap.alloc w.kind).1 } w a (c := 0)
          (by rw [Py.shared_heap, Py.shared_set])
        rw [Py.shared_heap, Py.shared_set] at this
        exact this

theorem acquire_rs {kind : RustObj} {ok : Bool} {h h' : RustHeap} {a b : Shared} (e : acquire kind ok h a = some (h', b)) :
    ∃ p, b.rs = some p := by
  unfold acquire at e
  split at e
  · rename_i p hp
    cases e
    exact ⟨p, hp⟩
  · split at e
    · cases e
      exact ⟨_, rfl⟩
    · cases e

theorem create_ends (s : Py) (g f : Nat) (gridOk familyOk : Bool) :
    (PyCall.create g f gridOk familyOk).EndsAs s (functionSpaceCall g f gridOk familyOk s) := by
  let a : CreateArgs := ⟨g, f, gridOk, familyOk⟩
  unfold functionSpaceCall
  rcases runs_acquire s .grid a with ⟨e, r⟩ | ⟨h, b, e, k⟩
  · have e' : acquire .grid gridOk s.heap (s.grids g) = none := e
    rw [e']
    exact r
  have e' : acquire .grid gridOk s.heap (s.grids g) = some (h, b) := e
  rw [e']
  dsimp only
  rcases k with ⟨k1, r⟩ | ⟨c, k1, r⟩
  · rw [k1]
    exact r
  rw [k1]
  dsimp only
  have r1 : PyPc.Runs s (.has .grid a) (({ s.setGrid g b with heap := h } : Py).setGrid g { b with refcount := some (c + 1) }) (.has .family a) := r
  generalize hs1 : ({ s.setGrid g b with heap := h } : Py).setGrid g { b with refcount := some (c + 1) } = s1 at r1
  have hg : (s1.grids g).rs = b.rs := by
    rw [← hs1]
    simp [Py.setGrid]
  rcases runs_acquire s1 .family a with ⟨e2, r2⟩ | ⟨h2, b2, e2, k⟩
  · have e2' : acquire .family familyOk s1.heap (s1.families f) = none := e2
    rw [e2']
    exact r1.trans r2
  have e2' : acquire .family familyOk s1.heap (s1.families f) = some (h2, b2) := e2
  rw [e2']
  dsimp only
  rcases k with ⟨k2, r2⟩ | ⟨d, k2, r2⟩
  · rw [k2]
    exact r1.trans r2
  rw [k2]
  dsimp only
  have r3 : PyPc.Runs s1 (.has .family a) (({ s1.setFamily f b2 with heap := h2 } : Py).setFamily f { b2 with refcount := some (d + 1) }) (.argGrid a) := r2
  generalize hs2 : ({ s1.setFamily f b2 with heap := h2 } : Py).setFamily f { b2 with refcount := some (d + 1) } = s2 at r3
  obtain ⟨p, hp⟩ := acquire_rs e'
  obtain ⟨q, hq⟩ := acquire_rs e2'
  have gp : (s2.grids g).rs = some p := by
    rw [← hs2, ← hp, ← hg]
    rfl
  have fq : (s2.families f).rs = some q := by
    rw [← hs2, ← hq]
    simp [Py.setFamily]
  rw [hp, hq]
  have r4 : PyPc.Runs s2 (.argGrid a) s2 (.new p q a) := by
    refine .step (s' := s2) (pc' := .argFamily p a) ?_ (.step (s' := s2) (pc' := .new p q a) ?_ (.refl _ _))
    · simp only [PyPc.step, a, gp]
    · simp only [PyPc.step, a, fq]
  have r5 := (r1.trans r3).trans r4
  dsimp only
  split
  · rename_i l1 l2
    refine PyPc.Runs.trans r5 (.step (s' := { s2 with heap := (s2.heap.alloc (.space p q)).1 }) (pc' := .wrap s2.heap.next a) ?_ (.step rfl (.refl _ _)))
    simp only [PyPc.step, l1, l2]
    rfl
  · rename_i l
    refine ⟨s2, .new p q a, r5, ?_⟩
    dsimp only [PyPc.step]
    split
    · rename_i l1 l2
      exact (l l1 l2).elim
    · rfl

theorem delCount_step {s : Py} {x : PySpace} (h : s.families x.family = ⟨none, some 0⟩) :
    (PyPc.delCount x).step s = some (s.setFamily x.family ⟨none, none⟩, x.after .family) := by
  simp only [PyPc.step, h]

/-- The lines about a family or grid in `__del__`. -/
theorem runs_release (s : Py) (w : Which) (x : PySpace) {h : RustHeap} {b : Shared}
    (e : release (match w with | .grid => true | .family => false) s.heap (s.shared w (x.which w)) = .done h b) :
    PyPc.Runs s (.loadDown w x) { s.setShared w (x.which w) b with heap := h } (x.after w) := by
  unfold release at e
  cases ec : (s.shared w (x.which w)).refcount with
  | none => rw [ec] at e; cases e
  | some c =>
    rw [ec] at e
    dsimp only at e
    have h1 : (PyPc.loadDown w x).step s = some (s, .minus w c x) := by simp only [PyPc.step, ec]
    have h3 : ∀ {t : Py}, (t.shared w (x.which w)).refcount = some (c - 1) →
        (PyPc.test w x).step t = some (t, if c - 1 = 0 then .argFree w x else x.after w) := by
      intro t ht
      simp only [PyPc.step, ht]
    refine .step h1 (.step rfl (.step (h3 (by rw [Py.shared_set])) ?_))
    split at e
    · rename_i h0
      rw [if_pos h0]
      split at e
      · cases e
      · rename_i p hp
        split at e
        · cases e
        · rename_i h' hf
          cases e
          refine .step (s' := s.setShared w (x.which w) { s.shared w (x.which w) with refcount := some (c - 1) }) (pc' := .free w p x) ?_ ?_
          · simp only [PyPc.step, Py.shared_set, hp]
          have hh : (s.setShared w (x.which w) { s.shared w (x.which w) with refcount := some (c - 1) }).heap = s.heap := by cases w <;> rfl
          refine .step (s' := { s.setShared w (x.which w) { s.shared w (x.which w) with refcount := some (c - 1) } with heap := h }) (pc' := .delRs w x) ?_ ?_
          · simp only [PyPc.step, hh, hf]
          cases w with
          | grid =>
            refine .step (s' := { s.setShared .grid (x.which .grid) ⟨none, some 0⟩ with heap := h }) (pc' := x.after .grid) ?_ (.refl _ _)
            simp only [PyPc.step, Py.shared_heap, Py.shared_set, hp, Py.set_heap, Py.set_set, h0]
          | family =>
            refine .step (s' := { s.setShared .family (x.which .family) ⟨none, some 0⟩ with heap := h }) (pc' := .delCount x) ?_
              (.step (s' := { s.setShared .family (x.which .family) ⟨none, none⟩ with heap := h }) (pc' := x.after .family) ?_ (.refl _ _))
            · simp only [PyPc.step, Py.shared_heap, Py.shared_set, hp, Py.set_heap, Py.set_set, h0]
            · have e1 : (({ s.setShared .family (x.which .family) ⟨none, some 0⟩ with heap := h } : Py).families x.family) = ⟨none, some 0⟩ :=
                Py.shared_set s .family x.family _
              rw [delCount_step e1]
              have := Py.set_set s .family x.family ⟨none, some 0⟩ ⟨none, none⟩
              exact congrArg (fun t : Py => some (({ t with heap := h } : Py), x.after .family)) this
    · rename_i h0
      rw [if_neg h0]
      cases e
      have : ({ s.setShared w (x.which w) { s.shared w (x.which w) with refcount := some (c - 1) } with heap := s.heap } : Py) =
          s.setShared w (x.which w) { s.shared w (x.which w) with refcount := some (c - 1) } := by cases w <;> rfl
      rw [this]
      exact .refl _ _

theorem delete_ends {s s' : Py} {k : Nat} (e : deleteSpaceCall k s = .done s') : (PyCall.delete k).EndsAs s (.done s') := by
  unfold deleteSpaceCall at e
  cases ex : s.spaces.get? k with
  | none =>
    have hb : (PyCall.delete k).begin s = (s, .over false) := by simp only [PyCall.begin, ex]
    rw [ex] at e
    cases e
    dsimp only [PyCall.EndsAs]
    rw [hb]
    exact .refl _ _
  | some x =>
    have hb : (PyCall.delete k).begin s = ({ s with spaces := s.spaces.filter fun e => e.1 ≠ k }, .drop x) := by
      simp only [PyCall.begin, ex]
    rw [ex] at e
    dsimp only [PyCall.EndsAs]
    rw [hb]
    dsimp only at e ⊢
    split at e
    · cases e
    · rename_i h hf
      refine .step (s' := { s with heap := h, spaces := s.spaces.filter fun e => e.1 ≠ k }) (pc' := .loadDown .family x) ?_ ?_
      · simp only [PyPc.step, hf]
      split at e
      · cases e
      · cases e
      · rename_i h1 b e1
        refine PyPc.Runs.trans (runs_release _ .family x e1) ?_
        split at e
        · cases e
        · cases e
        · rename_i h2 b' e2
          cases e
          exact runs_release _ .grid x e2

theorem use_ends (s : Py) (k : Nat) : (PyCall.use k).EndsAs s (useSpaceCall k s) := by
  unfold useSpaceCall
  cases ex : s.spaces.get? k with
  | none =>
    have : (PyCall.use k).begin s = (s, .over false) := by simp only [PyCall.begin, ex]
    dsimp only [PyCall.EndsAs]
    rw [this]
    exact .refl _ _
  | some x =>
    have hb : (PyCall.use k).begin s = (s, .use x) := by simp only [PyCall.begin, ex]
    dsimp only
    split
    · rename_i p q h1
      split
      · rename_i h2 h3
        dsimp only [PyCall.EndsAs]
        rw [hb]
        refine .step (s' := s) (pc' := .over false) ?_ (.refl _ _)
        simp only [PyPc.step, h1, h2, h3]
      · rename_i h2
        refine ⟨s, .use x, by rw [hb]; exact .refl _ _, ?_⟩
        dsimp only [PyPc.step]
        rw [h1]
        dsimp only
        split
        · rename_i l1 l2
          exact (h2 l1 l2).elim
        · rfl
    · rename_i h1
      refine ⟨s, .use x, by rw [hb]; exact .refl _ _, ?_⟩
      dsimp only [PyPc.step]
      split
      · rename_i p q l
        exact (h1 p q l).elim
      · rfl

end Bempp
