import Verif.Proofs.PyThreads
/-
For C117: calls that overlap, but not on the same grid or family. The invariant says for each call, depending on where it is, what its grid and
family look like.
-/
namespace Bempp

/-- The number of spaces on a grid or family. -/
def Py.count (s : Py) (w : Which) (i : Nat) : Nat := s.spaces.countP fun e => e.2.which w == i

/-- What the count should be when no call works on the grid or family: `lk` says how often it was counted by a call that raised afterwards. -/
def Py.total (lk : Which → Nat → Nat) (s : Py) (w : Which) (i : Nat) : Nat := s.count w i + lk w i

/-- The attribute points to a Rust object. -/
def Py.Ptr (s : Py) (w : Which) (i p : Nat) : Prop := (s.shared w i).rs = some p ∧ s.heap.live p = some w.kind

/-- A grid or family that no call works on, with a Rust object. -/
def Py.BaseAt (lk : Which → Nat → Nat) (s : Py) (w : Which) (i p : Nat) : Prop :=
  s.Ptr w i p ∧ ∃ c : Int, (s.shared w i).refcount = some c ∧ 0 < c ∧ (s.total lk w i : Int) = c

/-- A grid or family that no call works on. -/
def Py.Base (lk : Which → Nat → Nat) (s : Py) (w : Which) (i : Nat) : Prop :=
  ((s.shared w i).rs = none ∧ s.total lk w i = 0) ∨ ∃ p, s.BaseAt lk w i p

/-- A grid or family that is counted for a space that is not there yet, or not any more. -/
def Py.Held (lk : Which → Nat → Nat) (s : Py) (w : Which) (i p : Nat) : Prop :=
  s.Ptr w i p ∧ ∃ c : Int, (s.shared w i).refcount = some c ∧ (s.total lk w i : Int) + 1 = c

/-- The other one of grid and family in `function_space`. -/
def Py.RestC (lk : Which → Nat → Nat) (s : Py) (a : CreateArgs) : Which → Prop
  | .grid => s.Base lk .family a.family
  | .family => ∃ p, s.Held lk .grid a.grid p

/-- The other one of grid and family in `__del__`. -/
def Py.RestD (lk : Which → Nat → Nat) (s : Py) (x : PySpace) : Which → Prop
  | .grid => s.Base lk .family x.family
  | .family => ∃ p, s.Held lk .grid x.grid p

/-- What holds where a call is. -/
def PyPc.Fine (own : Nat → Which × Nat) (lk : Which → Nat → Nat) (s : Py) : PyPc → Prop
  | .has w a => s.RestC lk a w ∧ s.Base lk w (a.which w)
  | .make w a => s.RestC lk a w ∧ (s.shared w (a.which w)).rs = none ∧ s.total lk w (a.which w) = 0
  | .keep w p a => s.RestC lk a w ∧ (s.shared w (a.which w)).rs = none ∧ s.total lk w (a.which w) = 0 ∧ s.heap.live p = some w.kind ∧
      own p = (w, a.which w)
  | .zero w a => s.RestC lk a w ∧ ∃ p, s.Ptr w (a.which w) p ∧ s.total lk w (a.which w) = 0
  | .load w a => s.RestC lk a w ∧ ∃ p, s.Ptr w (a.which w) p ∧
      ∃ c : Int, (s.shared w (a.which w)).refcount = some c ∧ (s.total lk w (a.which w) : Int) = c
  | .plus w c a => s.RestC lk a w ∧ ∃ p, s.Ptr w (a.which w) p ∧ (s.total lk w (a.which w) : Int) = c
  | .argGrid a => (∃ p, s.Held lk .grid a.grid p) ∧ ∃ q, s.Held lk .family a.family q
  | .argFamily p a => s.Held lk .grid a.grid p ∧ ∃ q, s.Held lk .family a.family q
  | .new p q a => s.Held lk .grid a.grid p ∧ s.Held lk .family a.family q
  | .wrap r a => ∃ p q, s.heap.live r = some (.space p q) ∧ s.Held lk .grid a.grid p ∧ s.Held lk .family a.family q ∧
      ∀ e ∈ s.spaces, e.2.rsSpace ≠ r
  | .drop x => ∃ p q, s.heap.live x.rsSpace = some (.space p q) ∧ s.Held lk .grid x.grid p ∧ s.Held lk .family x.family q ∧
      ∀ e ∈ s.spaces, e.2.rsSpace ≠ x.rsSpace
  | .loadDown w x => s.RestD lk x w ∧ ∃ p, s.Held lk w (x.which w) p
  | .minus w c x => s.RestD lk x w ∧ ∃ p, s.Ptr w (x.which w) p ∧ (s.total lk w (x.which w) : Int) + 1 = c
  | .test w x => s.RestD lk x w ∧ ∃ p, s.Ptr w (x.which w) p ∧
      ∃ c : Int, (s.shared w (x.which w)).refcount = some c ∧ (s.total lk w (x.which w) : Int) = c
  | .argFree w x => s.RestD lk x w ∧ ∃ p, s.Ptr w (x.which w) p ∧ s.total lk w (x.which w) = 0 ∧
      ∃ c : Int, (s.shared w (x.which w)).refcount = some c
  | .free w p x => s.RestD lk x w ∧ s.Ptr w (x.which w) p ∧ s.total lk w (x.which w) = 0 ∧
      ∃ c : Int, (s.shared w (x.which w)).refcount = some c
  | .delRs w x => s.RestD lk x w ∧ (∃ p, (s.shared w (x.which w)).rs = some p ∧ s.heap.live p = none) ∧ s.total lk w (x.which w) = 0 ∧
      ∃ c : Int, (s.shared w (x.which w)).refcount = some c
  | .delCount x => s.RestD lk x .family ∧ (s.shared .family x.family).rs = none ∧ s.total lk .family x.family = 0 ∧
      ∃ c : Int, (s.shared .family x.family).refcount = some c
  | .use x => ∃ k, (k, x) ∈ s.spaces
  | .over _ => True

/-- The Rust object that only the call knows. -/
def PyPc.pending : PyPc → Option Nat
  | .keep _ p _ => some p
  | .wrap r _ => some r
  | .drop x => some x.rsSpace
  | _ => none

/-- Some Python object knows the address. -/
def Py.Knows (s : Py) (p : Nat) : Prop := (∃ w i, (s.shared w i).rs = some p) ∨ ∃ e ∈ s.spaces, e.2.rsSpace = p

/-- What holds between the steps of calls that are apart. -/
structure PyProcess.Inv (own : Nat → Which × Nat) (lk : Which → Nat → Nat) (s : PyProcess) : Prop where
  old : ∀ p o, s.py.heap.live p = some o → p < s.py.heap.next
  oldRs : ∀ w i p, (s.py.shared w i).rs = some p → p < s.py.heap.next
  owner : ∀ w i p, (s.py.shared w i).rs = some p → own p = (w, i)
  idle : ∀ w i, (∀ (j : Nat) (pc : PyPc), s.calls[j]? = some pc → pc.uses w ≠ some i) → s.py.Base lk w i
  fine : ∀ (j : Nat) (pc : PyPc), s.calls[j]? = some pc → pc.Fine own lk s.py
  spaces : ∀ e ∈ s.py.spaces, ∃ p q, s.py.heap.live e.2.rsSpace = some (.space p q) ∧ (s.py.shared .grid e.2.grid).rs = some p ∧
    (s.py.shared .family e.2.family).rs = some q
  nodup : s.py.spaces.Pairwise fun e e' => e.1 ≠ e'.1 ∧ e.2.rsSpace ≠ e'.2.rsSpace
  keys : ∀ e ∈ s.py.spaces, e.1 < s.py.nextSpace
  known : ∀ p o, s.py.heap.live p = some o → s.py.Knows p ∨ ∃ (j : Nat) (pc : PyPc), s.calls[j]? = some pc ∧ pc.pending = some p
  raised : (∃ w i, lk w i ≠ 0) → PyPc.over true ∈ s.calls

/-- One grid or family is not touched. -/
structure FrameAt (own : Nat → Which × Nat) (lk lk' : Which → Nat → Nat) (s s' : Py) (w : Which) (i : Nat) : Prop where
  shared : s'.shared w i = s.shared w i
  count : s'.total lk' w i = s.total lk w i
  dead : ∀ p, (s.shared w i).rs = some p → s.heap.live p = none → s'.heap.live p = none
  owner : ∀ p, (s.shared w i).rs = some p → own p = (w, i)
  live : ∀ p, own p = (w, i) → s.heap.live p = some w.kind → s'.heap.live p = some w.kind

theorem FrameAt.ptr {own lk lk' s s' w i p} (f : FrameAt own lk lk' s s' w i) (h : s.Ptr w i p) : s'.Ptr w i p :=
  ⟨by rw [f.shared]; exact h.1, f.live p (f.owner p h.1) h.2⟩

theorem FrameAt.baseAt {own lk lk' s s' w i p} (f : FrameAt own lk lk' s s' w i) (h : s.BaseAt lk w i p) : s'.BaseAt lk' w i p := by
  obtain ⟨h1, c, h2, h3, h4⟩ := h
  refine ⟨f.ptr h1, c, by rw [f.shared]; exact h2, h3, ?_⟩
  have := f.count
  omega

theorem FrameAt.base {own lk lk' s s' w i} (f : FrameAt own lk lk' s s' w i) (h : s.Base lk w i) : s'.Base lk' w i := by
  rcases h with ⟨h1, h2⟩ | ⟨p, h⟩
  · refine .inl ⟨by rw [f.shared]; exact h1, ?_⟩
    have := f.count
    omega
  · exact .inr ⟨p, f.baseAt h⟩

theorem FrameAt.held {own lk lk' s s' w i p} (f : FrameAt own lk lk' s s' w i) (h : s.Held lk w i p) : s'.Held lk' w i p := by
  obtain ⟨h1, c, h2, h3⟩ := h
  refine ⟨f.ptr h1, c, by rw [f.shared]; exact h2, ?_⟩
  have := f.count
  omega

/-- The call that counted it has raised. -/
theorem Py.Held.base {lk lk'} {s : Py} {w i p} (h : s.Held lk w i p) (e : s.total lk' w i = s.total lk w i + 1) : s.Base lk' w i := by
  obtain ⟨h1, c, h2, h3⟩ := h
  exact .inr ⟨p, h1, c, h2, by omega, by omega⟩

theorem FrameAt.restC {own lk lk' s s' w} {a : CreateArgs} (f : ∀ w, FrameAt own lk lk' s s' w (a.which w)) (h : s.RestC lk a w) : s'.RestC lk' a w := by
  cases w with
  | grid => exact (f .family).base h
  | family =>
    obtain ⟨p, h⟩ := h
    exact ⟨p, (f .grid).held h⟩

theorem FrameAt.restD {own lk lk' s s' w} {x : PySpace} (f : ∀ w, FrameAt own lk lk' s s' w (x.which w)) (h : s.RestD lk x w) : s'.RestD lk' x w := by
  cases w with
  | grid => exact (f .family).base h
  | family =>
    obtain ⟨p, h⟩ := h
    exact ⟨p, (f .grid).held h⟩

/-- A call does not notice what other calls do to other grids and families. -/
theorem PyPc.Fine.frame {own own' : Nat → Which × Nat} {lk lk' : Which → Nat → Nat} {s s' : Py} {pc : PyPc} (h : pc.Fine own lk s)
    (f : ∀ w i, pc.uses w = some i → FrameAt own lk lk' s s' w i)
    (ho : ∀ p o, s.heap.live p = some o → own' p = own p)
    (hs : ∀ g p q r, pc.uses .grid = some g → (s.shared .grid g).rs = some p → s.heap.live r = some (.space p q) →
      s'.heap.live r = some (.space p q) ∧ ((∀ e ∈ s.spaces, e.2.rsSpace ≠ r) → ∀ e ∈ s'.spaces, e.2.rsSpace ≠ r))
    (hm : ∀ x k, pc = .use x → (k, x) ∈ s.spaces → (k, x) ∈ s'.spaces) :
    pc.Fine own' lk' s' := by
  cases pc with
  | has w a => exact ⟨FrameAt.restC (fun w => f w _ rfl) h.1, (f w _ rfl).base h.2⟩
  | make w a =>
    have := (f w _ rfl).count
    exact ⟨FrameAt.restC (fun w => f w _ rfl) h.1, by rw [(f w _ rfl).shared]; exact h.2.1, by have := h.2.2; omega⟩
  | keep w p a =>
    have := (f w _ rfl).count
    obtain ⟨h1, h2, h3, h4, h5⟩ := h
    exact ⟨FrameAt.restC (fun w => f w _ rfl) h1, by rw [(f w _ rfl).shared]; exact h2, by omega, (f w _ rfl).live p h5 h4, by rw [ho p _ h4, h5]⟩
  | zero w a =>
    have := (f w _ rfl).count
    obtain ⟨h1, p, h2, h3⟩ := h
    exact ⟨FrameAt.restC (fun w => f w _ rfl) h1, p, (f w _ rfl).ptr h2, by omega⟩
  | load w a =>
    have := (f w _ rfl).count
    obtain ⟨h1, p, h2, c, h3, h4⟩ := h
    exact ⟨FrameAt.restC (fun w => f w _ rfl) h1, p, (f w _ rfl).ptr h2, c, by rw [(f w _ rfl).shared]; exact h3, by omega⟩
  | plus w c a =>
    have := (f w _ rfl).count
    obtain ⟨h1, p, h2, h4⟩ := h
    exact ⟨FrameAt.restC (fun w => f w _ rfl) h1, p, (f w _ rfl).ptr h2, by omega⟩
  | argGrid a =>
    obtain ⟨⟨p, h1⟩, q, h2⟩ := h
    exact ⟨⟨p, (f .grid _ rfl).held h1⟩, q, (f .family _ rfl).held h2⟩
  | argFamily p a =>
    obtain ⟨h1, q, h2⟩ := h
    exact ⟨(f .grid _ rfl).held h1, q, (f .family _ rfl).held h2⟩
  | new p q a => exact ⟨(f .grid _ rfl).held h.1, (f .family _ rfl).held h.2⟩
  | wrap r a =>
    obtain ⟨p, q, h1, h2, h3, h4⟩ := h
    obtain ⟨k1, k2⟩ := hs _ p q r rfl h2.1.1 h1
    exact ⟨p, q, k1, (f .grid _ rfl).held h2, (f .family _ rfl).held h3, k2 h4⟩
  | drop x =>
    obtain ⟨p, q, h1, h2, h3, h4⟩ := h
    obtain ⟨k1, k2⟩ := hs _ p q x.rsSpace rfl h2.1.1 h1
    exact ⟨p, q, k1, (f .grid _ rfl).held h2, (f .family _ rfl).held h3, k2 h4⟩
  | loadDown w x =>
    obtain ⟨h1, p, h2⟩ := h
    exact ⟨FrameAt.restD (fun w => f w _ rfl) h1, p, (f w _ rfl).held h2⟩
  | minus w c x =>
    have := (f w _ rfl).count
    obtain ⟨h1, p, h2, h4⟩ := h
    exact ⟨FrameAt.restD (fun w => f w _ rfl) h1, p, (f w _ rfl).ptr h2, by omega⟩
  | test w x =>
    have := (f w _ rfl).count
    obtain ⟨h1, p, h2, c, h3, h4⟩ := h
    exact ⟨FrameAt.restD (fun w => f w _ rfl) h1, p, (f w _ rfl).ptr h2, c, by rw [(f w _ rfl).shared]; exact h3, by omega⟩
  | argFree w x =>
    have := (f w _ rfl).count
    obtain ⟨h1, p, h2, h3, h4⟩ := h
    exact ⟨FrameAt.restD (fun w => f w _ rfl) h1, p, (f w _ rfl).ptr h2, by omega, by rw [(f w _ rfl).shared]; exact h4⟩
  | free w p x =>
    have := (f w _ rfl).count
    obtain ⟨h1, h2, h3, h4⟩ := h
    exact ⟨FrameAt.restD (fun w => f w _ rfl) h1, (f w _ rfl).ptr h2, by omega, by rw [(f w _ rfl).shared]; exact h4⟩
  | delRs w x =>
    have := (f w _ rfl).count
    obtain ⟨h1, h2, h3, h4⟩ := h
    obtain ⟨p, h2, h5⟩ := h2
    exact ⟨FrameAt.restD (fun w => f w _ rfl) h1, ⟨p, by rw [(f w _ rfl).shared]; exact h2, (f w _ rfl).dead p h2 h5⟩, by omega,
      by rw [(f w _ rfl).shared]; exact h4⟩
  | delCount x =>
    have := (f .family _ rfl).count
    obtain ⟨h1, h2, h3, h4⟩ := h
    refine ⟨FrameAt.restD (fun w => f w _ rfl) h1, ?_, ?_, ?_⟩
    · rw [show s'.shared .family x.family = _ from (f .family _ rfl).shared]; exact h2
    · have : s'.total lk' .family x.family = s.total lk .family x.family := (f .family _ rfl).count
      omega
    · rw [show s'.shared .family x.family = _ from (f .family _ rfl).shared]; exact h4
  | use x =>
    obtain ⟨k, h⟩ := h
    exact ⟨k, hm x k rfl h⟩
  | over b => trivial

/-- One call makes a step. -/
theorem PyProcess.Inv.set {own own' : Nat → Which × Nat} {lk lk' : Which → Nat → Nat} {s : PyProcess} (inv : s.Inv own lk) (ap : s.Apart) {j : Nat}
    {pc pc' : PyPc} {py : Py}
    (hj : s.calls[j]? = some pc) (hu : (∃ b, pc' = .over b ∧ ∀ w i, pc.uses w = some i → py.Base lk' w i) ∨ pc'.uses = pc.uses)
    (hr : pc' = .over true ∨ pc ≠ .over true ∧ lk' = lk)
    (hf : pc'.Fine own' lk' py)
    (f : ∀ w i, pc.uses w ≠ some i → FrameAt own lk lk' s.py py w i)
    (ho : ∀ p o, s.py.heap.live p = some o → own' p = own p)
    (hs : ∀ g p q r, pc.uses .grid ≠ some g → (s.py.shared .grid g).rs = some p → s.py.heap.live r = some (.space p q) →
      py.heap.live r = some (.space p q) ∧ ((∀ e ∈ s.py.spaces, e.2.rsSpace ≠ r) → ∀ e ∈ py.spaces, e.2.rsSpace ≠ r))
    (old : ∀ p o, py.heap.live p = some o → p < py.heap.next)
    (oldRs : ∀ w i p, (py.shared w i).rs = some p → p < py.heap.next)
    (hown : ∀ w i p, (py.shared w i).rs = some p → own' p = (w, i))
    (spaces : ∀ e ∈ py.spaces, ∃ p q, py.heap.live e.2.rsSpace = some (.space p q) ∧ (py.shared .grid e.2.grid).rs = some p ∧
      (py.shared .family e.2.family).rs = some q)
    (nodup : py.spaces.Pairwise fun e e' => e.1 ≠ e'.1 ∧ e.2.rsSpace ≠ e'.2.rsSpace)
    (keys : ∀ e ∈ py.spaces, e.1 < py.nextSpace) (hsub : ∀ e ∈ s.py.spaces, e ∈ py.spaces)
    (hk : ∀ p o, py.heap.live p = some o → pc'.pending = some p ∨
      s.py.heap.live p = some o ∧ (s.py.Knows p → py.Knows p) ∧ (pc.pending = some p → py.Knows p)) :
    PyProcess.Inv own' lk' ⟨py, s.calls.set j pc'⟩ := by
  have hjl : j < s.calls.length := by
    rcases Nat.lt_or_ge j s.calls.length with h | h
    · exact h
    · rw [List.getElem?_eq_none h] at hj
      cases hj
  have hself : (s.calls.set j pc')[j]? = some pc' := List.getElem?_set_self hjl
  have hoth : ∀ {k : Nat}, k ≠ j → (s.calls.set j pc')[k]? = s.calls[k]? := fun e => List.getElem?_set_ne (Ne.symm e)
  refine ⟨old, oldRs, hown, ?_, ?_, spaces, nodup, keys, ?_, ?_⟩
  · intro w i hi
    by_cases hp : pc.uses w = some i
    · rcases hu with ⟨b, rfl, hb⟩ | hu
      · exact hb w i hp
      · exact absurd (hu ▸ hp) (hi j pc' hself)
    · refine (f w i hp).base (inv.idle w i ?_)
      intro k pk hk
      by_cases e : k = j
      · subst e
        rw [hj] at hk
        cases hk
        exact hp
      · exact hi k pk ((hoth e).trans hk)
  · intro k pk hk
    by_cases e : k = j
    · subst e
      have := hself
      rw [show (s.calls.set k pc')[k]? = some pk from hk] at this
      cases this
      exact hf
    · have hk' : s.calls[k]? = some pk := (hoth e).symm.trans hk
      refine (inv.fine k pk hk').frame ?_ ho ?_ fun x k _ => hsub (k, x)
      · intro w i hi
        exact f w i ((ap k j pk pc hk' hj e).1 w i hi)
      · intro g p q r hg
        exact hs g p q r ((ap k j pk pc hk' hj e).1 .grid g hg)
  · intro p o h
    rcases hk p o h with h1 | ⟨h1, h2, h3⟩
    · exact .inr ⟨j, pc', hself, h1⟩
    · rcases inv.known p o h1 with h4 | ⟨k, pk, h4, h5⟩
      · exact .inl (h2 h4)
      · by_cases e : k = j
        · subst e
          rw [hj] at h4
          cases h4
          exact .inl (h3 h5)
        · exact .inr ⟨k, pk, (hoth e).trans h4, h5⟩
  · intro h
    rcases hr with rfl | ⟨h1, rfl⟩
    · exact List.mem_of_getElem? hself
    · obtain ⟨k, hk⟩ := List.getElem?_of_mem (inv.raised h)
      have e : k ≠ j := by
        rintro rfl
        rw [hj] at hk
        cases hk
        exact h1 rfl
      exact List.mem_of_getElem? ((hoth e).trans hk)

theorem Py.shared_set_ne (s : Py) {w w' : Which} {i i' : Nat} (a : Shared) (h : ¬(w' = w ∧ i' = i)) :
    (s.setShared w i a).shared w' i' = s.shared w' i' := by
  cases w <;> cases w'
  · exact if_neg fun e => h ⟨rfl, e⟩
  · rfl
  · rfl
  · exact if_neg fun e => h ⟨rfl, e⟩

theorem Py.set_heap_eq (s : Py) (w : Which) (i : Nat) (a : Shared) : (s.setShared w i a).heap = s.heap := by cases w <;> rfl

theorem Py.set_spaces_eq (s : Py) (w : Which) (i : Nat) (a : Shared) : (s.setShared w i a).spaces = s.spaces := by cases w <;> rfl

theorem Py.set_count_eq (s : Py) (w w' : Which) (i i' : Nat) (a : Shared) : (s.setShared w i a).count w' i' = s.count w' i' := by
  unfold Py.count
  rw [Py.set_spaces_eq]

theorem Py.count_zero {s : Py} {w : Which} {i : Nat} (h : s.count w i = 0) : ∀ e ∈ s.spaces, e.2.which w ≠ i := by
  intro e he hi
  have := List.countP_eq_zero.mp h e he
  simp [hi] at this

theorem Py.set_total_eq (lk : Which → Nat → Nat) (s : Py) (w w' : Which) (i i' : Nat) (a : Shared) :
    (s.setShared w i a).total lk w' i' = s.total lk w' i' := by
  unfold Py.total
  rw [Py.set_count_eq]

theorem Py.total_zero {lk : Which → Nat → Nat} {s : Py} {w : Which} {i : Nat} (h : s.total lk w i = 0) : s.count w i = 0 :=
  Nat.eq_zero_of_add_eq_zero_right h

/-- A step that changes nothing but where the call is. -/
theorem PyProcess.Inv.stay {own : Nat → Which × Nat} {lk lk' : Which → Nat → Nat} {s : PyProcess} (inv : s.Inv own lk) (ap : s.Apart) {j : Nat}
    {pc pc' : PyPc} (hj : s.calls[j]? = some pc)
    (hu : (∃ b, pc' = .over b ∧ ∀ w i, pc.uses w = some i → s.py.Base lk' w i) ∨ pc'.uses = pc.uses)
    (hr : pc' = .over true ∨ pc ≠ .over true ∧ lk' = lk) (hlk : ∀ w i, pc.uses w ≠ some i → lk' w i = lk w i)
    (hp : pc.pending = none) (hf : pc'.Fine own lk' s.py) : PyProcess.Inv own lk' ⟨s.py, s.calls.set j pc'⟩ :=
  inv.set ap hj hu hr hf
    (fun w i h => ⟨rfl, by unfold Py.total; rw [hlk w i h], fun _ _ h => h, inv.owner w i, fun _ _ h => h⟩) (fun _ _ _ => rfl)
    (fun _ _ _ _ _ _ h => ⟨h, fun k => k⟩)
    inv.old inv.oldRs inv.owner inv.spaces inv.nodup inv.keys (fun _ h => h) fun _ _ h => .inr ⟨h, fun k => k, fun k => by rw [hp] at k; cases k⟩

/-- A step that sets attributes. -/
theorem PyProcess.Inv.assign {own : Nat → Which × Nat} {lk : Which → Nat → Nat} {s : PyProcess} (inv : s.Inv own lk) (ap : s.Apart) {j : Nat}
    {pc pc' : PyPc} {w : Which} {i : Nat}
    {a : Shared} (hj : s.calls[j]? = some pc) (hw : pc.uses w = some i)
    (hu : (∃ b, pc' = .over b ∧ ∀ w' i', pc.uses w' = some i' → (s.py.setShared w i a).Base lk w' i') ∨ pc'.uses = pc.uses)
    (hf : pc'.Fine own lk (s.py.setShared w i a))
    (ha : ∀ p, a.rs = some p → own p = (w, i) ∧ p < s.py.heap.next)
    (hc : a.rs = (s.py.shared w i).rs ∨ s.py.count w i = 0)
    (hd : ∀ p, (s.py.shared w i).rs = some p → a.rs = some p ∨ s.py.heap.live p = none)
    (hp : ∀ p, pc.pending = some p → a.rs = some p) : PyProcess.Inv own lk ⟨s.py.setShared w i a, s.calls.set j pc'⟩ := by
  have hrs : ∀ w' i' p, ((s.py.setShared w i a).shared w' i').rs = some p → own p = (w', i') ∧ p < s.py.heap.next := by
    intro w' i' p h
    by_cases e : w' = w ∧ i' = i
    · obtain ⟨rfl, rfl⟩ := e
      rw [Py.shared_set] at h
      exact ha p h
    · rw [Py.shared_set_ne _ _ e] at h
      exact ⟨inv.owner w' i' p h, inv.oldRs w' i' p h⟩
  have hsp : ∀ w', ∀ e ∈ s.py.spaces, ((s.py.setShared w i a).shared w' (e.2.which w')).rs = (s.py.shared w' (e.2.which w')).rs := by
    intro w' e he
    by_cases k : w' = w ∧ e.2.which w' = i
    · obtain ⟨rfl, k⟩ := k
      rcases hc with hc | hc
      · rw [k, Py.shared_set, hc]
      · exact absurd k (Py.count_zero hc e he)
    · rw [Py.shared_set_ne _ _ k]
  refine inv.set ap hj hu (.inr ⟨?_, rfl⟩) hf ?_ (fun _ _ _ => rfl) ?_ ?_ ?_ ?_ ?_ ?_ ?_ ?_ ?_
  · rintro rfl
    cases hw
  · intro w' i' hi
    refine ⟨Py.shared_set_ne _ _ ?_, ?_, ?_, inv.owner w' i', ?_⟩
    · rintro ⟨rfl, rfl⟩
      exact hi hw
    · exact Py.set_total_eq _ _ _ _ _ _ _
    · rw [Py.set_heap_eq]
      exact fun _ _ h => h
    · rw [Py.set_heap_eq]
      exact fun _ _ h => h
  · rw [Py.set_heap_eq, Py.set_spaces_eq]
    exact fun _ _ _ _ _ _ h => ⟨h, fun k => k⟩
  · rw [Py.set_heap_eq]
    exact inv.old
  · rw [Py.set_heap_eq]
    exact fun w' i' p h => (hrs w' i' p h).2
  · exact fun w' i' p h => (hrs w' i' p h).1
  · rw [Py.set_heap_eq, Py.set_spaces_eq]
    intro e he
    obtain ⟨p, q, h1, h2, h3⟩ := inv.spaces e he
    exact ⟨p, q, h1, (hsp .grid e he).trans h2, (hsp .family e he).trans h3⟩
  · rw [Py.set_spaces_eq]
    exact inv.nodup
  · rw [Py.set_spaces_eq, show (s.py.setShared w i a).nextSpace = s.py.nextSpace from by cases w <;> rfl]
    exact inv.keys
  · rw [Py.set_spaces_eq]
    exact fun _ h => h
  · intro p o h
    rw [Py.set_heap_eq] at h
    have hin : a.rs = some p → (s.py.setShared w i a).Knows p := fun k => .inl ⟨w, i, by rw [Py.shared_set]; exact k⟩
    refine .inr ⟨h, ?_, fun k => hin (hp p k)⟩
    rintro (⟨w', i', k⟩ | k)
    · by_cases e : w' = w ∧ i' = i
      · obtain ⟨rfl, rfl⟩ := e
        rcases hd p k with k' | k'
        · exact hin k'
        · rw [h] at k'
          cases k'
      · exact .inl ⟨w', i', by rw [Py.shared_set_ne _ _ e]; exact k⟩
    · exact .inr (by rw [Py.set_spaces_eq]; exact k)

theorem RustHeap.alloc_live {h : RustHeap} (old : ∀ p o, h.live p = some o → p < h.next) {o : RustObj} {p : Nat} {o' : RustObj}
    (k : h.live p = some o') : (h.alloc o).1.live p = some o' := by
  have : p ≠ h.next := Nat.ne_of_lt (old p o' k)
  show (if p = h.next then some o else h.live p) = some o'
  rw [if_neg this, k]

/-- A step that allocates. -/
theorem PyProcess.Inv.allocate {own : Nat → Which × Nat} {lk : Which → Nat → Nat} {s : PyProcess} (inv : s.Inv own lk) (ap : s.Apart) {j : Nat} {pc pc' : PyPc} (o : RustObj)
    (key : Which × Nat) (hj : s.calls[j]? = some pc) (hu : pc'.uses = pc.uses) (hn : pc ≠ .over true) (hp : pc.pending = none)
    (hp' : pc'.pending = some s.py.heap.next)
    (hf : (∀ p o', s.py.heap.live p = some o' → (s.py.heap.alloc o).1.live p = some o') →
      pc'.Fine (fun p => if p = s.py.heap.next then key else own p) lk { s.py with heap := (s.py.heap.alloc o).1 }) :
    PyProcess.Inv (fun p => if p = s.py.heap.next then key else own p) lk ⟨{ s.py with heap := (s.py.heap.alloc o).1 }, s.calls.set j pc'⟩ := by
  have hl : ∀ p o', s.py.heap.live p = some o' → (s.py.heap.alloc o).1.live p = some o' := fun _ _ k => RustHeap.alloc_live inv.old k
  have hsh : ∀ w i, ({ s.py with heap := (s.py.heap.alloc o).1 } : Py).shared w i = s.py.shared w i := fun w i => Py.shared_heap s.py w i _
  refine inv.set ap hj (.inr hu) (.inr ⟨hn, rfl⟩) (hf hl) ?_ ?_ ?_ ?_ ?_ ?_ ?_ inv.nodup inv.keys (fun _ h => h) ?_
  · exact fun w i _ => ⟨hsh w i, rfl, fun p h k => (if_neg (Nat.ne_of_lt (inv.oldRs w i p h))).trans k, inv.owner w i, fun p _ h => hl p _ h⟩
  · exact fun p o' h => if_neg (Nat.ne_of_lt (inv.old p o' h))
  · exact fun _ _ _ r _ _ h => ⟨hl r _ h, fun k => k⟩
  · intro p o' h
    have h' : (if p = s.py.heap.next then some o else s.py.heap.live p) = some o' := h
    show p < s.py.heap.next + 1
    split at h'
    · omega
    · have := inv.old p o' h'
      omega
  · intro w i p h
    rw [hsh] at h
    exact Nat.lt_succ_of_lt (inv.oldRs w i p h)
  · intro w i p h
    rw [hsh] at h
    rw [if_neg (Nat.ne_of_lt (inv.oldRs w i p h))]
    exact inv.owner w i p h
  · intro e he
    obtain ⟨p, q, h1, h2, h3⟩ := inv.spaces e he
    refine ⟨p, q, hl _ _ h1, ?_, ?_⟩
    · rw [hsh]; exact h2
    · rw [hsh]; exact h3
  · intro p o' h
    have h' : (if p = s.py.heap.next then some o else s.py.heap.live p) = some o' := h
    split at h'
    · rename_i e
      rw [e]
      exact .inl hp'
    · refine .inr ⟨h', ?_, fun k => by rw [hp] at k; cases k⟩
      rintro (⟨w, i, k⟩ | k)
      · exact .inl ⟨w, i, by rw [hsh]; exact k⟩
      · exact .inr k

/-- The memory without one object. -/
def RustHeap.without (h : RustHeap) (z : Nat) : RustHeap := { h with live := fun q => if q = z then none else h.live q }

theorem RustHeap.free_eq {h : RustHeap} {z : Nat} {o : RustObj} (k : h.live z = some o) : h.free z = some (h.without z) := by
  unfold RustHeap.free
  rw [k]
  rfl

theorem RustHeap.without_ne {h : RustHeap} {z p : Nat} (k : p ≠ z) : (h.without z).live p = h.live p := if_neg k

theorem RustHeap.without_dead {h : RustHeap} {z p : Nat} (k : h.live p = none) : (h.without z).live p = none := by
  show (if p = z then none else h.live p) = none
  rw [k]
  split <;> rfl

theorem Which.kind_ne (w : Which) (p q : Nat) : w.kind ≠ .space p q := by cases w <;> nofun

/-- A step that frees something that only this call works on. -/
theorem PyProcess.Inv.release {own : Nat → Which × Nat} {lk : Which → Nat → Nat} {s : PyProcess} (inv : s.Inv own lk) (ap : s.Apart) {j : Nat} {pc pc' : PyPc} {z : Nat}
    (hj : s.calls[j]? = some pc) (hu : pc'.uses = pc.uses) (hn : pc ≠ .over true)
    (hp : ∀ p, pc.pending = some p → p = z)
    (hz : (∃ w i, pc.uses w = some i ∧ own z = (w, i) ∧ s.py.heap.live z = some w.kind) ∨
      ∃ g p q, pc.uses .grid = some g ∧ (s.py.shared .grid g).rs = some p ∧ s.py.heap.live z = some (.space p q) ∧
        ∀ e ∈ s.py.spaces, e.2.rsSpace ≠ z)
    (hf : pc'.Fine own lk { s.py with heap := s.py.heap.without z }) :
    PyProcess.Inv own lk ⟨{ s.py with heap := s.py.heap.without z }, s.calls.set j pc'⟩ := by
  have hsh : ∀ w i, ({ s.py with heap := s.py.heap.without z } : Py).shared w i = s.py.shared w i := fun w i => Py.shared_heap s.py w i _
  refine inv.set ap hj (.inr hu) (.inr ⟨hn, rfl⟩) hf ?_ (fun _ _ _ => rfl) ?_ ?_ ?_ ?_ ?_ inv.nodup inv.keys (fun _ h => h) ?_
  · intro w i hi
    refine ⟨hsh w i, rfl, fun p _ k => ?_, inv.owner w i, fun p ho h => ?_⟩
    · show (if p = z then none else s.py.heap.live p) = none
      rw [k]
      split <;> rfl
    have : p ≠ z := by
      rintro rfl
      rcases hz with ⟨w', i', h1, h2, h3⟩ | ⟨g, p', q, h1, h2, h3, h4⟩
      · rw [ho] at h2
        cases h2
        exact hi h1
      · rw [h] at h3
        exact Which.kind_ne _ _ _ (Option.some.inj h3)
    show (s.py.heap.without z).live p = _
    rw [RustHeap.without_ne this, h]
  · intro g p q r hg h1 h2
    have : r ≠ z := by
      rintro rfl
      rcases hz with ⟨w', i', k1, k2, k3⟩ | ⟨g', p', q', k1, k2, k3, k4⟩
      · rw [h2] at k3
        exact Which.kind_ne _ _ _ (Option.some.inj k3).symm
      · rw [h2] at k3
        cases k3
        have e1 := inv.owner _ _ _ h1
        have e2 := inv.owner _ _ _ k2
        rw [e1] at e2
        cases e2
        exact hg k1
    refine ⟨?_, fun k => k⟩
    show (s.py.heap.without z).live r = _
    rw [RustHeap.without_ne this, h2]
  · intro p o h
    have h' : (if p = z then none else s.py.heap.live p) = some o := h
    split at h'
    · cases h'
    · exact inv.old p o h'
  · intro w i p h
    rw [hsh] at h
    exact inv.oldRs w i p h
  · intro w i p h
    rw [hsh] at h
    exact inv.owner w i p h
  · intro e he
    obtain ⟨p, q, h1, h2, h3⟩ := inv.spaces e he
    refine ⟨p, q, ?_, by rw [hsh]; exact h2, by rw [hsh]; exact h3⟩
    have : e.2.rsSpace ≠ z := by
      rintro rfl
      rcases hz with ⟨w', i', k1, k2, k3⟩ | ⟨g', p', q', k1, k2, k3, k4⟩
      · rw [h1] at k3
        exact Which.kind_ne _ _ _ (Option.some.inj k3).symm
      · exact k4 e he rfl
    show (s.py.heap.without z).live _ = _
    rw [RustHeap.without_ne this, h1]
  · intro p o h
    have h' : (if p = z then none else s.py.heap.live p) = some o := h
    split at h'
    · cases h'
    · rename_i e
      refine .inr ⟨h', ?_, fun k => absurd (hp p k) e⟩
      rintro (⟨w, i, k⟩ | k)
      · exact .inl ⟨w, i, by rw [hsh]; exact k⟩
      · exact .inr k

theorem Py.RestC.set {lk} {s : Py} {a : CreateArgs} {w : Which} (h : s.RestC lk a w) (i : Nat) (b : Shared) : (s.setShared w i b).RestC lk a w := by
  cases w <;> exact h

theorem Py.RestD.set {lk} {s : Py} {x : PySpace} {w : Which} (h : s.RestD lk x w) (i : Nat) (b : Shared) : (s.setShared w i b).RestD lk x w := by
  cases w <;> exact h

theorem base_both {lk} {s : Py} {u : Which → Nat} (hg : s.Base lk .grid (u .grid)) (hf : s.Base lk .family (u .family)) (w : Which) (i : Nat)
    (e : some (u w) = some i) : s.Base lk w i := by
  cases e
  cases w
  · exact hg
  · exact hf

theorem Py.Ptr.set {s : Py} {w : Which} {i p : Nat} {b : Shared} (h : s.Ptr w i p) (e : b.rs = some p) : (s.setShared w i b).Ptr w i p := by
  refine ⟨by rw [Py.shared_set]; exact e, ?_⟩
  rw [Py.set_heap_eq]
  exact h.2

theorem Py.Base.ptr {lk} {s : Py} {w : Which} {i : Nat} (h : s.Base lk w i) (n : s.count w i ≠ 0) : ∃ p, s.Ptr w i p := by
  rcases h with ⟨_, h⟩ | ⟨p, h, _⟩
  · exact absurd (Py.total_zero h) n
  · exact ⟨p, h⟩

theorem Py.RestC.ptr {lk} {s : Py} {a : CreateArgs} {w : Which} (h : s.RestC lk a w) (k : s.count w (a.which w) ≠ 0 → ∃ p, s.Ptr w (a.which w) p) (w' : Which)
    (n : s.count w' (a.which w') ≠ 0) : ∃ p, s.Ptr w' (a.which w') p := by
  cases w <;> cases w'
  · exact k n
  · exact Py.Base.ptr h n
  · obtain ⟨p, h, _⟩ := h
    exact ⟨p, h⟩
  · exact k n

theorem Py.RestD.ptr {lk} {s : Py} {a : PySpace} {w : Which} (h : s.RestD lk a w) (k : s.count w (a.which w) ≠ 0 → ∃ p, s.Ptr w (a.which w) p) (w' : Which)
    (n : s.count w' (a.which w') ≠ 0) : ∃ p, s.Ptr w' (a.which w') p := by
  cases w <;> cases w'
  · exact k n
  · exact Py.Base.ptr h n
  · obtain ⟨p, h, _⟩ := h
    exact ⟨p, h⟩
  · exact k n

theorem PyPc.Fine.ptr {own : Nat → Which × Nat} {lk : Which → Nat → Nat} {s : Py} {pc : PyPc} (h : pc.Fine own lk s) {w : Which} {i : Nat} (hu : pc.uses w = some i)
    (n : s.count w i ≠ 0) : ∃ p, s.Ptr w i p := by
  cases pc with
  | has v a => cases hu; exact h.1.ptr h.2.ptr w n
  | make v a => cases hu; exact h.1.ptr (fun k => absurd (Py.total_zero h.2.2) k) w n
  | keep v p a => cases hu; exact h.1.ptr (fun k => absurd (Py.total_zero h.2.2.1) k) w n
  | zero v a => cases hu; obtain ⟨h1, p, h2, _⟩ := h; exact h1.ptr (fun _ => ⟨p, h2⟩) w n
  | load v a => cases hu; obtain ⟨h1, p, h2, _⟩ := h; exact h1.ptr (fun _ => ⟨p, h2⟩) w n
  | plus v c a => cases hu; obtain ⟨h1, p, h2, _⟩ := h; exact h1.ptr (fun _ => ⟨p, h2⟩) w n
  | argGrid a =>
    cases hu
    obtain ⟨⟨p, h1, _⟩, q, h2, _⟩ := h
    cases w
    · exact ⟨p, h1⟩
    · exact ⟨q, h2⟩
  | argFamily p a =>
    cases hu
    obtain ⟨⟨h1, _⟩, q, h2, _⟩ := h
    cases w
    · exact ⟨p, h1⟩
    · exact ⟨q, h2⟩
  | new p q a =>
    cases hu
    cases w
    · exact ⟨p, h.1.1⟩
    · exact ⟨q, h.2.1⟩
  | wrap r a =>
    cases hu
    obtain ⟨p, q, _, h1, h2, _⟩ := h
    cases w
    · exact ⟨p, h1.1⟩
    · exact ⟨q, h2.1⟩
  | drop x =>
    cases hu
    obtain ⟨p, q, _, h1, h2, _⟩ := h
    cases w
    · exact ⟨p, h1.1⟩
    · exact ⟨q, h2.1⟩
  | loadDown v x => cases hu; obtain ⟨h1, p, h2, _⟩ := h; exact h1.ptr (fun _ => ⟨p, h2⟩) w n
  | minus v c x => cases hu; obtain ⟨h1, p, h2, _⟩ := h; exact h1.ptr (fun _ => ⟨p, h2⟩) w n
  | test v x => cases hu; obtain ⟨h1, p, h2, _⟩ := h; exact h1.ptr (fun _ => ⟨p, h2⟩) w n
  | argFree v x => cases hu; obtain ⟨h1, p, h2, _⟩ := h; exact h1.ptr (fun _ => ⟨p, h2⟩) w n
  | free v p x => cases hu; obtain ⟨h1, h2, _⟩ := h; exact h1.ptr (fun _ => ⟨p, h2⟩) w n
  | delRs v x => cases hu; exact h.1.ptr (fun k => absurd (Py.total_zero h.2.2.1) k) w n
  | delCount x => cases hu; exact Py.RestD.ptr h.1 (fun k => absurd (Py.total_zero h.2.2.1) k) w n
  | use x => cases hu
  | over b => cases hu

/-- The Rust grid or family of a space exists. -/
theorem PyProcess.Inv.alive {own : Nat → Which × Nat} {lk : Which → Nat → Nat} {s : PyProcess} (inv : s.Inv own lk) {e : Nat × PySpace} (he : e ∈ s.py.spaces) (w : Which) :
    ∃ p, s.py.Ptr w (e.2.which w) p := by
  have n : s.py.count w (e.2.which w) ≠ 0 := fun h => Py.count_zero h e he rfl
  by_cases h : ∃ (j : Nat) (pc : PyPc), s.calls[j]? = some pc ∧ pc.uses w = some (e.2.which w)
  · obtain ⟨j, pc, h1, h2⟩ := h
    exact (inv.fine j pc h1).ptr h2 n
  · exact (inv.idle w _ fun j pc h1 h2 => h ⟨j, pc, h1, h2⟩).ptr n

theorem PyProcess.Inv.next {own : Nat → Which × Nat} {lk : Which → Nat → Nat} {s : PyProcess} (inv : s.Inv own lk) (ap : s.Apart) {j : Nat} {pc : PyPc}
    (hj : s.calls[j]? = some pc) :
    ∃ py pc' own' lk', pc.step s.py = some (py, pc') ∧ PyProcess.Inv own' lk' ⟨py, s.calls.set j pc'⟩ ∧ pc.RaisesOnly pc' := by
  have h := inv.fine j pc hj
  cases pc with
  | has w a =>
    obtain ⟨h1, h2⟩ := h
    rcases h2 with ⟨h2, h3⟩ | ⟨p, h2, c, h3, h4, h5⟩
    · refine ⟨s.py, .make w a, own, lk, by simp [PyPc.step, h2], inv.stay ap hj (.inr rfl) (.inr ⟨nofun, rfl⟩) (fun _ _ _ => rfl) rfl ⟨h1, h2, h3⟩, nofun⟩
    · refine ⟨s.py, .load w a, own, lk, by simp [PyPc.step, h2.1], inv.stay ap hj (.inr rfl) (.inr ⟨nofun, rfl⟩) (fun _ _ _ => rfl) rfl ⟨h1, p, h2, c, h3, h5⟩, nofun⟩
  | make w a =>
    obtain ⟨h1, h2, h3⟩ := h
    cases ok : a.ok w with
    | false =>
      cases w with
      | grid =>
        exact ⟨s.py, .over true, own, lk, by simp [PyPc.step, ok],
          inv.stay ap hj (.inl ⟨true, rfl, base_both (u := a.which) (.inl ⟨h2, h3⟩) h1⟩) (.inl rfl) (fun _ _ _ => rfl) rfl trivial,
          fun _ => .inr ⟨.grid, a, rfl, ok⟩⟩
      | family =>
        obtain ⟨p, h1⟩ := h1
        refine ⟨s.py, .over true, own, fun w i => if w = .grid ∧ i = a.grid then lk w i + 1 else lk w i, by simp [PyPc.step, ok],
          inv.stay ap hj (.inl ⟨true, rfl, base_both (u := a.which) (h1.base ?_) (.inl ⟨h2, ?_⟩)⟩) (.inl rfl) ?_ rfl trivial,
          fun _ => .inr ⟨.family, a, rfl, ok⟩⟩
        · simp [Py.total, Nat.add_assoc]
        · simpa [Py.total] using h3
        · intro w i hi
          refine if_neg ?_
          rintro ⟨rfl, rfl⟩
          exact hi rfl
    | true =>
      refine ⟨_, .keep w s.py.heap.next a, _, lk, ?_, inv.allocate ap w.kind (w, a.which w) hj rfl nofun rfl rfl fun hl => ⟨?_, ?_, h3, ?_, ?_⟩, nofun⟩
      · simp only [PyPc.step, ok]
        rfl
      · exact FrameAt.restC (own := own) (lk := lk) (fun w => ⟨Py.shared_heap s.py w _ _, rfl, fun p h k => (if_neg (Nat.ne_of_lt (inv.oldRs _ _ p h))).trans k, inv.owner w _, fun p _ k => hl p _ k⟩) h1
      · rw [Py.shared_heap]
        exact h2
      · exact if_pos rfl
      · exact if_pos rfl
  | keep w p a =>
    obtain ⟨h1, h2, h3, h4, h5⟩ := h
    refine ⟨_, _, own, lk, rfl, inv.assign ap hj rfl (.inr rfl) ⟨h1.set _ _, p, ⟨?_, ?_⟩, ?_⟩ ?_ (.inr (Py.total_zero h3)) ?_ ?_, nofun⟩
    · rw [Py.shared_set]
    · rw [Py.set_heap_eq]
      exact h4
    · rw [Py.set_total_eq]
      exact h3
    · intro p' e
      cases e
      exact ⟨h5, inv.old p _ h4⟩
    · intro p' e
      rw [h2] at e
      cases e
    · exact fun _ e => e
  | zero w a =>
    obtain ⟨h1, p, h2, h3⟩ := h
    refine ⟨_, _, own, lk, rfl, inv.assign ap hj rfl (.inr rfl) ⟨h1.set _ _, p, h2.set h2.1, 0, ?_, ?_⟩ ?_ (.inl rfl) (fun _ e => .inl e) nofun, nofun⟩
    · rw [Py.shared_set]
    · rw [Py.set_total_eq, h3]
      decide
    · exact fun p' e => ⟨inv.owner _ _ p' e, inv.oldRs _ _ p' e⟩
  | load w a =>
    obtain ⟨h1, p, h2, c, h3, h4⟩ := h
    exact ⟨s.py, .plus w c a, own, lk, by simp only [PyPc.step, h3], inv.stay ap hj (.inr rfl) (.inr ⟨nofun, rfl⟩) (fun _ _ _ => rfl) rfl ⟨h1, p, h2, h4⟩, nofun⟩
  | plus w c a =>
    obtain ⟨h1, p, h2, h4⟩ := h
    have hh : (s.py.setShared w (a.which w) { s.py.shared w (a.which w) with refcount := some (c + 1) }).Held lk w (a.which w) p := by
      refine ⟨h2.set h2.1, c + 1, by rw [Py.shared_set], ?_⟩
      rw [Py.set_total_eq]
      omega
    refine ⟨_, _, own, lk, rfl, inv.assign ap hj rfl (.inr ?_) ?_ ?_ (.inl rfl) (fun _ e => .inl e) nofun, ?_⟩
    · cases w <;> rfl
    · cases w with
      | grid => exact ⟨⟨p, hh⟩, h1⟩
      | family => exact ⟨h1, p, hh⟩
    · exact fun p' e => ⟨inv.owner _ _ p' e, inv.oldRs _ _ p' e⟩
    · cases w <;> nofun
  | argGrid a =>
    obtain ⟨⟨p, h1⟩, h2⟩ := h
    have e : (s.py.grids a.grid).rs = some p := h1.1.1
    exact ⟨s.py, .argFamily p a, own, lk, by simp only [PyPc.step, e], inv.stay ap hj (.inr rfl) (.inr ⟨nofun, rfl⟩) (fun _ _ _ => rfl) rfl ⟨h1, h2⟩, nofun⟩
  | argFamily p a =>
    obtain ⟨h1, q, h2⟩ := h
    have e : (s.py.families a.family).rs = some q := h2.1.1
    exact ⟨s.py, .new p q a, own, lk, by simp only [PyPc.step, e], inv.stay ap hj (.inr rfl) (.inr ⟨nofun, rfl⟩) (fun _ _ _ => rfl) rfl ⟨h1, h2⟩, nofun⟩
  | new p q a =>
    obtain ⟨h1, h2⟩ := h
    have e1 : s.py.heap.live p = some .grid := h1.1.2
    have e2 : s.py.heap.live q = some .family := h2.1.2
    refine ⟨_, .wrap s.py.heap.next a, _, lk, ?_, inv.allocate ap (.space p q) (.grid, 0) hj rfl nofun rfl rfl fun hl => ⟨p, q, if_pos rfl, ?_, ?_, ?_⟩, nofun⟩
    · simp only [PyPc.step, e1, e2]
      rfl
    · exact FrameAt.held (own := own) (lk := lk) ⟨Py.shared_heap s.py _ _ _, rfl, fun p h k => (if_neg (Nat.ne_of_lt (inv.oldRs _ _ p h))).trans k, inv.owner _ _, fun p _ k => hl p _ k⟩ h1
    · exact FrameAt.held (own := own) (lk := lk) ⟨Py.shared_heap s.py _ _ _, rfl, fun p h k => (if_neg (Nat.ne_of_lt (inv.oldRs _ _ p h))).trans k, inv.owner _ _, fun p _ k => hl p _ k⟩ h2
    · intro e he
      obtain ⟨_, _, k, _⟩ := inv.spaces e he
      exact Nat.ne_of_lt (inv.old _ _ k)
  | wrap r a =>
    obtain ⟨p, q, h1, h2, h3, h4⟩ := h
    have hc : ∀ w i, Py.count { s.py with spaces := (s.py.nextSpace, ⟨r, a.grid, a.family⟩) :: s.py.spaces, nextSpace := s.py.nextSpace + 1 } w i =
        s.py.count w i + if a.which w = i then 1 else 0 := by
      intro w i
      unfold Py.count
      rw [List.countP_cons]
      cases w <;> simp only [PySpace.which, CreateArgs.which, beq_iff_eq] <;> split <;> simp_all
    have hsh : ∀ w i, Py.shared { s.py with spaces := (s.py.nextSpace, ⟨r, a.grid, a.family⟩) :: s.py.spaces, nextSpace := s.py.nextSpace + 1 } w i =
        s.py.shared w i := by
      intro w i
      cases w <;> rfl
    have hb : ∀ w p, s.py.Held lk w (a.which w) p → Py.Base lk
        { s.py with spaces := (s.py.nextSpace, ⟨r, a.grid, a.family⟩) :: s.py.spaces, nextSpace := s.py.nextSpace + 1 } w (a.which w) := by
      intro w p h
      obtain ⟨k1, c, k2, k3⟩ := h
      refine .inr ⟨p, ⟨by rw [hsh]; exact k1.1, k1.2⟩, c, by rw [hsh]; exact k2, by omega, ?_⟩
      have := hc w (a.which w)
      rw [if_pos rfl] at this
      unfold Py.total at k3 ⊢
      rw [this]
      omega
    refine ⟨_, .over false, own, lk, rfl, inv.set ap hj (.inl ⟨false, rfl, ?_⟩) (.inr ⟨nofun, rfl⟩) trivial ?_ (fun _ _ _ => rfl) ?_ inv.old ?_ ?_ ?_ ?_ ?_ (fun _ h => List.mem_cons_of_mem _ h) ?_, nofun⟩
    · intro w i e
      cases e
      cases w
      · exact hb .grid p h2
      · exact hb .family q h3
    · intro w i hi
      refine ⟨hsh w i, ?_, fun _ _ k => k, inv.owner w i, fun _ _ k => k⟩
      unfold Py.total
      rw [hc, if_neg]
      · rfl
      · rintro rfl
        exact hi rfl
    · intro g p' q' r' hg k1 k2
      refine ⟨k2, fun k e he => ?_⟩
      rcases List.mem_cons.mp he with rfl | he
      · rintro rfl
        dsimp only at k2
        rw [h1] at k2
        cases k2
        have e1 := inv.owner _ _ _ k1
        have e2 := inv.owner _ _ _ h2.1.1
        rw [e1] at e2
        cases e2
        exact hg rfl
      · exact k e he
    · intro w i p' k
      rw [hsh] at k
      exact inv.oldRs w i p' k
    · intro w i p' k
      rw [hsh] at k
      exact inv.owner w i p' k
    · intro e he
      rcases List.mem_cons.mp he with rfl | he
      · exact ⟨p, q, h1, h2.1.1, h3.1.1⟩
      · exact inv.spaces e he
    · exact List.pairwise_cons.mpr ⟨fun e he => ⟨Nat.ne_of_gt (inv.keys e he), (h4 e he).symm⟩, inv.nodup⟩
    · intro e he
      rcases List.mem_cons.mp he with rfl | he
      · exact Nat.lt_succ_self _
      · exact Nat.lt_succ_of_lt (inv.keys e he)
    · intro p' o k
      refine .inr ⟨k, ?_, ?_⟩
      · rintro (⟨w, i, m⟩ | ⟨e, he, m⟩)
        · exact .inl ⟨w, i, by rw [hsh]; exact m⟩
        · exact .inr ⟨e, List.mem_cons_of_mem _ he, m⟩
      · intro m
        cases m
        exact .inr ⟨_, List.mem_cons_self, rfl⟩
  | drop x =>
    obtain ⟨p, q, h1, h2, h3, h4⟩ := h
    have hfr : ∀ w i, FrameAt own lk lk s.py { s.py with heap := s.py.heap.without x.rsSpace } w i := by
      intro w i
      refine ⟨Py.shared_heap s.py w i _, rfl, fun p' _ k => RustHeap.without_dead k, inv.owner w i, fun p' _ k => ?_⟩
      have : p' ≠ x.rsSpace := by
        rintro rfl
        rw [h1] at k
        exact Which.kind_ne _ _ _ (Option.some.inj k).symm
      show (s.py.heap.without x.rsSpace).live p' = _
      rw [RustHeap.without_ne this, k]
    refine ⟨_, .loadDown .family x, own, lk, ?_, inv.release ap hj rfl nofun (fun _ e => (Option.some.inj e).symm) (.inr ⟨x.grid, p, q, rfl, h2.1.1, h1, h4⟩) ⟨⟨p, (hfr _ _).held h2⟩, q, (hfr _ _).held h3⟩,
      nofun⟩
    simp only [PyPc.step, RustHeap.free_eq h1]
  | loadDown w x =>
    obtain ⟨h1, p, h2, c, h3, h4⟩ := h
    exact ⟨s.py, .minus w c x, own, lk, by simp only [PyPc.step, h3], inv.stay ap hj (.inr rfl) (.inr ⟨nofun, rfl⟩) (fun _ _ _ => rfl) rfl ⟨h1, p, h2, h4⟩, nofun⟩
  | minus w c x =>
    obtain ⟨h1, p, h2, h4⟩ := h
    refine ⟨_, _, own, lk, rfl, inv.assign ap hj rfl (.inr rfl) ⟨h1.set _ _, p, h2.set h2.1, c - 1, by rw [Py.shared_set], ?_⟩ ?_ (.inl rfl) (fun _ e => .inl e) nofun, nofun⟩
    · rw [Py.set_total_eq]
      omega
    · exact fun p' e => ⟨inv.owner _ _ p' e, inv.oldRs _ _ p' e⟩
  | test w x =>
    obtain ⟨h1, p, h2, c, h3, h4⟩ := h
    by_cases c0 : c = 0
    · refine ⟨s.py, .argFree w x, own, lk, by simp only [PyPc.step, h3, c0, if_true], inv.stay ap hj (.inr rfl) (.inr ⟨nofun, rfl⟩) (fun _ _ _ => rfl) rfl ⟨h1, p, h2, by omega, c, h3⟩, nofun⟩
    · have hb : s.py.Base lk w (x.which w) := .inr ⟨p, h2, c, h3, by omega, h4⟩
      refine ⟨s.py, x.after w, own, lk, by simp only [PyPc.step, h3, if_neg c0], ?_, ?_⟩
      · cases w with
        | grid => exact inv.stay ap hj (.inl ⟨false, rfl, base_both (u := x.which) hb h1⟩) (.inr ⟨nofun, rfl⟩) (fun _ _ _ => rfl) rfl trivial
        | family => exact inv.stay ap hj (.inr rfl) (.inr ⟨nofun, rfl⟩) (fun _ _ _ => rfl) rfl ⟨hb, h1⟩
      · cases w <;> nofun
  | argFree w x =>
    obtain ⟨h1, p, h2, h3, h4⟩ := h
    exact ⟨s.py, .free w p x, own, lk, by simp only [PyPc.step, h2.1], inv.stay ap hj (.inr rfl) (.inr ⟨nofun, rfl⟩) (fun _ _ _ => rfl) rfl ⟨h1, h2, h3, h4⟩, nofun⟩
  | free w p x =>
    obtain ⟨h1, h2, h3, h4⟩ := h
    have ho := inv.owner _ _ _ h2.1
    have hfr : ∀ w' i, w' ≠ w → FrameAt own lk lk s.py { s.py with heap := s.py.heap.without p } w' i := by
      intro w' i hw
      refine ⟨Py.shared_heap s.py w' i _, rfl, fun p' _ k => RustHeap.without_dead k, inv.owner w' i, fun p' o' k => ?_⟩
      have : p' ≠ p := by
        rintro rfl
        rw [ho] at o'
        cases o'
        exact hw rfl
      show (s.py.heap.without p).live p' = _
      rw [RustHeap.without_ne this, k]
    refine ⟨_, .delRs w x, own, lk, ?_, inv.release ap hj rfl nofun nofun (.inl ⟨w, x.which w, rfl, ho, h2.2⟩) ⟨?_, ⟨p, ?_, if_pos rfl⟩, h3, ?_⟩, nofun⟩
    · simp only [PyPc.step, RustHeap.free_eq h2.2]
    · cases w with
      | grid => exact (hfr .family _ nofun).base h1
      | family =>
        obtain ⟨p', h1⟩ := h1
        exact ⟨p', (hfr .grid _ nofun).held h1⟩
    · rw [Py.shared_heap]
      exact h2.1
    · rw [Py.shared_heap]
      exact h4
  | delRs w x =>
    obtain ⟨h1, ⟨p, h2, h5⟩, h3, c, h4⟩ := h
    have hd : ∀ p', (s.py.shared w (x.which w)).rs = some p' → (none : Option Nat) = some p' ∨ s.py.heap.live p' = none := by
      intro p' e
      rw [h2] at e
      cases e
      exact .inr h5
    have hn : ((s.py.setShared w (x.which w) { s.py.shared w (x.which w) with rs := none }).shared w (x.which w)).rs = none := by
      rw [Py.shared_set]
    have hz : (s.py.setShared w (x.which w) { s.py.shared w (x.which w) with rs := none }).total lk w (x.which w) = 0 := by
      rw [Py.set_total_eq]
      exact h3
    cases w with
    | grid =>
      refine ⟨_, .over false, own, lk, by simp only [PyPc.step, h2]; rfl, inv.assign ap hj rfl (.inl ⟨false, rfl, base_both (u := x.which) (.inl ⟨hn, hz⟩) (h1.set _ _)⟩) trivial
        nofun (.inr (Py.total_zero h3)) hd nofun, nofun⟩
    | family =>
      refine ⟨_, .delCount x, own, lk, by simp only [PyPc.step, h2], inv.assign ap hj rfl (.inr rfl) ⟨h1.set _ _, hn, hz, c, ?_⟩ nofun (.inr (Py.total_zero h3)) hd nofun, nofun⟩
      exact (congrArg Shared.refcount (Py.shared_set s.py .family x.family _)).trans h4
  | delCount x =>
    obtain ⟨h1, h2, h3, c, h4⟩ := h
    have e : (s.py.families x.family).refcount = some c := h4
    have hb : (s.py.setShared .family x.family { s.py.shared .family x.family with refcount := none }).Base lk .family x.family := by
      refine .inl ⟨?_, h3⟩
      rw [Py.shared_set]
      exact h2
    refine ⟨_, .loadDown .grid x, own, lk, by simp only [PyPc.step, e]; rfl,
      inv.assign (w := .family) (i := x.family) (a := { s.py.shared .family x.family with refcount := none }) ap hj rfl (.inr rfl) ⟨hb, h1⟩ ?_ (.inl rfl) (fun _ e => .inl e) nofun, nofun⟩
    exact fun p' e => ⟨inv.owner _ _ p' e, inv.oldRs _ _ p' e⟩
  | use x =>
    obtain ⟨k, h⟩ := h
    obtain ⟨p, q, h1, h2, h3⟩ := inv.spaces _ h
    obtain ⟨p', k1, e1⟩ := inv.alive h .grid
    obtain ⟨q', k2, e2⟩ := inv.alive h .family
    cases (h2.symm.trans k1 : some p = some p')
    cases (h3.symm.trans k2 : some q = some q')
    have h1' : s.py.heap.live x.rsSpace = some (.space p q) := h1
    refine ⟨s.py, .over false, own, lk, ?_, inv.stay ap hj (.inr rfl) (.inr ⟨nofun, rfl⟩) (fun _ _ _ => rfl) rfl trivial, nofun⟩
    simp only [PyPc.step, h1']
    rw [show s.py.heap.live p = some .grid from e1, show s.py.heap.live q = some .family from e2]
  | over b =>
    refine ⟨s.py, .over b, own, lk, rfl, inv.stay ap hj (.inr rfl) ?_ (fun _ _ _ => rfl) rfl trivial, fun e => .inl e⟩
    cases b
    · exact .inr ⟨nofun, rfl⟩
    · exact .inl rfl

theorem PyProcess.Inv.start : PyProcess.Inv (fun _ => (.grid, 0)) (fun _ _ => 0) PyProcess.start := by
  refine ⟨nofun, ?_, ?_, ?_, ?_, nofun, .nil, nofun, nofun, fun ⟨_, _, h⟩ => absurd rfl h⟩
  · intro w i p h
    cases w <;> cases h
  · intro w i p h
    cases w <;> cases h
  · intro w i _
    cases w <;> exact .inl ⟨rfl, rfl⟩
  · intro j pc h
    cases h

/-- A call begins. -/
theorem PyProcess.Inv.add {own : Nat → Which × Nat} {lk : Which → Nat → Nat} {s : PyProcess} (inv : s.Inv own lk) {pc : PyPc} {l : Map Nat PySpace}
    (ap : PyProcess.Apart ⟨{ s.py with spaces := l }, s.calls ++ [pc]⟩)
    (hl : List.Sublist l s.py.spaces) (hf : pc.Fine own lk { s.py with spaces := l })
    (hc : ∀ w i, pc.uses w ≠ some i → Py.count { s.py with spaces := l } w i = s.py.count w i)
    (hp : ∀ e ∈ s.py.spaces, e ∈ l ∨ pc = .drop e.2) :
    PyProcess.Inv own lk ⟨{ s.py with spaces := l }, s.calls ++ [pc]⟩ := by
  have hsh : ∀ w i, Py.shared { s.py with spaces := l } w i = s.py.shared w i := by
    intro w i
    cases w <;> rfl
  have fr : ∀ w i, pc.uses w ≠ some i → FrameAt own lk lk s.py { s.py with spaces := l } w i := fun w i h =>
    ⟨hsh w i, by unfold Py.total; rw [hc w i h], fun _ _ k => k, inv.owner w i, fun _ _ k => k⟩
  have hlast : (s.calls ++ [pc])[s.calls.length]? = some pc := by
    rw [List.getElem?_append_right (Nat.le_refl _), Nat.sub_self]
    rfl
  have hleft : ∀ {j : Nat} {pk : PyPc}, s.calls[j]? = some pk → (s.calls ++ [pc])[j]? = some pk := by
    intro j pk hj
    rw [List.getElem?_append_left (List.getElem?_eq_some_iff.mp hj).1, hj]
  refine ⟨inv.old, ?_, ?_, ?_, ?_, ?_, inv.nodup.sublist hl, fun e he => inv.keys e (hl.subset he), ?_,
    fun h => List.mem_append_left _ (inv.raised h)⟩
  · intro w i p h
    rw [hsh] at h
    exact inv.oldRs w i p h
  · intro w i p h
    rw [hsh] at h
    exact inv.owner w i p h
  · intro w i hi
    exact (fr w i (hi _ pc hlast)).base (inv.idle w i fun j pk hj => hi j pk (hleft hj))
  · intro j pk hj
    have hj' : (s.calls ++ [pc])[j]? = some pk := hj
    rcases Nat.lt_or_ge j s.calls.length with h | h
    · rw [List.getElem?_append_left h] at hj'
      refine (inv.fine j pk hj').frame (fun w i hi => fr w i fun hi' => ?_) (fun _ _ _ => rfl) ?_ ?_
      · exact (ap s.calls.length j pc pk hlast hj (Nat.ne_of_gt h)).1 w i hi' hi
      rotate_left
      · intro x k hx hk
        rcases hp _ hk with h1 | h1
        · exact h1
        · exact absurd (by rw [h1]; rfl) ((ap j s.calls.length pk pc hj hlast (Nat.ne_of_lt h)).2 x hx)
      · exact fun _ _ _ _ _ _ k => ⟨k, fun m e he => m e (hl.subset he)⟩
    · rw [List.getElem?_append_right h] at hj'
      have := List.mem_of_getElem? hj'
      rw [List.mem_singleton] at this
      rw [this]
      exact hf
  · intro e he
    obtain ⟨p, q, h1, h2, h3⟩ := inv.spaces e (hl.subset he)
    exact ⟨p, q, h1, h2, h3⟩
  · intro p o h
    rcases inv.known p o h with (⟨w, i, k⟩ | ⟨e, he, k⟩) | ⟨j, pk, h1, h2⟩
    · exact .inl (.inl ⟨w, i, by rw [hsh]; exact k⟩)
    · rcases hp e he with he' | he'
      · exact .inl (.inr ⟨e, he', k⟩)
      · exact .inr ⟨_, pc, hlast, by rw [he', ← k]; rfl⟩
    · exact .inr ⟨j, pk, hleft h1, h2⟩

theorem Map.mem_of_get? {V : Type} {m : Map Nat V} {k : Nat} {v : V} (h : m.get? k = some v) : (k, v) ∈ m := by
  have h' : List.lookup k m = some v := h
  induction m with
  | nil => cases h'
  | cons e m ih =>
    obtain ⟨a, b⟩ := e
    rw [List.lookup_cons] at h'
    split at h'
    · rename_i hk
      cases h'
      rw [beq_iff_eq] at hk
      rw [hk]
      exact List.mem_cons_self
    · exact List.mem_cons_of_mem _ (ih h' h')

theorem pairwise_ne {l : List (Nat × PySpace)} (h : l.Pairwise fun e e' => e.1 ≠ e'.1 ∧ e.2.rsSpace ≠ e'.2.rsSpace) {a b : Nat × PySpace} (ha : a ∈ l)
    (hb : b ∈ l) (hne : a ≠ b) : a.1 ≠ b.1 ∧ a.2.rsSpace ≠ b.2.rsSpace := by
  induction l with
  | nil => cases ha
  | cons x l ih =>
    obtain ⟨h1, h2⟩ := List.pairwise_cons.mp h
    rcases List.mem_cons.mp ha with rfl | ha'
    · rcases List.mem_cons.mp hb with rfl | hb'
      · exact absurd rfl hne
      · exact h1 b hb'
    · rcases List.mem_cons.mp hb with rfl | hb'
      · exact ⟨(h1 a ha').1.symm, (h1 a ha').2.symm⟩
      · exact ih h2 ha' hb'

theorem countP_forget {l : List (Nat × PySpace)} (h : l.Pairwise fun e e' => e.1 ≠ e'.1 ∧ e.2.rsSpace ≠ e'.2.rsSpace) {k : Nat} {x : PySpace}
    (hm : (k, x) ∈ l) (P : Nat × PySpace → Bool) {c : Prop} [Decidable c] (hP : P (k, x) = true ↔ c) :
    l.countP P = (l.filter fun e => e.1 ≠ k).countP P + if c then 1 else 0 := by
  induction l with
  | nil => cases hm
  | cons y l ih =>
    obtain ⟨h1, h2⟩ := List.pairwise_cons.mp h
    rcases List.mem_cons.mp hm with rfl | hm'
    · have : l.filter (fun e => e.1 ≠ k) = l := by
        rw [List.filter_eq_self]
        intro e he
        simpa using (h1 e he).1.symm
      rw [List.filter_cons_of_neg (by simp), this, List.countP_cons]
      by_cases hc : c
      · rw [if_pos hc, if_pos (hP.mpr hc)]
      · rw [if_neg hc, if_neg fun h => hc (hP.mp h)]
    · have hy : y.1 ≠ k := (h1 _ hm').1
      rw [List.filter_cons_of_pos (by simpa using hy), List.countP_cons, List.countP_cons, ih h2 hm']
      omega

theorem PyProcess.Inv.enter {own : Nat → Which × Nat} {lk : Which → Nat → Nat} {s : PyProcess} (inv : s.Inv own lk) (c : PyCall)
    (ap : PyProcess.Apart ⟨(c.begin s.py).1, s.calls ++ [(c.begin s.py).2]⟩) :
    PyProcess.Inv own lk ⟨(c.begin s.py).1, s.calls ++ [(c.begin s.py).2]⟩ := by
  have hb : ∀ w i, (c.begin s.py).2.uses w = some i → s.py.Base lk w i := by
    intro w i hi
    refine inv.idle w i fun j pk hj hk => ?_
    have hlt : j < s.calls.length := (List.getElem?_eq_some_iff.mp hj).1
    refine (ap s.calls.length j _ pk ?_ ?_ (Nat.ne_of_gt hlt)).1 w i hi hk
    · show (s.calls ++ [_])[s.calls.length]? = _
      rw [List.getElem?_append_right (Nat.le_refl _), Nat.sub_self]
      rfl
    · show (s.calls ++ [_])[j]? = _
      rw [List.getElem?_append_left hlt, hj]
  have one : ∀ {k x}, s.py.spaces.get? k = some x → ∀ w, s.py.Base lk w (x.which w) → ∃ p, s.py.BaseAt lk w (x.which w) p := by
    intro k x ex w h
    rcases h with ⟨_, h⟩ | h
    · exact absurd rfl (Py.count_zero (Py.total_zero h) (k, x) (Map.mem_of_get? ex))
    · exact h
  cases c with
  | create g f gridOk familyOk => exact inv.add (l := s.py.spaces) ap (.refl _) ⟨hb .family f rfl, hb .grid g rfl⟩ (fun _ _ _ => rfl) (fun _ h => .inl h)
  | delete k =>
    cases ex : s.py.spaces.get? k with
    | none =>
      have e : (PyCall.delete k).begin s.py = (s.py, .over false) := by simp only [PyCall.begin, ex]
      rw [e] at ap ⊢
      exact inv.add (l := s.py.spaces) ap (.refl _) trivial (fun _ _ _ => rfl) (fun _ h => .inl h)
    | some x =>
      have e : (PyCall.delete k).begin s.py = ({ s.py with spaces := s.py.spaces.filter fun e => e.1 ≠ k }, .drop x) := by
        simp only [PyCall.begin, ex]
      rw [e] at hb ap ⊢
      have hm := Map.mem_of_get? ex
      have huniq : ∀ e ∈ s.py.spaces, e.1 = k → e = (k, x) := by
        intro e he hk
        by_cases hne : e = (k, x)
        · exact hne
        · exact absurd hk (pairwise_ne inv.nodup he hm hne).1
      have hcnt : ∀ w i, s.py.count w i = Py.count { s.py with spaces := s.py.spaces.filter fun e => e.1 ≠ k } w i + if x.which w = i then 1 else 0 := by
        intro w i
        exact countP_forget inv.nodup hm (fun e => e.2.which w == i) (by simp)
      have hlt : ∀ w, Py.count { s.py with spaces := s.py.spaces.filter fun e => e.1 ≠ k } w (x.which w) + 1 = s.py.count w (x.which w) := by
        intro w
        rw [hcnt w, if_pos rfl]
      obtain ⟨p, q, h1, h2, h3⟩ := inv.spaces (k, x) hm
      have held : ∀ w p, (s.py.shared w (x.which w)).rs = some p →
          Py.Held lk { s.py with spaces := s.py.spaces.filter fun e => e.1 ≠ k } w (x.which w) p := by
        intro w p hp
        obtain ⟨p', k1, c, k2, k3, k4⟩ := one ex w (hb w _ rfl)
        have := k1.1
        rw [hp] at this
        cases this
        have := hlt w
        have hsh : Py.shared { s.py with spaces := s.py.spaces.filter fun e => e.1 ≠ k } w (x.which w) = s.py.shared w (x.which w) := by
          cases w <;> rfl
        refine ⟨⟨by rw [hsh]; exact hp, k1.2⟩, c, by rw [hsh]; exact k2, by unfold Py.total at k4 ⊢; omega⟩
      refine inv.add ap List.filter_sublist ⟨p, q, h1, held .grid p h2, held .family q h3, ?_⟩ ?_ ?_
      rotate_left
      · intro w i hi
        have := hcnt w i
        rw [if_neg] at this
        · exact this.symm
        · rintro rfl
          exact hi rfl
      · intro e he
        by_cases hk : e.1 = k
        · rw [huniq e he hk]
          exact .inr rfl
        · exact .inl (List.mem_filter.mpr ⟨he, by simpa using hk⟩)
      intro e he
      obtain ⟨he1, he2⟩ := List.mem_filter.mp he
      have hne : e ≠ (k, x) := by
        rintro rfl
        simp at he2
      intro heq
      exact (pairwise_ne inv.nodup he1 hm hne).2 heq
  | use k =>
    cases ex : s.py.spaces.get? k with
    | none =>
      have e : (PyCall.use k).begin s.py = (s.py, .over false) := by simp only [PyCall.begin, ex]
      rw [e] at ap ⊢
      exact inv.add (l := s.py.spaces) ap (.refl _) trivial (fun _ _ _ => rfl) (fun _ h => .inl h)
    | some x =>
      have e : (PyCall.use k).begin s.py = (s.py, .use x) := by simp only [PyCall.begin, ex]
      rw [e] at hb ap ⊢
      exact inv.add (l := s.py.spaces) ap (.refl _) ⟨k, Map.mem_of_get? ex⟩ (fun _ _ _ => rfl) (fun _ h => .inl h)

theorem apart_inv {s : PyProcess} (h : PyProcess.start.ApartSteps s) : s.Apart ∧ ∃ own lk, s.Inv own lk := by
  generalize e : PyProcess.start = s0 at h
  induction h with
  | refl =>
    subst e
    refine ⟨?_, _, _, PyProcess.Inv.start⟩
    intro i j pc pc' h
    cases h
  | step t h a ih =>
    obtain ⟨ap, own, lk, inv⟩ := ih
    refine ⟨a, ?_⟩
    cases h with
    | begin c => exact ⟨own, lk, inv.enter c a⟩
    | step hi hs =>
      obtain ⟨py, pc', own', lk', h1, h2, -⟩ := inv.next ap hi
      rw [hs] at h1
      cases h1
      exact ⟨own', lk', h2⟩

end Bempp
