import Verif.Spec.Allocator
import Verif.Proofs.CThreads
/-
Two heaps with the same objects at different addresses: calls do the same on both.
-/
set_option linter.unusedVariables false
set_option linter.unusedSectionVars false
namespace Bempp

variable {Γ Φ R T : Type}

/-- The object with other references. -/
def CObj.rename (f : Nat → Nat) : CObj Γ Φ T → CObj Γ Φ T
  | .space d b r g e => .space d b r (f g) (f e)
  | .spaceRef d b r s => .spaceRef d b r (f s)
  | .assembler e op d p => .assembler e op d (f p)
  | o => o

theorem CObj.rename_kind (f : Nat → Nat) (o : CObj Γ Φ T) : (o.rename f).kind = o.kind := by cases o <;> rfl

theorem CObj.rename_type (f : Nat → Nat) (o : CObj Γ Φ T) : (o.rename f).type = o.type := by cases o <;> rfl

theorem CObj.rename_congr {f g : Nat → Nat} {o : CObj Γ Φ T} (h : ∀ q ∈ o.refs, f q = g q) : o.rename f = o.rename g := by
  cases o <;> simp_all [CObj.rename, CObj.refs]

/-- The pointers in a result. -/
def CResult.ptrs : CResult T → List Nat
  | .handle k => [k]
  | .pointer k _ => [k]
  | _ => []

theorem CVars.address_append {vars : CVars} (ext : List Nat) {k : Nat} (hk : k < vars.length) :
    CVars.address (vars ++ ext) k = vars.address k := by
  simp [CVars.address, List.getD_eq_getElem?_getD, List.getElem?_append_left hk]

theorem CVars.address_last (vars : CVars) (a : Nat) : CVars.address (vars ++ [a]) vars.length = a := by
  simp [CVars.address, List.getD_eq_getElem?_getD]

theorem CResult.at_append {vars : CVars} (ext : List Nat) {x : CResult T} (h : ∀ k ∈ x.ptrs, k < vars.length) :
    x.at (vars ++ ext) = x.at vars := by
  cases x <;> simp_all [CResult.at, CResult.ptrs, CVars.address_append]

/-- No pointers in the result. -/
def Ffi.Plain (x : Ffi (CResult T)) : Prop := ∀ y, x = .ok y → y.ptrs = []

theorem Ffi.Plain.at {x : Ffi (CResult T)} (h : x.Plain) (vars : CVars) : x.at vars = x := by
  cases x with
  | ok y =>
    have := h y rfl
    cases y <;> simp_all [CResult.ptrs, Ffi.at, CResult.at]
  | _ => rfl

theorem SpaceQuery.answer_plain (d : DType) (s : Space R T) (q : SpaceQuery) : (q.answer d s : Ffi (CResult T)).Plain := by
  intro y h
  cases q <;> simp only [SpaceQuery.answer] at h
  all_goals first
    | (cases h; rfl)
    | (obtain ⟨a, -, h⟩ := Ffi.bind_ok h
       first
         | (cases h; rfl)
         | (obtain ⟨b, -, h⟩ := Ffi.bind_ok h; cases h; rfl))

theorem MatrixQuery.answer_plain (q : MatrixQuery T) (x : CObj Γ Φ T) : (q.answer x).Plain := by
  intro y h
  cases q <;> cases x <;> simp only [MatrixQuery.answer] at h
  all_goals first
    | (cases h; rfl)
    | cases h
    | (obtain ⟨a, -, h⟩ := Ffi.bind_ok h; cases h; rfl)

theorem OptionQuery.answer_plain (o : Options) (q : OptionQuery) : (q.answer o : Ffi (CResult T)).Plain := by
  intro y h
  cases q <;> simp only [OptionQuery.answer] at h
  all_goals first
    | (cases h; rfl)
    | (obtain ⟨a, -, h⟩ := Ffi.bind_ok h; cases h; rfl)

theorem MatrixPart.item_plain (i : Nat) (m : MatrixPart) (x : CObj Γ Φ T) : (Ffi.mem (m.item i x)).Plain := by
  intro y h
  have h' : m.item i x = some y := by
    cases hm : m.item i x with
    | none => rw [hm] at h; cases h
    | some y => rw [hm] at h; cases h; rfl
  cases m <;> cases x <;> simp [MatrixPart.item] at h'
  all_goals (obtain ⟨a, -, rfl⟩ := h'; rfl)

theorem MatrixPart.item_rename (f : Nat → Nat) (i : Nat) (m : MatrixPart) (x : CObj Γ Φ T) : m.item i (x.rename f) = m.item i x := by
  cases m <;> cases x <;> rfl

theorem MatrixQuery.answer_rename (f : Nat → Nat) (q : MatrixQuery T) (x : CObj Γ Φ T) : q.answer (x.rename f) = q.answer x := by
  cases q <;> cases x <;> rfl

theorem Ffi.Plain.bind {α : Type} {x : Ffi α} {k : α → Ffi (CResult T)} (h : ∀ a, (k a).Plain) : (x >>= k).Plain := by
  intro y hy
  obtain ⟨a, -, hk⟩ := Ffi.bind_ok hy
  exact h a y hk

theorem Ffi.Plain.concretise {t : List (List RustType)} {l : List RustType} {x : Ffi (CResult T)} (h : x.Plain) :
    (Bempp.concretise t l x).Plain := fun y hy => h y (concretise_ok hy)

/-- The outcome with renamed references. -/
def Ffi.rn (f : Nat → Nat) : Ffi (CObj Γ Φ T) → Ffi (CObj Γ Φ T)
  | .ok o => .ok (o.rename f)
  | .raised => .raised
  | .panic => .panic
  | .undefined => .undefined

theorem Ffi.bind_rn {f : Nat → Nat} {x : Ffi (CObj Γ Φ T)} {k k' : CObj Γ Φ T → Ffi (CObj Γ Φ T)}
    (h : ∀ o, x = .ok o → k' (o.rename f) = (k o).rn f) : (x.rn f >>= k') = (x >>= k).rn f := by
  cases x with
  | ok o => exact h o rfl
  | _ => rfl

theorem Ffi.bind_rn' {α : Type} {f : Nat → Nat} {x : Ffi (CObj Γ Φ T)} {k k' : CObj Γ Φ T → Ffi α}
    (h : ∀ o, x = .ok o → k' (o.rename f) = k o) : (x.rn f >>= k') = (x >>= k) := by
  cases x with
  | ok o => exact h o rfl
  | _ => rfl

theorem Ffi.rn_bind {α : Type} {f : Nat → Nat} {x : Ffi α} {k k' : α → Ffi (CObj Γ Φ T)}
    (h : ∀ a, k' a = (k a).rn f) : (x >>= k') = (x >>= k).rn f := by
  cases x with
  | ok o => exact h o
  | _ => rfl

theorem concretise_rn {f : Nat → Nat} {t : List (List RustType)} {l : List RustType} {x y : Ffi (CObj Γ Φ T)} (h : y = x.rn f) :
    concretise t l y = (concretise t l x).rn f := by
  unfold concretise
  split
  · exact h
  · rfl

/-- The heap `g` has the objects of `h`, with the object `p` at the address in the variable `p`. -/
structure Placed (h g : CHeap Γ Φ T) (vars : CVars) : Prop where
  next : h.next = vars.length
  fresh : ∀ p, h.next ≤ p → h.live p = none
  inj : ∀ p q, h.live p ≠ none → h.live q ≠ none → vars.address p = vars.address q → p = q
  live : ∀ p o, h.live p = some o → g.live (vars.address p) = some (o.rename vars.address)
  only : ∀ a, g.live a ≠ none → ∃ p, h.live p ≠ none ∧ vars.address p = a

/-- References are to objects that are there. -/
def CHeap.Closed (h : CHeap Γ Φ T) : Prop := ∀ p o, h.live p = some o → ∀ q ∈ o.refs, h.live q ≠ none

theorem Placed.lt {h g : CHeap Γ Φ T} {vars : CVars} (s : Placed h g vars) {p : Nat} (hp : h.live p ≠ none) : p < vars.length := by
  by_contra hn
  exact hp (s.fresh p (by rw [s.next]; omega))

theorem Placed.finite {h g : CHeap Γ Φ T} {vars : CVars} (s : Placed h g vars) : ∃ n, ∀ a, n ≤ a → g.live a = none := by
  refine ⟨vars.sum + 1, fun a ha => ?_⟩
  by_contra hn
  obtain ⟨p, hp, rfl⟩ := s.only a hn
  have hm : vars.address p ∈ vars := by
    simp only [CVars.address, List.getD_eq_getElem?_getD, List.getElem?_eq_getElem (s.lt hp), Option.getD_some]
    exact List.getElem_mem _
  have := List.le_sum_of_mem hm
  omega

theorem Placed.start : Placed (CHeap.start : CHeap Γ Φ T) CHeap.start [] :=
  ⟨rfl, fun _ _ => rfl, fun p q hp _ _ => absurd rfl hp, fun p o (h : none = some o) => (by cases h), fun a ha => absurd rfl ha⟩

section
variable {h g : CHeap Γ Φ T} {vars : CVars}

theorem Placed.read (s : Placed h g vars) (a : Nat) {k : CKind} {p : Nat} (hp : h.live p ≠ none) :
    ({ g with next := a } : CHeap Γ Φ T).read k (vars.address p) = (h.read k p).rn vars.address := by
  obtain ⟨o, ho⟩ := Option.ne_none_iff_exists'.mp hp
  simp only [CHeap.read, ho, s.live p o ho, CObj.rename_kind]
  split <;> rfl

theorem Placed.readOptions (s : Placed h g vars) (a : Nat) {p : Nat} (hp : h.live p ≠ none) :
    ({ g with next := a } : CHeap Γ Φ T).readOptions (vars.address p) = h.readOptions p := by
  obtain ⟨o, ho⟩ := Option.ne_none_iff_exists'.mp hp
  simp only [CHeap.readOptions, ho, s.live p o ho]
  cases o <;> rfl

theorem Placed.spaceOf {newSpace : Γ → Φ → Option (Space R T)} (s : Placed h g vars) (a : Nat) {x : CObj Γ Φ T}
    (hx : ∀ q ∈ x.refs, h.live q ≠ none) :
    ({ g with next := a } : CHeap Γ Φ T).spaceOf newSpace (x.rename vars.address) = h.spaceOf newSpace x := by
  cases x with
  | space d b r gr fa =>
    obtain ⟨o, ho⟩ := Option.ne_none_iff_exists'.mp (hx gr (by simp [CObj.refs]))
    obtain ⟨o', ho'⟩ := Option.ne_none_iff_exists'.mp (hx fa (by simp [CObj.refs]))
    simp only [CObj.rename, CHeap.spaceOf, ho, ho', s.live _ _ ho, s.live _ _ ho']
    cases o <;> cases o' <;> rfl
  | _ => rfl

/-- The variables after a call. -/
def CVars.then (vars : CVars) : Ffi (CResult T) → CVars
  | .ok x => vars.after x
  | _ => vars

/-- The same outcome on both heaps. -/
structure SameEnd (vars : CVars) (e e' : CHeap Γ Φ T × Ffi (CResult T)) : Prop where
  placed : Placed e.1 e'.1 (vars.then e'.2)
  result : e'.2 = e.2.at (vars.then e'.2)
  bound : ∀ x, e.2 = .ok x → ∀ k ∈ x.ptrs, k < (vars.then e'.2).length

theorem Placed.withNext (s : Placed h g vars) (a : Nat) : Placed h { g with next := a } vars := ⟨s.next, s.fresh, s.inj, s.live, s.only⟩

theorem SameEnd.keep (s : Placed h g vars) (a : Nat) {r r' : Ffi (CResult T)} (e : r' = r) (hr : r.Plain) :
    SameEnd vars (h, r) ({ g with next := a }, r') := by
  subst e
  have hv : vars.then r' = vars := by
    cases r' with
    | ok x =>
      have := hr x rfl
      cases x <;> simp_all [CVars.then, CVars.after, CResult.ptrs]
    | _ => rfl
  refine ⟨?_, ?_, ?_⟩
  · simp only [hv]; exact s.withNext a
  · simp only [hr.at]
  · intro x hx k hk
    rw [hr x hx] at hk
    cases hk

theorem SameEnd.made (s : Placed h g vars) (hc : h.Closed) {a : Nat} (ha : g.live a = none) {x y : Ffi (CObj Γ Φ T)}
    (e : y = x.rn vars.address) (hx : ∀ o, x = .ok o → ∀ q ∈ o.refs, h.live q ≠ none) :
    SameEnd vars (h.made x) (({ g with next := a } : CHeap Γ Φ T).made y) := by
  subst e
  cases x with
  | ok o =>
    have ho := hx o rfl
    have hlt : ∀ {p}, h.live p ≠ none → p < vars.length := fun hp => s.lt hp
    have old : ∀ {p}, h.live p ≠ none → CVars.address (vars ++ [a]) p = vars.address p :=
      fun hp => CVars.address_append _ (hlt hp)
    have na : ∀ {p}, h.live p ≠ none → vars.address p ≠ a := by
      intro p hp ea
      obtain ⟨o', ho'⟩ := Option.ne_none_iff_exists'.mp hp
      have := s.live p o' ho'
      rw [ea, ha] at this
      cases this
    have hnl : ∀ {p}, h.live p ≠ none → p ≠ h.next := fun hp e => hp (s.fresh _ e.ge)
    refine ⟨⟨?_, ?_, ?_, ?_, ?_⟩, ?_, ?_⟩
    · show h.next + 1 = (vars ++ [a]).length
      rw [s.next]
      simp
    · intro p hp
      have hp' : h.next + 1 ≤ p := hp
      show (if p = h.next then some o else h.live p) = none
      rw [if_neg (by omega)]
      exact s.fresh p (by omega)
    · intro p q hp hq epq
      have hp' : (if p = h.next then some o else h.live p) ≠ none := hp
      have hq' : (if q = h.next then some o else h.live q) ≠ none := hq
      have epq' : CVars.address (vars ++ [a]) p = CVars.address (vars ++ [a]) q := epq
      by_cases h1 : p = h.next <;> by_cases h2 : q = h.next
      · rw [h1, h2]
      · rw [if_neg h2] at hq'
        rw [h1, s.next, CVars.address_last, old hq'] at epq'
        exact absurd epq'.symm (na hq')
      · rw [if_neg h1] at hp'
        rw [h2, s.next, CVars.address_last, old hp'] at epq'
        exact absurd epq' (na hp')
      · rw [if_neg h1] at hp'
        rw [if_neg h2] at hq'
        rw [old hp', old hq'] at epq'
        exact s.inj p q hp' hq' epq'
    · intro p o' hp
      have hp' : (if p = h.next then some o else h.live p) = some o' := hp
      show (if CVars.address (vars ++ [a]) p = a then some (o.rename vars.address) else g.live (CVars.address (vars ++ [a]) p)) =
        some (o'.rename (CVars.address (vars ++ [a])))
      by_cases h1 : p = h.next
      · rw [if_pos h1, Option.some.injEq] at hp'
        subst hp'
        rw [h1, s.next, CVars.address_last, if_pos rfl]
        exact congrArg some (CObj.rename_congr fun q hq => (old (ho q hq)).symm)
      · rw [if_neg h1] at hp'
        have hl : h.live p ≠ none := by rw [hp']; simp
        rw [old hl, if_neg (na hl), s.live p o' hp']
        exact congrArg some (CObj.rename_congr fun q hq => (old (hc p o' hp' q hq)).symm)
    · intro b hb
      have hb' : (if b = a then some (o.rename vars.address) else g.live b) ≠ none := hb
      by_cases h1 : b = a
      · refine ⟨h.next, ?_, ?_⟩
        · show (if h.next = h.next then some o else h.live h.next) ≠ none
          simp
        · show CVars.address (vars ++ [a]) h.next = b
          rw [s.next, CVars.address_last, h1]
      · rw [if_neg h1] at hb'
        obtain ⟨p, hp, ep⟩ := s.only b hb'
        refine ⟨p, ?_, ?_⟩
        · show (if p = h.next then some o else h.live p) ≠ none
          rw [if_neg (hnl hp)]
          exact hp
        · show CVars.address (vars ++ [a]) p = b
          rw [old hp, ep]
    · show Ffi.ok (CResult.handle a) = Ffi.ok (CResult.handle (CVars.address (vars ++ [a]) h.next))
      rw [s.next, CVars.address_last]
    · intro x hx' k hk
      cases hx'
      simp only [CResult.ptrs, List.mem_singleton] at hk
      subst hk
      show h.next < (vars ++ [a]).length
      rw [s.next]
      simp
  | raised => exact SameEnd.keep s a rfl (fun y hy => by cases hy)
  | panic => exact SameEnd.keep s a rfl (fun y hy => by cases hy)
  | undefined => exact SameEnd.keep s a rfl (fun y hy => by cases hy)

theorem SameEnd.store (s : Placed h g vars) (a : Nat) {p : Nat} (hp : h.live p ≠ none) {o : Option (CObj Γ Φ T)}
    (ho : ∀ x, o = some x → x.rename vars.address = x) :
    SameEnd vars (h.store p o, .ok .nothing) (({ g with next := a } : CHeap Γ Φ T).store (vars.address p) o, .ok .nothing) := by
  have live' : ∀ {q}, (h.store p o).live q ≠ none → h.live q ≠ none := by
    intro q hq
    have hq' : (if q = p then o else h.live q) ≠ none := hq
    by_cases e : q = p
    · rw [e]; exact hp
    · rwa [if_neg e] at hq'
  refine ⟨⟨s.next, ?_, ?_, ?_, ?_⟩, rfl, fun x hx k hk => by cases hx; cases hk⟩
  · intro q hq
    have hq' : h.next ≤ q := hq
    show (if q = p then o else h.live q) = none
    rw [if_neg (fun (e : q = p) => hp (s.fresh p (e ▸ hq')))]
    exact s.fresh q hq'
  · intro q q' hq hq'
    exact s.inj q q' (live' hq) (live' hq')
  · intro q x hq
    have hq' : (if q = p then o else h.live q) = some x := hq
    show (if vars.address q = vars.address p then o else g.live (vars.address q)) = some (x.rename vars.address)
    by_cases e : q = p
    · rw [if_pos e] at hq'
      rw [e, if_pos rfl, hq', ho x hq']
    · rw [if_neg e] at hq'
      rw [if_neg fun e' => e (s.inj q p (by rw [hq']; simp) hp e')]
      exact s.live q x hq'
  · intro b hb
    have hb' : (if b = vars.address p then o else g.live b) ≠ none := hb
    by_cases e : b = vars.address p
    · rw [if_pos e] at hb'
      refine ⟨p, ?_, e.symm⟩
      show (if p = p then o else h.live p) ≠ none
      rwa [if_pos rfl]
    · rw [if_neg e] at hb'
      obtain ⟨q, hq, eq⟩ := s.only b hb'
      refine ⟨q, ?_, eq⟩
      show (if q = p then o else h.live q) ≠ none
      rw [if_neg fun e' => e (by rw [← eq, e'])]
      exact hq

theorem Placed.borrowed (s : Placed h g vars) (hc : h.Closed) (a : Nat) {p : Nat} (hp : h.live p ≠ none) :
    ({ g with next := a } : CHeap Γ Φ T).Borrowed (vars.address p) ↔ h.Borrowed p := by
  constructor
  · rintro ⟨q, e, op, d, hq⟩
    have hq' : g.live q = some (.assembler e op d (vars.address p)) := hq
    obtain ⟨q₀, hl, rfl⟩ := s.only q (by rw [hq']; simp)
    obtain ⟨o, ho⟩ := Option.ne_none_iff_exists'.mp hl
    have := s.live q₀ o ho
    rw [hq', Option.some.injEq] at this
    cases o with
    | assembler e' op' d' p' =>
      simp only [CObj.rename, CObj.assembler.injEq] at this
      obtain ⟨rfl, rfl, rfl, ep⟩ := this
      have := s.inj p p' hp (hc _ _ ho p' (by simp [CObj.refs])) ep
      subst this
      exact ⟨q₀, _, _, _, ho⟩
    | _ => cases this
  · rintro ⟨q, e, op, d, hq⟩
    exact ⟨vars.address q, e, op, d, s.live q _ hq⟩

theorem SameEnd.point (s : Placed h g vars) (a : Nat) {m : Nat} (hm : h.live m ≠ none) {t : List (List RustType)}
    {x : Ffi (CObj Γ Φ T)} {part : MatrixPart} {y : Ffi (CObj Γ Φ T)} (e : y = x.rn vars.address) :
    SameEnd vars (h, x >>= fun o => concretise t o.type (.ok (.pointer m part)))
      ({ g with next := a }, y >>= fun o => concretise t o.type (.ok (.pointer (vars.address m) part))) := by
  subst e
  cases x with
  | ok o =>
    show SameEnd vars (h, concretise t o.type _) ({ g with next := a }, concretise t (o.rename vars.address).type _)
    rw [CObj.rename_type]
    unfold concretise
    split
    · refine ⟨s.withNext a, rfl, fun x hx k hk => ?_⟩
      cases hx
      simp only [CResult.ptrs, List.mem_singleton] at hk
      subst hk
      exact s.lt hm
    · exact SameEnd.keep s a rfl (fun y hy => by cases hy)
  | raised => exact SameEnd.keep s a rfl (fun y hy => by cases hy)
  | panic => exact SameEnd.keep s a rfl (fun y hy => by cases hy)
  | undefined => exact SameEnd.keep s a rfl (fun y hy => by cases hy)

variable {newSpace : Γ → Φ → Option (Space R T)}

theorem Placed.call (s : Placed h g vars) (hc : h.Closed) {a : Nat} (ha : g.live a = none) (c : CCall Γ Φ R T)
    (hl : ∀ p ∈ c.args, h.live p ≠ none) :
    SameEnd vars (h.call newSpace c) (({ g with next := a } : CHeap Γ Φ T).call newSpace (c.rename vars.address)) := by
  have undef : Ffi.Plain (.undefined : Ffi (CResult T)) := fun y hy => by cases hy
  have refs : ∀ {k p x}, h.read k p = .ok x → ∀ q ∈ x.refs, h.live q ≠ none := fun hx => hc _ _ (CHeap.read_live hx)
  cases c with
  | createGrid b r v => exact SameEnd.made (x := .ok (.grid b r v)) s hc ha rfl (fun o ho q hq => by cases ho; cases hq)
  | createFamily k d v => exact SameEnd.made (x := .ok (.family k d v)) s hc ha rfl (fun o ho q hq => by cases ho; cases hq)
  | newOptions => exact SameEnd.made (x := .ok (.options Options.default)) s hc ha rfl (fun o ho q hq => by cases ho; cases hq)
  | free k p =>
    cases p with
    | none => exact SameEnd.keep s a rfl (fun y hy => by cases hy; rfl)
    | some p =>
      have hp := hl p (by simp [CCall.args])
      simp only [CHeap.call, CCall.rename, Option.map_some, s.read a hp]
      cases h.read k p with
      | ok o => exact SameEnd.store s a hp (fun x hx => by cases hx)
      | raised => exact SameEnd.keep s a rfl undef
      | panic => exact SameEnd.keep s a rfl undef
      | undefined => exact SameEnd.keep s a rfl undef
  | functionSpace gr fa =>
    have h1 := hl gr (by simp [CCall.args])
    have h2 := hl fa (by simp [CCall.args])
    refine SameEnd.made s hc ha ?_ ?_
    · rw [s.read a h1, s.read a h2]
      refine Ffi.bind_rn fun x hx => Ffi.bind_rn fun y hy => ?_
      cases x <;> cases y <;> first
        | rfl
        | exact concretise_rn (Ffi.rn_bind fun _ => rfl)
    · intro o ho q hq
      obtain ⟨x, -, ho⟩ := Ffi.bind_ok ho
      obtain ⟨y, -, ho⟩ := Ffi.bind_ok ho
      cases x <;> cases y <;> first
        | cases ho; done
        | skip
      obtain ⟨-, -, ho⟩ := Ffi.bind_ok (concretise_ok ho)
      cases ho
      simp only [CObj.refs, List.mem_cons, List.not_mem_nil, or_false] at hq
      rcases hq with rfl | rfl <;> assumption
  | localSpace p =>
    have h1 := hl p (by simp [CCall.args])
    refine SameEnd.made s hc ha ?_ ?_
    · rw [s.read a h1]
      refine Ffi.bind_rn fun x hx => ?_
      rw [CObj.rename_type, s.spaceOf a (refs hx)]
      refine concretise_rn (Ffi.rn_bind fun y => ?_)
      cases x <;> rfl
    · intro o ho q hq
      obtain ⟨x, -, ho⟩ := Ffi.bind_ok ho
      obtain ⟨y, -, ho⟩ := Ffi.bind_ok (concretise_ok ho)
      cases x <;> cases ho
      simp only [CObj.refs, List.mem_cons, List.not_mem_nil, or_false] at hq
      subst hq
      exact h1
  | space p q =>
    have h1 := hl p (by simp [CCall.args])
    refine SameEnd.keep s a ?_ ?_
    · rw [s.read a h1]
      refine Ffi.bind_rn' fun x hx => ?_
      rw [CObj.rename_type, s.spaceOf a (refs hx)]
      cases x <;> rfl
    · refine Ffi.Plain.bind fun x => Ffi.Plain.concretise (Ffi.Plain.bind fun y => ?_)
      cases x <;> first
        | exact SpaceQuery.answer_plain _ _ _
        | exact undef
  | setOptions p ch =>
    have hp := hl p (by simp [CCall.args])
    simp only [CHeap.call, CCall.rename, s.readOptions a hp]
    cases h.readOptions p with
    | ok o =>
      by_cases hb : h.Borrowed p
      · have hb' := (s.borrowed hc a hp).mpr hb
        simp only [if_pos hb, if_pos hb']
        exact SameEnd.keep s a rfl undef
      · have hb' := fun hn => hb ((s.borrowed hc a hp).mp hn)
        simp only [if_neg hb, if_neg hb']
        exact SameEnd.store (o := some (.options (ch.apply o))) s a hp (fun x hx => by cases hx; rfl)
    | raised => exact SameEnd.keep s a rfl undef
    | panic => exact SameEnd.keep s a rfl undef
    | undefined => exact SameEnd.keep s a rfl undef
  | getOptions p q =>
    refine SameEnd.keep s a ?_ (Ffi.Plain.bind fun o => OptionQuery.answer_plain o q)
    rw [s.readOptions a (hl p (by simp [CCall.args]))]
  | laplaceNew p op d =>
    have hp := hl p (by simp [CCall.args])
    refine SameEnd.made s hc ha ?_ ?_
    · unfold CHeap.laplaceNew
      rw [s.readOptions a hp]
      cases d <;> first
        | rfl
        | (refine Ffi.rn_bind fun o => ?_
           cases op <;> rfl)
    · intro o ho q hq
      cases d <;> first
        | (cases ho; done)
        | (obtain ⟨-, -, ho⟩ := Ffi.bind_ok ho
           cases op <;> cases ho <;>
             (simp only [CObj.refs, List.mem_cons, List.not_mem_nil, or_false] at hq
              subst hq
              exact hp))
  | helmholtzNew k p op d =>
    have hp := hl p (by simp [CCall.args])
    refine SameEnd.made s hc ha ?_ ?_
    · unfold CHeap.helmholtzNew
      rw [s.readOptions a hp]
      by_cases hk : k.1 ≠ d.real <;> cases d <;> first
        | rfl
        | (simp only [if_pos hk]; rfl)
        | (simp only [if_neg hk]
           refine Ffi.rn_bind fun o => ?_
           cases op <;> rfl)
    · intro o ho q hq
      cases d <;> first
        | (cases ho; done)
        | (simp only [CHeap.helmholtzNew] at ho
           split at ho
           · cases ho
           · obtain ⟨-, -, ho⟩ := Ffi.bind_ok ho
             cases op <;> cases ho <;>
               (simp only [CObj.refs, List.mem_cons, List.not_mem_nil, or_false] at hq
                subst hq
                exact hp))
  | assemblerDtype p =>
    refine SameEnd.keep s a ?_ ?_
    · rw [s.read a (hl p (by simp [CCall.args]))]
      refine Ffi.bind_rn' fun x hx => ?_
      cases x <;> rfl
    · refine Ffi.Plain.bind fun x => Ffi.Plain.concretise ?_
      intro y hy
      cases x <;> cases hy
      rfl
  | matrix m q =>
    refine SameEnd.keep s a ?_ (Ffi.Plain.bind fun x => Ffi.Plain.concretise (MatrixQuery.answer_plain q x))
    rw [s.read a (hl m (by simp [CCall.args]))]
    exact Ffi.bind_rn' fun x hx => by rw [CObj.rename_type, MatrixQuery.answer_rename]
  | matrixPointer m part =>
    have hm := hl m (by simp [CCall.args])
    exact SameEnd.point s a hm (s.read a hm)
  | load m part i =>
    refine SameEnd.keep s a ?_ (Ffi.Plain.bind fun x => MatrixPart.item_plain i part x)
    rw [s.read a (hl m (by simp [CCall.args]))]
    exact Ffi.bind_rn' fun x hx => by rw [MatrixPart.item_rename]
  | assemble p x y => exact SameEnd.keep s a rfl undef
  | assembleSingular p x y => exact SameEnd.keep s a rfl undef
  | assembleIntoMemory p x y data => exact SameEnd.keep s a rfl undef

section
variable [Add T] [Sub T] [Mul T] [Div T] [Neg T] {kernel : DType → Kernel R T}

theorem Placed.arguments (s : Placed h g vars) (hc : h.Closed) (a : Nat) {p x y : Nat} (hp : h.live p ≠ none) (hx : h.live x ≠ none)
    (hy : h.live y ≠ none) :
    ({ g with next := a } : CHeap Γ Φ T).arguments newSpace kernel (vars.address p) (vars.address x) (vars.address y) =
      h.arguments newSpace kernel p x y := by
  have refs : ∀ {k p x}, h.read k p = .ok x → ∀ q ∈ x.refs, h.live q ≠ none := fun hx => hc _ _ (CHeap.read_live hx)
  unfold CHeap.arguments
  rw [s.read a hp, s.read a hx, s.read a hy]
  refine Ffi.bind_rn' fun u hu => Ffi.bind_rn' fun v hv => Ffi.bind_rn' fun w hw => ?_
  rw [CObj.rename_type, CObj.rename_type, CObj.rename_type]
  refine congrArg _ ?_
  cases u with
  | assembler e op d q =>
    show (({ g with next := a } : CHeap Γ Φ T).readOptions (vars.address q) >>= _) = _
    rw [s.readOptions a (refs hu q (by simp [CObj.refs])), s.spaceOf a (refs hv), s.spaceOf a (refs hw)]
  | _ => rfl

end

section
variable [Zero T] [Add T] [Sub T] [Mul T] [Div T] [Neg T] [Zero R] [Mul R] {kernel : DType → Kernel R T} {env : DType → Env R T}

/-- The call ends on both heaps in the same ways. -/
theorem Placed.step (s : Placed h g vars) (hc : h.Closed) {a : Nat} (ha : g.live a = none) {c : CCall Γ Φ R T}
    (hl : ∀ p ∈ c.args, h.live p ≠ none) :
    (∀ g' r', (c.rename vars.address).Step newSpace kernel env { g with next := a } g' r' →
      ∃ h' r, c.Step newSpace kernel env h h' r ∧ SameEnd vars (h', r) (g', r')) ∧
    ∀ h' r, c.Step newSpace kernel env h h' r →
      ∃ g' r', (c.rename vars.address).Step newSpace kernel env { g with next := a } g' r' ∧ SameEnd vars (h', r) (g', r') := by
  have undef : ∀ r : Ffi (CResult T), (∀ y, r ≠ .ok y) → SameEnd vars (h, r) ({ g with next := a }, r) :=
    fun r hr => SameEnd.keep s a rfl (fun y hy => absurd hy (hr y))
  have both : ∀ {x : Ffi (CObj Γ Φ T)}, (∀ o, x = .ok o → o.refs = []) →
      SameEnd vars (h.made x) (({ g with next := a } : CHeap Γ Φ T).made x) := by
    intro x hx
    refine SameEnd.made s hc ha ?_ (fun o ho q hq => by rw [hx o ho] at hq; cases hq)
    cases x with
    | ok o =>
      have := hx o rfl
      cases o <;> first
        | rfl
        | simp [CObj.refs] at this
    | _ => rfl
  have simple : ∀ {c : CCall Γ Φ R T}, (∀ p ∈ c.args, h.live p ≠ none) →
      (∀ g' r', (g', r') = ({ g with next := a } : CHeap Γ Φ T).call newSpace (c.rename vars.address) →
        ∃ h' r, (h', r) = h.call newSpace c ∧ SameEnd vars (h', r) (g', r')) ∧
      ∀ h' r, (h', r) = h.call newSpace c →
        ∃ g' r', (g', r') = ({ g with next := a } : CHeap Γ Φ T).call newSpace (c.rename vars.address) ∧
          SameEnd vars (h', r) (g', r') := by
    intro c hl
    have e := s.call (newSpace := newSpace) hc ha c hl
    exact ⟨fun g' r' h1 => ⟨_, _, rfl, by rw [h1]; exact e⟩, fun h' r h1 => ⟨_, _, rfl, by rw [h1]; exact e⟩⟩
  cases c with
  | assemble p x y =>
    have e := s.arguments (newSpace := newSpace) (kernel := kernel) hc a (hl p (by simp [CCall.args])) (hl x (by simp [CCall.args]))
      (hl y (by simp [CCall.args]))
    simp only [CCall.Step, CCall.rename, e]
    cases h.arguments newSpace kernel p x y with
    | ok q =>
      obtain ⟨d, asm, y, z⟩ := q
      have hb : ∀ out : Option (List T), ∀ o : CObj Γ Φ T,
          (do return .dense d (z.fs.globalSize, y.fs.globalSize) (← Ffi.rust out) : Ffi (CObj Γ Φ T)) = .ok o → o.refs = [] := by
        intro out o ho
        obtain ⟨_, -, ho⟩ := Ffi.bind_ok ho
        cases ho
        rfl
      constructor
      · rintro g' r' ⟨out, ho, h1⟩
        exact ⟨_, _, ⟨out, ho, rfl⟩, by rw [h1]; exact both (hb out)⟩
      · rintro h' r ⟨out, ho, h1⟩
        exact ⟨_, _, ⟨out, ho, rfl⟩, by rw [h1]; exact both (hb out)⟩
    | raised => exact ⟨fun g' r' ⟨h1, h2⟩ => ⟨_, _, ⟨rfl, rfl⟩, by rw [h1, h2]; exact undef _ (by simp)⟩,
        fun h' r ⟨h1, h2⟩ => ⟨_, _, ⟨rfl, rfl⟩, by rw [h1, h2]; exact undef _ (by simp)⟩⟩
    | panic => exact ⟨fun g' r' ⟨h1, h2⟩ => ⟨_, _, ⟨rfl, rfl⟩, by rw [h1, h2]; exact undef _ (by simp)⟩,
        fun h' r ⟨h1, h2⟩ => ⟨_, _, ⟨rfl, rfl⟩, by rw [h1, h2]; exact undef _ (by simp)⟩⟩
    | undefined => exact ⟨fun g' r' ⟨h1, h2⟩ => ⟨_, _, ⟨rfl, rfl⟩, by rw [h1, h2]; exact undef _ (by simp)⟩,
        fun h' r ⟨h1, h2⟩ => ⟨_, _, ⟨rfl, rfl⟩, by rw [h1, h2]; exact undef _ (by simp)⟩⟩
  | assembleSingular p x y =>
    have e := s.arguments (newSpace := newSpace) (kernel := kernel) hc a (hl p (by simp [CCall.args])) (hl x (by simp [CCall.args]))
      (hl y (by simp [CCall.args]))
    simp only [CCall.Step, CCall.rename, e]
    cases h.arguments newSpace kernel p x y with
    | ok q =>
      obtain ⟨d, asm, y, z⟩ := q
      have hb : ∀ out : Option (Csr T), ∀ o : CObj Γ Φ T,
          (do return .csr d (← Ffi.rust out) : Ffi (CObj Γ Φ T)) = .ok o → o.refs = [] := by
        intro out o ho
        obtain ⟨_, -, ho⟩ := Ffi.bind_ok ho
        cases ho
        rfl
      constructor
      · rintro g' r' ⟨out, ho, h1⟩
        exact ⟨_, _, ⟨out, ho, rfl⟩, by rw [h1]; exact both (hb out)⟩
      · rintro h' r ⟨out, ho, h1⟩
        exact ⟨_, _, ⟨out, ho, rfl⟩, by rw [h1]; exact both (hb out)⟩
    | raised => exact ⟨fun g' r' ⟨h1, h2⟩ => ⟨_, _, ⟨rfl, rfl⟩, by rw [h1, h2]; exact undef _ (by simp)⟩,
        fun h' r ⟨h1, h2⟩ => ⟨_, _, ⟨rfl, rfl⟩, by rw [h1, h2]; exact undef _ (by simp)⟩⟩
    | panic => exact ⟨fun g' r' ⟨h1, h2⟩ => ⟨_, _, ⟨rfl, rfl⟩, by rw [h1, h2]; exact undef _ (by simp)⟩,
        fun h' r ⟨h1, h2⟩ => ⟨_, _, ⟨rfl, rfl⟩, by rw [h1, h2]; exact undef _ (by simp)⟩⟩
    | undefined => exact ⟨fun g' r' ⟨h1, h2⟩ => ⟨_, _, ⟨rfl, rfl⟩, by rw [h1, h2]; exact undef _ (by simp)⟩,
        fun h' r ⟨h1, h2⟩ => ⟨_, _, ⟨rfl, rfl⟩, by rw [h1, h2]; exact undef _ (by simp)⟩⟩
  | assembleIntoMemory p x y data =>
    have e := s.arguments (newSpace := newSpace) (kernel := kernel) hc a (hl p (by simp [CCall.args])) (hl x (by simp [CCall.args]))
      (hl y (by simp [CCall.args]))
    simp only [CCall.Step, CCall.rename, e]
    have plain : ∀ r : Ffi (CResult T), (match h.arguments newSpace kernel p x y with
        | .ok (d, asm, y, z) =>
          if data.length < z.fs.globalSize * y.fs.globalSize then r = .undefined
          else ∃ out, AssembleIntoMemory (env d) asm y z (data.take (z.fs.globalSize * y.fs.globalSize)) out ∧
            r = match out with
              | .panicked _ => .panic
              | .ok mem => .ok (.memory (mem ++ data.drop (z.fs.globalSize * y.fs.globalSize)))
        | .raised => r = .raised
        | .panic => r = .panic
        | .undefined => r = .undefined) → r.Plain := by
      intro r hr u hu
      subst hu
      cases hq : h.arguments newSpace kernel p x y with
      | ok q =>
        obtain ⟨d, asm, y, z⟩ := q
        rw [hq] at hr
        dsimp only at hr
        split at hr
        · cases hr
        · obtain ⟨out, -, hr⟩ := hr
          cases out <;> cases hr
          rfl
      | _ => rw [hq] at hr; cases hr
    exact ⟨fun g' r' ⟨h1, h2⟩ => ⟨_, _, ⟨rfl, h2⟩, by rw [h1]; exact SameEnd.keep s a rfl (plain _ h2)⟩,
      fun h' r ⟨h1, h2⟩ => ⟨_, _, ⟨rfl, h2⟩, by rw [h1]; exact SameEnd.keep s a rfl (plain _ h2)⟩⟩
  | createGrid b r v => exact simple hl
  | createFamily k d v => exact simple hl
  | free k p => exact simple hl
  | functionSpace gr fa => exact simple hl
  | localSpace p => exact simple hl
  | space p q => exact simple hl
  | newOptions => exact simple hl
  | setOptions p ch => exact simple hl
  | getOptions p q => exact simple hl
  | laplaceNew p op d => exact simple hl
  | helmholtzNew k p op d => exact simple hl
  | assemblerDtype p => exact simple hl
  | matrix m q => exact simple hl
  | matrixPointer m part => exact simple hl
  | load m part i => exact simple hl

end
end

section
variable {newSpace : Γ → Φ → Option (Space R T)} {h : CHeap Γ Φ T} {v : CValues Γ Φ R T}

theorem Stands.refs {o : CObj Γ Φ T} {x : Option (CValue Γ Φ R T)} {m : List Nat} (s : Stands newSpace h (some o) x m) : o.refs = m := by
  cases s <;> rfl

theorem StandFor.closed (s : StandFor newSpace h v) : h.Closed := by
  intro p o ho q hq
  have := s.all p
  rw [ho] at this
  exact this.refers (by simp) q (this.refs ▸ hq)

theorem StandFor.there (s : StandFor newSpace h v) {c : CCall Γ Φ R T} (ha : c.Allowed v) : ∀ p ∈ c.args, h.live p ≠ none := by
  have key : ∀ {k p}, v.Has k p → h.live p ≠ none := by
    rintro k p ⟨x, hx, -⟩ hn
    have := (s.all p).none_iff.mp hn
    rw [hx] at this
    cases this
  intro p hp
  cases c with
  | free k q =>
    cases q with
    | none => simp [CCall.args] at hp
    | some q =>
      simp only [CCall.args, List.mem_singleton] at hp
      subst hp
      exact key ha.1
  | functionSpace g f =>
    simp only [CCall.args, List.mem_cons, List.not_mem_nil, or_false] at hp
    rcases hp with rfl | rfl
    · exact key ha.1
    · exact key ha.2
  | assemble x y z =>
    simp only [CCall.args, List.mem_cons, List.not_mem_nil, or_false] at hp
    rcases hp with rfl | rfl | rfl
    · exact key ha.1
    · exact key ha.2.1
    · exact key ha.2.2
  | assembleSingular x y z =>
    simp only [CCall.args, List.mem_cons, List.not_mem_nil, or_false] at hp
    rcases hp with rfl | rfl | rfl
    · exact key ha.1
    · exact key ha.2.1
    · exact key ha.2.2
  | assembleIntoMemory x y z data =>
    simp only [CCall.args, List.mem_cons, List.not_mem_nil, or_false] at hp
    rcases hp with rfl | rfl | rfl
    · exact key ha.1
    · exact key ha.2.1
    · exact key ha.2.2.1
  | createGrid b r v => simp [CCall.args] at hp
  | createFamily k d v => simp [CCall.args] at hp
  | newOptions => simp [CCall.args] at hp
  | space q qu => simp only [CCall.args, List.mem_singleton] at hp; subst hp; exact key ha.1
  | setOptions q ch => simp only [CCall.args, List.mem_singleton] at hp; subst hp; exact key ha.1
  | helmholtzNew k q op d => simp only [CCall.args, List.mem_singleton] at hp; subst hp; exact key ha.1
  | matrix q qu => simp only [CCall.args, List.mem_singleton] at hp; subst hp; exact key ha.1
  | load q part i => simp only [CCall.args, List.mem_singleton] at hp; subst hp; exact key ha.1
  | localSpace q => simp only [CCall.args, List.mem_singleton] at hp; subst hp; exact key ha
  | getOptions q qu => simp only [CCall.args, List.mem_singleton] at hp; subst hp; exact key ha
  | laplaceNew q op d => simp only [CCall.args, List.mem_singleton] at hp; subst hp; exact key ha
  | assemblerDtype q => simp only [CCall.args, List.mem_singleton] at hp; subst hp; exact key ha
  | matrixPointer q part => simp only [CCall.args, List.mem_singleton] at hp; subst hp; exact key ha

end

section
variable [Zero T] [Add T] [Sub T] [Mul T] [Div T] [Neg T] [Zero R] [Mul R] {newSpace : Γ → Φ → Option (Space R T)}
  {kernel : DType → Kernel R T} {env : DType → Env R T} {gives : CHeap Γ Φ T → CVars → Nat → Prop}

theorem CVars.after_ext (vars : CVars) (x : CResult T) : ∃ ext, vars.after x = vars ++ ext := by
  cases x <;> first
    | exact ⟨[], (List.append_nil _).symm⟩
    | exact ⟨[_], rfl⟩

theorem CAllocRuns.ext {g g' : CHeap Γ Φ T} {vars vars' : CVars} {calls : List (CCall Γ Φ R T)} {rs : List (Ffi (CResult T))}
    (h : CAllocRuns newSpace kernel env gives g vars calls g' vars' rs) : ∃ ext, vars' = vars ++ ext := by
  induction h with
  | nil h vars => exact ⟨[], (List.append_nil _).symm⟩
  | @returned h h' h'' vars vars' a c cs x rs hg s t ih =>
    obtain ⟨e, he⟩ := ih
    obtain ⟨e', he'⟩ := CVars.after_ext vars x
    exact ⟨e' ++ e, by rw [he, he', List.append_assoc]⟩
  | ended => exact ⟨[], (List.append_nil _).symm⟩

theorem Ffi.at_ok {vars : CVars} {r : Ffi (CResult T)} {x : CResult T} (h : Ffi.ok x = r.at vars) : ∃ y, r = .ok y ∧ x = y.at vars := by
  cases r with
  | ok y => exact ⟨y, rfl, by cases h; rfl⟩
  | _ => cases h

theorem Ffi.at_not_ok {vars : CVars} {r : Ffi (CResult T)} (h : ∀ x, r.at vars ≠ .ok x) : (∀ x, r ≠ .ok x) ∧ r.at vars = r := by
  cases r with
  | ok y => exact absurd rfl (h _)
  | _ => exact ⟨by simp, rfl⟩

theorem Placed.runs (ok : AllocatorOk gives) {g g' : CHeap Γ Φ T} {vars vars' : CVars} {calls : List (CCall Γ Φ R T)}
    {rs' : List (Ffi (CResult T))} (hr : CAllocRuns newSpace kernel env gives g vars calls g' vars' rs') :
    ∀ {h : CHeap Γ Φ T} {v : CValues Γ Φ R T}, Placed h g vars → StandFor newSpace h v → Disciplined newSpace kernel env v calls →
      ∃ h' v' rs, CMeans newSpace kernel env v calls v' rs ∧ StandFor newSpace h' v' ∧ Placed h' g' vars' ∧
        rs' = rs.map (Ffi.at vars') := by
  induction hr with
  | nil g vars => exact fun p s _ => ⟨_, _, [], .nil _, s, p, rfl⟩
  | @returned g g₁ g' vars vars' a c cs x rs' hg st t ih =>
    intro h v p s hd
    obtain ⟨h₁, r, st', e⟩ := (p.step s.closed (ok _ _ _ hg) (s.there hd.1)).1 _ _ st
    obtain ⟨v₁, hm, s₁⟩ := ((s.step hd.1).1 _ _ st').2
    have e1 : Ffi.ok x = r.at (vars.after x) := e.result
    obtain ⟨y, rfl, hxy⟩ := Ffi.at_ok e1
    obtain ⟨h', v', rs, m, s', p', hrs⟩ := ih e.placed s₁ (hd.2 _ _ hm)
    refine ⟨h', v', .ok y :: rs, .returned hm m, s', p', ?_⟩
    obtain ⟨ext, hext⟩ := t.ext
    rw [List.map_cons, ← hrs]
    refine congrArg (· :: rs') ?_
    show Ffi.ok x = Ffi.ok (y.at vars')
    rw [hext]
    exact congrArg Ffi.ok (hxy.trans (CResult.at_append ext (e.bound y rfl)).symm)
  | @ended g g' vars a c cs r' hg st hr =>
    intro h v p s hd
    obtain ⟨h₁, r, st', e⟩ := (p.step s.closed (ok _ _ _ hg) (s.there hd.1)).1 _ _ st
    obtain ⟨v₁, hm, s₁⟩ := ((s.step hd.1).1 _ _ st').2
    have hv : vars.then r' = vars := by
      cases r' with
      | ok x => exact absurd rfl (hr x)
      | _ => rfl
    have e1 := e.result
    have e2 := e.placed
    simp only [hv] at e1 e2
    obtain ⟨hr', -⟩ := Ffi.at_not_ok (fun x hx => hr x (e1.trans hx))
    exact ⟨h₁, v₁, [r], .ended hm hr', s₁, e2, by rw [e1]; rfl⟩

theorem Placed.means (ok : AllocatorOk gives) (full : NeverFull gives) {v v' : CValues Γ Φ R T} {calls : List (CCall Γ Φ R T)}
    {rs : List (Ffi (CResult T))} (hm : CMeans newSpace kernel env v calls v' rs) :
    ∀ {h g : CHeap Γ Φ T} {vars : CVars}, Placed h g vars → StandFor newSpace h v → Disciplined newSpace kernel env v calls →
      ∃ g' vars', CAllocRuns newSpace kernel env gives g vars calls g' vars' (rs.map (Ffi.at vars')) := by
  induction hm with
  | nil v => exact fun p s _ => ⟨_, _, .nil _ _⟩
  | @returned v v₁ v' c cs x rs m t ih =>
    intro h g vars p s hd
    obtain ⟨a, hg⟩ := full g vars p.finite
    obtain ⟨h₁, st, s₁⟩ := (s.step hd.1).2 _ _ m
    obtain ⟨g₁, r', st', e⟩ := (p.step s.closed (ok _ _ _ hg) (s.there hd.1)).2 _ _ st
    have e1 : r' = Ffi.ok (x.at (vars.then r')) := e.result
    obtain ⟨y, rfl⟩ : ∃ y, r' = .ok y := ⟨_, e1⟩
    have e2 : y = x.at (vars.after y) := by
      have e1' : Ffi.ok y = Ffi.ok (x.at (vars.after y)) := e1
      cases hh : x.at (vars.after y)
      all_goals (rw [hh] at e1'; cases e1'; rfl)
    obtain ⟨g', vars', hr⟩ := ih e.placed s₁ (hd.2 _ _ m)
    refine ⟨g', vars', ?_⟩
    obtain ⟨ext, hext⟩ := hr.ext
    have e3 : y = x.at vars' := by
      rw [hext]
      exact e2.trans (CResult.at_append ext (e.bound x rfl)).symm
    show CAllocRuns newSpace kernel env gives g vars (c :: cs) g' vars' (.ok (x.at vars') :: rs.map (Ffi.at vars'))
    rw [← e3]
    exact .returned hg st' hr
  | @ended v v₁ c cs r m hr =>
    intro h g vars p s hd
    obtain ⟨a, hg⟩ := full g vars p.finite
    obtain ⟨h₁, st, s₁⟩ := (s.step hd.1).2 _ _ m
    obtain ⟨g₁, r', st', e⟩ := (p.step s.closed (ok _ _ _ hg) (s.there hd.1)).2 _ _ st
    have hat : ∀ w : CVars, r.at w = r := by
      intro w
      cases r with
      | ok x => exact absurd rfl (hr x)
      | _ => rfl
    have e1 : r' = r := e.result.trans (hat _)
    subst e1
    refine ⟨g₁, vars, ?_⟩
    rw [List.map_singleton, hat]
    exact .ended hg st' hr

end
end Bempp
