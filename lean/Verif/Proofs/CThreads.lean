import Verif.Spec.CThreads
import Verif.Proofs.CInterface
/-
Calls that see a memory in which what they use is as it is now.
-/
set_option linter.unusedVariables false
set_option linter.unusedSectionVars false
set_option linter.unusedTactic false
namespace Bempp

variable {Γ Φ R T : Type}

theorem CHeap.same {h g : CHeap Γ Φ T} (h1 : h.next = g.next) (h2 : ∀ p, h.live p = g.live p) : h = g := by
  cases h; cases g; simp only [CHeap.mk.injEq] at *; exact ⟨h1, funext h2⟩

theorem CHeap.patch_self {h v : CHeap Γ Φ T} (hn : v.next = h.next) : h.patch v v = h :=
  CHeap.same hn fun p => by simp [CHeap.patch]

theorem CHeap.patch_alloc {h v : CHeap Γ Φ T} (hn : v.next = h.next) (hf : v.live v.next = none) (o : CObj Γ Φ T) :
    h.patch v (v.alloc o) = h.alloc o := by
  refine CHeap.same (by simp [CHeap.patch, CHeap.alloc, hn]) fun p => ?_
  by_cases hp : p = h.next
  · subst hp
    rw [hn] at hf
    simp [CHeap.patch, CHeap.alloc, hn, hf]
  · simp [CHeap.patch, CHeap.alloc, hn, hp]

theorem CHeap.patch_store {h v : CHeap Γ Φ T} (hn : v.next = h.next) {p : Nat} (hp : v.live p = h.live p) (o : Option (CObj Γ Φ T)) :
    h.patch v (v.store p o) = h.store p o := by
  refine CHeap.same (by simp [CHeap.patch, CHeap.store, hn]) fun q => ?_
  by_cases hq : q = p
  · subst hq
    by_cases ho : o = v.live q
    · simp [CHeap.patch, CHeap.store, ho, hp]
    · simp [CHeap.patch, CHeap.store, ho]
  · simp [CHeap.patch, CHeap.store, hq]

theorem CHeap.patch_made {h v : CHeap Γ Φ T} (hn : v.next = h.next) (hf : v.live v.next = none) (x : Ffi (CObj Γ Φ T))
    {v' : CHeap Γ Φ T} {r : Ffi (CResult T)} (e : (v', r) = v.made x) : (h.patch v v', r) = h.made x := by
  have e1 : v' = (v.made x).1 := congrArg Prod.fst e
  have e2 : r = (v.made x).2 := congrArg Prod.snd e
  subst e1 e2
  cases x with
  | ok o => exact Prod.ext (CHeap.patch_alloc hn hf o) (by simp [CHeap.made, hn])
  | raised => exact Prod.ext (CHeap.patch_self hn) rfl
  | panic => exact Prod.ext (CHeap.patch_self hn) rfl
  | undefined => exact Prod.ext (CHeap.patch_self hn) rfl

theorem CHeap.read_congr {h v : CHeap Γ Φ T} {k : CKind} {p : Nat} (e : v.live p = h.live p) : v.read k p = h.read k p := by
  simp only [CHeap.read, e]

theorem CHeap.readOptions_congr {h v : CHeap Γ Φ T} {p : Nat} (e : v.live p = h.live p) : v.readOptions p = h.readOptions p := by
  simp only [CHeap.readOptions, e]

theorem CHeap.spaceOf_congr {newSpace : Γ → Φ → Option (Space R T)} {h v : CHeap Γ Φ T} {x : CObj Γ Φ T}
    (e : ∀ q ∈ x.refs, v.live q = h.live q) : v.spaceOf newSpace x = h.spaceOf newSpace x := by
  cases x with
  | space d b r g f => simp only [CHeap.spaceOf, e g (by simp [CObj.refs]), e f (by simp [CObj.refs])]
  | _ => rfl

theorem CHeap.read_live {h : CHeap Γ Φ T} {k : CKind} {p : Nat} {x : CObj Γ Φ T} (e : h.read k p = .ok x) : h.live p = some x := by
  unfold CHeap.read at e
  split at e
  · rename_i o ho
    split at e
    · cases e; exact ho
    · cases e
  · cases e

/-- Two ways to continue that agree on the results there can be. -/
theorem Ffi.bind_agree {α β : Type} (x : Ffi α) {f g : α → Ffi β} (h : ∀ a, x = .ok a → f a = g a) : (x >>= f) = (x >>= g) := by
  cases x with
  | ok a => exact h a rfl
  | _ => rfl

theorem Ffi.bind_ok {α β : Type} {x : Ffi α} {f : α → Ffi β} {y : β} (h : (x >>= f) = .ok y) : ∃ a, x = .ok a ∧ f a = .ok y := by
  cases x with
  | ok a => exact ⟨a, rfl, h⟩
  | _ => cases h

theorem CCall.args_uses {h : CHeap Γ Φ T} {c : CCall Γ Φ R T} {p : Nat} (hp : p ∈ c.args) : p ∈ c.uses h :=
  List.mem_append_left _ hp

theorem CCall.refs_uses {h : CHeap Γ Φ T} {c : CCall Γ Φ R T} {p q : Nat} {o : CObj Γ Φ T} (hp : p ∈ c.args)
    (ho : h.live p = some o) (hq : q ∈ o.refs) : q ∈ c.uses h :=
  List.mem_append_right _ (List.mem_flatMap.mpr ⟨p, hp, by simpa [ho] using hq⟩)

theorem CCall.mem_uses {h : CHeap Γ Φ T} {c : CCall Γ Φ R T} {q : Nat} :
    q ∈ c.uses h ↔ q ∈ c.args ∨ ∃ p ∈ c.args, ∃ o, h.live p = some o ∧ q ∈ o.refs := by
  constructor
  · intro hq
    rcases List.mem_append.mp hq with hq | hq
    · exact .inl hq
    · obtain ⟨p, hp, hq⟩ := List.mem_flatMap.mp hq
      cases ho : h.live p with
      | none => simp [ho] at hq
      | some o => exact .inr ⟨p, hp, o, ho, by simpa [ho] using hq⟩
  · rintro (hq | ⟨p, hp, o, ho, hq⟩)
    · exact args_uses hq
    · exact refs_uses hp ho hq

theorem CCall.uses_congr {h v : CHeap Γ Φ T} {c : CCall Γ Φ R T} (e : ∀ p ∈ c.args, v.live p = h.live p) : c.uses v = c.uses h := by
  unfold CCall.uses
  congr 1
  have key : ∀ l : List Nat, (∀ p ∈ l, v.live p = h.live p) →
      (l.flatMap fun p => ((v.live p).map CObj.refs).getD []) = l.flatMap fun p => ((h.live p).map CObj.refs).getD [] := by
    intro l
    induction l with
    | nil => intro _; rfl
    | cons a l ih =>
      intro hl
      rw [List.flatMap_cons, List.flatMap_cons, hl a (by simp), ih fun p hp => hl p (by simp [hp])]
  exact key _ e

/-- What a call sees of the memory is as in `h`. -/
structure CCall.Agrees (c : CCall Γ Φ R T) (v h : CHeap Γ Φ T) : Prop where
  next : v.next = h.next
  fresh : v.live v.next = none
  live : ∀ p ∈ c.uses h, v.live p = h.live p
  borrowed : ∀ p x, c = .setOptions p x → (v.Borrowed p ↔ h.Borrowed p)

/-- What a call can do to the memory, with the result that tells so. -/
inductive CCall.Effect (h : CHeap Γ Φ T) (c : CCall Γ Φ R T) : CHeap Γ Φ T → Ffi (CResult T) → Prop
  | keep {r : Ffi (CResult T)} (hr : ∀ q, r ≠ .ok (.handle q)) : CCall.Effect h c h r
  | alloc (o : CObj Γ Φ T) (ho : ∀ q ∈ o.refs, q ∈ c.args) : CCall.Effect h c (h.alloc o) (.ok (.handle h.next))
  | store (p : Nat) (o : Option (CObj Γ Φ T)) (hp : p ∈ c.changes) (hl : h.live p ≠ none) (ho : ∀ x, o = some x → x.refs = []) :
      CCall.Effect h c (h.store p o) (.ok .nothing)

theorem SpaceQuery.answer_not_handle (d : DType) (s : Space R T) (q : SpaceQuery) (p : Nat) :
    (q.answer d s : Ffi (CResult T)) ≠ .ok (.handle p) := by
  intro h
  cases q <;> simp only [SpaceQuery.answer] at h
  all_goals first
    | (cases h; done)
    | (obtain ⟨a, -, h⟩ := Ffi.bind_ok h
       first
         | (cases h; done)
         | (obtain ⟨b, -, h⟩ := Ffi.bind_ok h; cases h))

theorem MatrixQuery.answer_not_handle (q : MatrixQuery T) (x : CObj Γ Φ T) (p : Nat) : q.answer x ≠ .ok (.handle p) := by
  intro h
  cases q <;> cases x <;> simp only [MatrixQuery.answer] at h
  all_goals first
    | (cases h; done)
    | (obtain ⟨a, -, h⟩ := Ffi.bind_ok h; cases h)

theorem OptionQuery.answer_not_handle (o : Options) (q : OptionQuery) (p : Nat) : (q.answer o : Ffi (CResult T)) ≠ .ok (.handle p) := by
  intro h
  cases q <;> simp only [OptionQuery.answer] at h
  all_goals first
    | (cases h; done)
    | (obtain ⟨a, -, h⟩ := Ffi.bind_ok h; cases h)

theorem MatrixPart.item_not_handle (i : Nat) (m : MatrixPart) (x : CObj Γ Φ T) (p : Nat) : Ffi.mem (m.item i x) ≠ .ok (.handle p) := by
  intro h
  have h' : m.item i x = some (.handle p) := by
    cases hm : m.item i x with
    | none => rw [hm] at h; cases h
    | some y => rw [hm] at h; cases h; rfl
  cases m <;> cases x <;> simp [MatrixPart.item] at h'

theorem concretise_ok {α : Type} {t : List (List RustType)} {l : List RustType} {x : Ffi α} {y : α} (h : concretise t l x = .ok y) :
    x = .ok y := by
  unfold concretise at h
  split at h
  · exact h
  · cases h

theorem CCall.Effect.made {h h' : CHeap Γ Φ T} {c : CCall Γ Φ R T} {r : Ffi (CResult T)} {x : Ffi (CObj Γ Φ T)}
    (e : (h', r) = h.made x) (hx : ∀ o, x = .ok o → ∀ q ∈ o.refs, q ∈ c.args) : c.Effect h h' r := by
  have e1 : h' = (h.made x).1 := congrArg Prod.fst e
  have e2 : r = (h.made x).2 := congrArg Prod.snd e
  subst e1 e2
  cases x with
  | ok o => exact .alloc o (hx o rfl)
  | _ => exact .keep (by simp [CHeap.made])

theorem CCall.Effect.unchanged {h h' : CHeap Γ Φ T} {c : CCall Γ Φ R T} {r x : Ffi (CResult T)} (e : (h', r) = (h, x))
    (hx : ∀ q, x ≠ .ok (.handle q)) : c.Effect h h' r := by
  cases e
  exact .keep hx

section
variable [Zero T] [Add T] [Sub T] [Mul T] [Div T] [Neg T] [Zero R] [Mul R] {newSpace : Γ → Φ → Option (Space R T)}
  {kernel : DType → Kernel R T} {env : DType → Env R T}

theorem CHeap.arguments_congr {h v : CHeap Γ Φ T} {a x y : Nat} {c : CCall Γ Φ R T} (hc : c.args = [a, x, y])
    (e : ∀ p ∈ c.uses h, v.live p = h.live p) : v.arguments newSpace kernel a x y = h.arguments newSpace kernel a x y := by
  have ea : a ∈ c.args := by simp [hc]
  have ex : x ∈ c.args := by simp [hc]
  have ey : y ∈ c.args := by simp [hc]
  unfold CHeap.arguments
  rw [CHeap.read_congr (e a (CCall.args_uses ea)), CHeap.read_congr (e x (CCall.args_uses ex)),
    CHeap.read_congr (e y (CCall.args_uses ey))]
  refine Ffi.bind_agree _ fun o ho => Ffi.bind_agree _ fun s hs => Ffi.bind_agree _ fun t ht => ?_
  congr 1
  cases o with
  | assembler eq op d p =>
    have ho' := CHeap.read_live ho
    have e1 : v.readOptions p = h.readOptions p :=
      CHeap.readOptions_congr (e p (CCall.refs_uses ea ho' (by simp [CObj.refs])))
    have e2 : v.spaceOf newSpace s = h.spaceOf newSpace s :=
      CHeap.spaceOf_congr fun q hq => e q (CCall.refs_uses ex (CHeap.read_live hs) hq)
    have e3 : v.spaceOf newSpace t = h.spaceOf newSpace t :=
      CHeap.spaceOf_congr fun q hq => e q (CCall.refs_uses ey (CHeap.read_live ht) hq)
    simp only [e1, e2, e3]
  | _ => rfl

/-- A call that sees what it uses as it is now ends as it would if it were alone. -/
theorem CCall.Step.transfer {c : CCall Γ Φ R T} {v v' h : CHeap Γ Φ T} {r : Ffi (CResult T)} (e : c.Agrees v h)
    (s : c.Step newSpace kernel env v v' r) : c.Step newSpace kernel env h (h.patch v v') r := by
  obtain ⟨hn, hf, hl, hb⟩ := e
  have keep : ∀ {x y : Ffi (CResult T)}, x = y → (v', r) = (v, x) → (h.patch v v', r) = (h, y) := by
    rintro x y rfl e
    cases e
    rw [CHeap.patch_self hn]
  have mk : ∀ {x y : Ffi (CObj Γ Φ T)}, x = y → (v', r) = v.made x → (h.patch v v', r) = h.made y := by
    rintro x y rfl e
    exact CHeap.patch_made hn hf _ e
  have self : h.patch v v = h := CHeap.patch_self hn
  cases c with
  | assemble a x y =>
    have ea := CHeap.arguments_congr (newSpace := newSpace) (kernel := kernel) (c := (.assemble a x y : CCall Γ Φ R T)) rfl hl
    simp only [CCall.Step, ea] at s ⊢
    split at s
    · obtain ⟨out, ho, e⟩ := s
      exact ⟨out, ho, mk rfl e⟩
    all_goals exact ⟨by rw [s.1]; exact self, s.2⟩
  | assembleSingular a x y =>
    have ea := CHeap.arguments_congr (newSpace := newSpace) (kernel := kernel) (c := (.assembleSingular a x y : CCall Γ Φ R T)) rfl hl
    simp only [CCall.Step, ea] at s ⊢
    split at s
    · obtain ⟨out, ho, e⟩ := s
      exact ⟨out, ho, mk rfl e⟩
    all_goals exact ⟨by rw [s.1]; exact self, s.2⟩
  | assembleIntoMemory a x y data =>
    have ea := CHeap.arguments_congr (newSpace := newSpace) (kernel := kernel) (c := (.assembleIntoMemory a x y data : CCall Γ Φ R T)) rfl hl
    simp only [CCall.Step, ea] at s ⊢
    exact ⟨by rw [s.1]; exact self, s.2⟩
  | createGrid b t x => exact mk (x := .ok (.grid b t x)) rfl s
  | createFamily k d x => exact mk (x := .ok (.family k d x)) rfl s
  | newOptions => exact mk (x := .ok (.options Options.default)) rfl s
  | free k p =>
    cases p with
    | none => exact keep rfl s
    | some p =>
      have e1 : v.live p = h.live p := hl p (CCall.args_uses (by simp [CCall.args]))
      have e2 := CHeap.read_congr (k := k) e1
      simp only [CCall.Step, CHeap.call, e2] at s ⊢
      split at s
      · cases s
        rw [CHeap.patch_store hn e1]
      · exact keep rfl s
  | setOptions p x =>
    have e1 : v.live p = h.live p := hl p (CCall.args_uses (by simp [CCall.args]))
    have e2 := CHeap.readOptions_congr e1
    have e3 := hb p x rfl
    have s' : (v', r) = v.call newSpace (.setOptions p x : CCall Γ Φ R T) := s
    show (h.patch v v', r) = h.call newSpace (.setOptions p x : CCall Γ Φ R T)
    simp only [CHeap.call, e2] at s' ⊢
    split at s'
    · by_cases hB : h.Borrowed p
      · rw [if_pos (e3.mpr hB)] at s'
        rw [if_pos hB]
        exact keep rfl s'
      · rw [if_neg fun hv => hB (e3.mp hv)] at s'
        rw [if_neg hB]
        cases s'
        rw [CHeap.patch_store hn e1]
    · exact keep rfl s'
  | functionSpace g f =>
    refine mk ?_ s
    rw [CHeap.read_congr (hl g (CCall.args_uses (by simp [CCall.args]))), CHeap.read_congr (hl f (CCall.args_uses (by simp [CCall.args])))]
  | localSpace p =>
    have hp : p ∈ (CCall.localSpace p : CCall Γ Φ R T).args := by simp [CCall.args]
    refine mk ?_ s
    rw [CHeap.read_congr (hl p (CCall.args_uses hp))]
    refine Ffi.bind_agree _ fun x hx => ?_
    rw [CHeap.spaceOf_congr fun q hq => hl q (CCall.refs_uses hp (CHeap.read_live hx) hq)]
  | space p q =>
    have hp : p ∈ (CCall.space p q : CCall Γ Φ R T).args := by simp [CCall.args]
    refine keep ?_ s
    rw [CHeap.read_congr (hl p (CCall.args_uses hp))]
    refine Ffi.bind_agree _ fun x hx => ?_
    rw [CHeap.spaceOf_congr fun q hq => hl q (CCall.refs_uses hp (CHeap.read_live hx) hq)]
  | getOptions p q =>
    refine keep ?_ s
    rw [CHeap.readOptions_congr (hl p (CCall.args_uses (by simp [CCall.args])))]
  | laplaceNew p op d =>
    refine mk ?_ s
    unfold CHeap.laplaceNew
    rw [CHeap.readOptions_congr (hl p (CCall.args_uses (by simp [CCall.args])))]
  | helmholtzNew k p op d =>
    refine mk ?_ s
    unfold CHeap.helmholtzNew
    rw [CHeap.readOptions_congr (hl p (CCall.args_uses (by simp [CCall.args])))]
  | assemblerDtype a =>
    refine keep ?_ s
    rw [CHeap.read_congr (hl a (CCall.args_uses (by simp [CCall.args])))]
  | matrix m q =>
    refine keep ?_ s
    rw [CHeap.read_congr (hl m (CCall.args_uses (by simp [CCall.args])))]
  | matrixPointer m part =>
    refine keep ?_ s
    rw [CHeap.read_congr (hl m (CCall.args_uses (by simp [CCall.args])))]
  | load m part i =>
    refine keep ?_ s
    rw [CHeap.read_congr (hl m (CCall.args_uses (by simp [CCall.args])))]

theorem CCall.Step.does {c : CCall Γ Φ R T} {h h' : CHeap Γ Φ T} {r : Ffi (CResult T)} (s : c.Step newSpace kernel env h h' r) :
    c.Effect h h' r := by
  cases c with
  | assemble a x y =>
    simp only [CCall.Step] at s
    split at s
    · obtain ⟨out, -, e⟩ := s
      refine .made e fun o ho => ?_
      obtain ⟨b, -, hb⟩ := Ffi.bind_ok ho
      cases hb
      simp [CObj.refs]
    all_goals (obtain ⟨rfl, rfl⟩ := s; exact .keep (by simp))
  | assembleSingular a x y =>
    simp only [CCall.Step] at s
    split at s
    · obtain ⟨out, -, e⟩ := s
      refine .made e fun o ho => ?_
      obtain ⟨b, -, hb⟩ := Ffi.bind_ok ho
      cases hb
      simp [CObj.refs]
    all_goals (obtain ⟨rfl, rfl⟩ := s; exact .keep (by simp))
  | assembleIntoMemory a x y data =>
    obtain ⟨rfl, s⟩ := s
    refine .keep fun q hq => ?_
    split at s
    · dsimp only at s
      split at s
      · rw [hq] at s; cases s
      · obtain ⟨out, -, e⟩ := s
        rw [hq] at e
        split at e <;> cases e
    all_goals (rw [hq] at s; cases s)
  | createGrid b t x => exact .made (x := .ok (.grid b t x)) s fun o ho => by cases ho; simp [CObj.refs]
  | createFamily k d x => exact .made (x := .ok (.family k d x)) s fun o ho => by cases ho; simp [CObj.refs]
  | newOptions => exact .made (x := .ok (.options Options.default)) s fun o ho => by cases ho; simp [CObj.refs]
  | free k p =>
    cases p with
    | none => exact .unchanged s (by simp)
    | some p =>
      simp only [CCall.Step, CHeap.call] at s
      split at s
      · rename_i x hx
        cases s
        exact .store p none (by simp [CCall.changes]) (by rw [CHeap.read_live hx]; simp) (by simp)
      · exact .unchanged s (by simp)
  | setOptions p x =>
    have s' : (h', r) = h.call newSpace (.setOptions p x : CCall Γ Φ R T) := s
    simp only [CHeap.call] at s'
    split at s'
    · rename_i o ho
      split at s'
      · exact .unchanged s' (by simp)
      · cases s'
        refine .store p _ (by simp [CCall.changes]) ?_ ?_
        · intro hz
          simp [CHeap.readOptions, hz] at ho
        · rintro _ ⟨⟩
          rfl
    · exact .unchanged s' (by simp)
  | functionSpace g f =>
    refine .made s fun o ho => ?_
    obtain ⟨x, -, ho⟩ := Ffi.bind_ok ho
    obtain ⟨y, -, ho⟩ := Ffi.bind_ok ho
    split at ho
    · obtain ⟨z, -, ho⟩ := Ffi.bind_ok (concretise_ok ho)
      cases ho
      simp [CObj.refs, CCall.args]
    · cases ho
  | localSpace p =>
    refine .made s fun o ho => ?_
    obtain ⟨x, -, ho⟩ := Ffi.bind_ok ho
    obtain ⟨y, -, ho⟩ := Ffi.bind_ok (concretise_ok ho)
    split at ho
    · cases ho
      simp [CObj.refs, CCall.args]
    · cases ho
  | space p q =>
    refine .unchanged s fun a ha => ?_
    obtain ⟨x, -, ha⟩ := Ffi.bind_ok ha
    obtain ⟨y, -, ha⟩ := Ffi.bind_ok (concretise_ok ha)
    split at ha
    · exact q.answer_not_handle _ _ _ ha
    · cases ha
  | getOptions p q =>
    refine .unchanged s fun a ha => ?_
    obtain ⟨x, -, ha⟩ := Ffi.bind_ok ha
    exact q.answer_not_handle _ _ ha
  | laplaceNew p op d =>
    refine .made s fun o ho => ?_
    unfold CHeap.laplaceNew at ho
    split at ho
    all_goals first
      | (cases ho; done)
      | (obtain ⟨x, -, ho⟩ := Ffi.bind_ok ho
         split at ho <;> cases ho <;> simp [CObj.refs, CCall.args])
  | helmholtzNew k p op d =>
    refine .made s fun o ho => ?_
    unfold CHeap.helmholtzNew at ho
    split at ho
    all_goals first
      | (cases ho; done)
      | (split at ho
         · cases ho
         · obtain ⟨x, -, ho⟩ := Ffi.bind_ok ho
           split at ho <;> cases ho <;> simp [CObj.refs, CCall.args])
  | assemblerDtype a =>
    refine .unchanged s fun b hb => ?_
    obtain ⟨x, -, hb⟩ := Ffi.bind_ok hb
    have hb := concretise_ok hb
    split at hb <;> cases hb
  | matrix m q =>
    refine .unchanged s fun b hb => ?_
    obtain ⟨x, -, hb⟩ := Ffi.bind_ok hb
    exact q.answer_not_handle _ _ (concretise_ok hb)
  | matrixPointer m part =>
    refine .unchanged s fun b hb => ?_
    obtain ⟨x, -, hb⟩ := Ffi.bind_ok hb
    cases concretise_ok hb
  | load m part i =>
    refine .unchanged s fun b hb => ?_
    obtain ⟨x, -, hb⟩ := Ffi.bind_ok hb
    exact MatrixPart.item_not_handle _ _ _ _ hb

end

/-! ### The invariant -/

/-- The memory `g` that a call saw since it began has not changed in what the call uses. -/
structure CCall.SeenOk (c : CCall Γ Φ R T) (g h : CHeap Γ Φ T) : Prop where
  fresh : ∀ p, h.next ≤ p → g.live p = none
  live : ∀ p ∈ c.uses h, g.live p = h.live p
  borrowed : ∀ p x, c = .setOptions p x → ∀ q e op d, g.live q = some (.assembler e op d p) ↔ h.live q = some (.assembler e op d p)

theorem CHeap.Sound.fresh {h : CHeap Γ Φ T} (s : h.Sound) {p : Nat} (hp : h.next ≤ p) : h.live p = none := by
  cases ho : h.live p with
  | none => rfl
  | some o => have := (s p o ho).1; omega

theorem CCall.SeenOk.refl {c : CCall Γ Φ R T} {h : CHeap Γ Φ T} (s : h.Sound) : c.SeenOk h h :=
  ⟨fun _ hp => s.fresh hp, fun _ _ => rfl, fun _ _ _ _ _ _ _ => Iff.rfl⟩

theorem CHeap.ViewOf.agrees {c : CCall Γ Φ R T} {v h : CHeap Γ Φ T} {seen : List (CHeap Γ Φ T)} (hv : v.ViewOf h seen)
    (hs : ∀ g ∈ seen, c.SeenOk g h) : c.Agrees v h := by
  refine ⟨hv.1, ?_, fun p hp => ?_, fun p x hc => ?_⟩
  · obtain ⟨g, hg, e⟩ := hv.2 v.next
    rw [e, (hs g hg).fresh _ (by rw [hv.1])]
  · obtain ⟨g, hg, e⟩ := hv.2 p
    rw [e, (hs g hg).live p hp]
  · constructor
    · rintro ⟨q, e, op, d, hq⟩
      obtain ⟨g, hg, eq⟩ := hv.2 q
      exact ⟨q, e, op, d, ((hs g hg).borrowed p x hc q e op d).mp (eq ▸ hq)⟩
    · rintro ⟨q, e, op, d, hq⟩
      obtain ⟨g, hg, eq⟩ := hv.2 q
      exact ⟨q, e, op, d, eq ▸ ((hs g hg).borrowed p x hc q e op d).mpr hq⟩

theorem CCall.uses_lt {c : CCall Γ Φ R T} {h : CHeap Γ Φ T} (s : h.Sound) (ha : ∀ p ∈ c.args, p < h.next) {p : Nat}
    (hp : p ∈ c.uses h) : p < h.next := by
  rcases CCall.mem_uses.mp hp with hp | ⟨q, -, o, ho, hr⟩
  · exact ha p hp
  · exact (s q o ho).2 p hr

theorem CCall.changes_args {c : CCall Γ Φ R T} {p : Nat} (hp : p ∈ c.changes) : p ∈ c.args := by
  cases c with
  | free k q => cases q <;> simp_all [CCall.changes, CCall.args]
  | setOptions q x => simpa [CCall.changes, CCall.args] using hp
  | _ => simp [CCall.changes] at hp

theorem CCall.Effect.next {c : CCall Γ Φ R T} {h h' : CHeap Γ Φ T} {r : Ffi (CResult T)} (e : c.Effect h h' r) : h.next ≤ h'.next := by
  cases e with
  | keep => exact le_rfl
  | alloc => exact Nat.le_succ _
  | store => exact le_rfl

theorem CCall.Effect.sound {c : CCall Γ Φ R T} {h h' : CHeap Γ Φ T} {r : Ffi (CResult T)} (e : c.Effect h h' r) (s : h.Sound)
    (ha : ∀ p ∈ c.args, p < h.next) : h'.Sound := by
  cases e with
  | keep => exact s
  | alloc o ho =>
    intro p x hx
    simp only [CHeap.alloc] at hx ⊢
    split at hx
    · cases hx
      exact ⟨by omega, fun q hq => Nat.lt_succ_of_lt (ha q (ho q hq))⟩
    · exact ⟨Nat.lt_succ_of_lt (s p x hx).1, fun q hq => Nat.lt_succ_of_lt ((s p x hx).2 q hq)⟩
  | store p o hp hl ho =>
    intro q x hx
    simp only [CHeap.store] at hx ⊢
    split at hx
    · rename_i hq
      subst hq
      exact ⟨ha _ (CCall.changes_args hp), by rw [ho x hx]; simp⟩
    · exact s q x hx

/-- A call of another thread that is not in a race does not disturb. -/
theorem CCall.SeenOk.other {c c' : CCall Γ Φ R T} {g h h' : CHeap Γ Φ T} {r : Ffi (CResult T)} (hs : c.SeenOk g h) (s : h.Sound)
    (ha : ∀ p ∈ c.args, p < h.next) (h1 : ∀ p ∈ c'.changes, p ∉ c.uses h) (h2 : ∀ p ∈ c.changes, p ∉ c'.uses h)
    (e : c'.Effect h h' r) : c.SeenOk g h' := by
  have hl : ∀ p ∈ c.uses h, h'.live p = h.live p := by
    intro p hp
    cases e with
    | keep => rfl
    | alloc o ho =>
      have : p ≠ h.next := Nat.ne_of_lt (CCall.uses_lt s ha hp)
      simp [CHeap.alloc, this]
    | store q o hq hl ho =>
      have : p ≠ q := by rintro rfl; exact h1 _ hq hp
      simp [CHeap.store, this]
  have hu : c.uses h' = c.uses h := CCall.uses_congr fun p hp => hl p (CCall.args_uses hp)
  refine ⟨fun p hp => hs.fresh p (e.next.trans hp), fun p hp => ?_, fun p x hc q eq op d => ?_⟩
  · rw [hu] at hp
    rw [hs.live p hp, hl p hp]
  · have hp : p ∈ c.changes := by rw [hc]; simp [CCall.changes]
    have hno := h2 p hp
    rw [hs.borrowed p x hc q eq op d]
    cases e with
    | keep => exact Iff.rfl
    | alloc o ho =>
      by_cases hq : q = h.next
      · have h3 : h.live q = none := s.fresh (by omega)
        rw [h3]
        simp only [CHeap.alloc, hq, if_true, Option.some.injEq]
        refine ⟨fun h => (by cases h), fun h => absurd (CCall.args_uses (ho p ?_)) hno⟩
        rw [h]
        simp [CObj.refs]
      · simp [CHeap.alloc, hq]
    | store q' o hq' hl' ho =>
      by_cases hq : q = q'
      · subst hq
        constructor
        · intro h3
          exact absurd (CCall.refs_uses (CCall.changes_args hq') h3 (by simp [CObj.refs])) hno
        · intro h3
          simp only [CHeap.store, if_true] at h3
          have := ho _ h3
          simp [CObj.refs] at this
      · simp [CHeap.store, hq]

theorem FollowsProg.snoc {prog : List (CResult T) → Option (CCall Γ Φ R T)} {l : List (CCall Γ Φ R T × Ffi (CResult T))}
    (h : FollowsProg prog l) {c : CCall Γ Φ R T} (hc : prog (l.flatMap fun y => y.2.results) = some c) (r : Ffi (CResult T)) :
    FollowsProg prog (l ++ [(c, r)]) := by
  intro k x hx
  rcases Nat.lt_trichotomy k l.length with hk | hk | hk
  · rw [List.getElem?_append_left hk] at hx
    rw [List.take_append_of_le_length hk.le]
    exact h k x hx
  · subst hk
    simp only [List.getElem?_append_right le_rfl, Nat.sub_self, List.getElem?_cons_zero, Option.some.injEq] at hx
    subst hx
    simpa using hc
  · rw [List.getElem?_eq_none (by simp; omega)] at hx
    cases hx

section
variable [Zero T] [Add T] [Sub T] [Mul T] [Div T] [Neg T] [Zero R] [Mul R] {newSpace : Γ → Φ → Option (Space R T)}
  {kernel : DType → Kernel R T} {env : DType → Env R T}

theorem CRuns.snoc {h h' h'' : CHeap Γ Φ T} {cs : List (CCall Γ Φ R T)} {rs : List (Ffi (CResult T))} {c : CCall Γ Φ R T}
    {r : Ffi (CResult T)} (hr : CRuns newSpace kernel env h cs h' rs) (hok : ∀ x ∈ rs, ∃ y, x = .ok y)
    (s : c.Step newSpace kernel env h' h'' r) : CRuns newSpace kernel env h (cs ++ [c]) h'' (rs ++ [r]) := by
  induction hr with
  | nil h =>
    cases r with
    | ok x => exact .returned s (.nil _)
    | _ => exact .ended s (by simp)
  | returned st t ih => exact .returned st (ih (fun x hx => hok x (by simp [hx])) s)
  | ended st hn =>
    obtain ⟨y, hy⟩ := hok _ (List.mem_singleton_self _)
    exact absurd hy (hn y)

variable (newSpace kernel env) in
/-- The calls that ended are a sequence of calls, and the calls that go on see nothing else. -/
structure CProcess.Good (h₀ : CHeap Γ Φ T) (progs : List (List (CResult T) → Option (CCall Γ Φ R T))) (s : CProcess Γ Φ R T) : Prop where
  sound : s.heap.Sound
  seen : ∀ (i : Nat) (t : CThread Γ Φ R T) c seen, s.threads[i]? = some t → t.current = some (c, seen) → ∀ g ∈ seen, c.SeenOk g s.heap
  runs : CRuns newSpace kernel env h₀ (s.log.map fun x => x.2.1) s.heap (s.log.map fun x => x.2.2)
  alive : s.ended = false → ∀ x ∈ s.log, ∃ y, x.2.2 = .ok y
  progs : s.threads.map (fun t => t.prog) = progs
  done : ∀ (i : Nat) (t : CThread Γ Φ R T), s.threads[i]? = some t → t.done = (s.logOf i).flatMap fun y => y.2.results
  follows : ∀ (i : Nat) (t : CThread Γ Φ R T), s.threads[i]? = some t → FollowsProg t.prog (s.logOf i)
  current : ∀ (i : Nat) (t : CThread Γ Φ R T) c seen, s.threads[i]? = some t → t.current = some (c, seen) → t.prog t.done = some c

theorem CProcess.start_thread {h₀ : CHeap Γ Φ T} {progs : List (List (CResult T) → Option (CCall Γ Φ R T))} {i : Nat}
    {t : CThread Γ Φ R T} (ht : (CProcess.start h₀ progs).threads[i]? = some t) :
    ∃ p, progs[i]? = some p ∧ t = ⟨p, [], none⟩ := by
  simp only [CProcess.start, List.getElem?_map, Option.map_eq_some_iff] at ht
  obtain ⟨p, hp, rfl⟩ := ht
  exact ⟨p, hp, rfl⟩

theorem CProcess.Good.start {h₀ : CHeap Γ Φ T} (hs : h₀.Sound) (progs : List (List (CResult T) → Option (CCall Γ Φ R T))) :
    CProcess.Good newSpace kernel env h₀ progs (CProcess.start h₀ progs) := by
  refine ⟨hs, fun i t c seen ht hc => ?_, .nil _, fun _ x hx => by simp [CProcess.start] at hx, ?_, fun i t ht => ?_, fun i t ht k x hx => ?_,
    fun i t c seen ht hc => ?_⟩
  · obtain ⟨p, -, rfl⟩ := CProcess.start_thread ht
    cases hc
  · simp [CProcess.start, Function.comp_def]
  · obtain ⟨p, -, rfl⟩ := CProcess.start_thread ht
    rfl
  · simp [CProcess.logOf, CProcess.start] at hx
  · obtain ⟨p, -, rfl⟩ := CProcess.start_thread ht
    cases hc

/-- The threads after a call of thread `i` ended. -/
theorem threads_after {threads : List (CThread Γ Φ R T)} {i j : Nat} {t t' u : CThread Γ Φ R T} {h : CHeap Γ Φ T}
    (hi : threads[i]? = some t) (hj : ((threads.set i t').map (CThread.sees h))[j]? = some u) :
    (j = i ∧ u = t'.sees h) ∨ (j ≠ i ∧ ∃ w, threads[j]? = some w ∧ u = w.sees h) := by
  rw [List.getElem?_map, Option.map_eq_some_iff] at hj
  obtain ⟨w, hw, rfl⟩ := hj
  by_cases hji : j = i
  · subst hji
    rw [List.getElem?_set_self (List.getElem?_eq_some_iff.mp hi).1] at hw
    cases hw
    exact .inl ⟨rfl, rfl⟩
  · rw [List.getElem?_set_ne (Ne.symm hji)] at hw
    exact .inr ⟨hji, w, hw, rfl⟩

theorem threads_begun {threads : List (CThread Γ Φ R T)} {i j : Nat} {t t' u : CThread Γ Φ R T}
    (hi : threads[i]? = some t) (hj : (threads.set i t')[j]? = some u) :
    (j = i ∧ u = t') ∨ (j ≠ i ∧ threads[j]? = some u) := by
  by_cases hji : j = i
  · subst hji
    rw [List.getElem?_set_self (List.getElem?_eq_some_iff.mp hi).1] at hj
    cases hj
    exact .inl ⟨rfl, rfl⟩
  · rw [List.getElem?_set_ne (Ne.symm hji)] at hj
    exact .inr ⟨hji, hj⟩

theorem progs_set {threads : List (CThread Γ Φ R T)} {i : Nat} {t t' : CThread Γ Φ R T} (hi : threads[i]? = some t)
    (hp : t'.prog = t.prog) : (threads.set i t').map (fun t => t.prog) = threads.map fun t => t.prog := by
  refine List.ext_getElem? fun j => ?_
  rw [List.getElem?_map, List.getElem?_map]
  by_cases hji : j = i
  · subst hji
    rw [List.getElem?_set_self (List.getElem?_eq_some_iff.mp hi).1, hi]
    simp [hp]
  · rw [List.getElem?_set_ne (Ne.symm hji)]

theorem logOf_self (s : CProcess Γ Φ R T) (i : Nat) (c : CCall Γ Φ R T) (r : Ffi (CResult T)) (h : CHeap Γ Φ T)
    (ts : List (CThread Γ Φ R T)) (b : Bool) :
    CProcess.logOf { heap := h, threads := ts, log := s.log ++ [(i, c, r)], ended := b } i = s.logOf i ++ [(c, r)] := by
  simp [CProcess.logOf, List.filter_append]

theorem logOf_other (s : CProcess Γ Φ R T) {i j : Nat} (hij : j ≠ i) (c : CCall Γ Φ R T) (r : Ffi (CResult T)) (h : CHeap Γ Φ T)
    (ts : List (CThread Γ Φ R T)) (b : Bool) :
    CProcess.logOf { heap := h, threads := ts, log := s.log ++ [(i, c, r)], ended := b } j = s.logOf j := by
  simp [CProcess.logOf, List.filter_append, Ne.symm hij]

theorem CThread.sees_current {t : CThread Γ Φ R T} {h : CHeap Γ Φ T} {c : CCall Γ Φ R T} {seen : List (CHeap Γ Φ T)}
    (hc : (t.sees h).current = some (c, seen)) : ∃ seen', t.current = some (c, seen') ∧ seen = h :: seen' := by
  simp only [CThread.sees, Option.map_eq_some_iff] at hc
  obtain ⟨⟨c', seen'⟩, hc, e⟩ := hc
  cases e
  exact ⟨seen', hc, rfl⟩

/-- The call that ends does so as if it were alone. -/
theorem CProcess.Good.alone {h₀ : CHeap Γ Φ T} {progs : List (List (CResult T) → Option (CCall Γ Φ R T))} {s : CProcess Γ Φ R T}
    (hg : CProcess.Good newSpace kernel env h₀ progs s) {i : Nat} {t : CThread Γ Φ R T} {c : CCall Γ Φ R T} {seen : List (CHeap Γ Φ T)}
    {v v' : CHeap Γ Φ T} {r : Ffi (CResult T)} (thread : s.threads[i]? = some t) (current : t.current = some (c, seen))
    (view : v.ViewOf s.heap seen) (call : c.Step newSpace kernel env v v' r) :
    c.Step newSpace kernel env s.heap (s.heap.patch v v') r :=
  call.transfer (view.agrees (hg.seen i t c seen thread current))

theorem CProcess.Good.step {h₀ : CHeap Γ Φ T} {progs : List (List (CResult T) → Option (CCall Γ Φ R T))} {s s' : CProcess Γ Φ R T}
    (hg : CProcess.Good newSpace kernel env h₀ progs s) (hn : s.NoRace) (st : CProcess.Step newSpace kernel env s s') :
    CProcess.Good newSpace kernel env h₀ progs s' := by
  cases st with
  | @begins i t c running thread idle next =>
    refine ⟨hg.sound, fun j u d seen hu hc => ?_, hg.runs, hg.alive, ?_, fun j u hu => ?_, fun j u hu => ?_, fun j u d seen hu hc => ?_⟩
    · rcases threads_begun thread hu with ⟨rfl, rfl⟩ | ⟨-, hu⟩
      · cases hc
        intro g hg'
        rw [List.mem_singleton.mp hg']
        exact .refl hg.sound
      · exact hg.seen j u d seen hu hc
    · exact (progs_set thread (by rfl)).trans hg.progs
    · rcases threads_begun thread hu with ⟨rfl, rfl⟩ | ⟨-, hu⟩
      · exact hg.done j t thread
      · exact hg.done j u hu
    · rcases threads_begun thread hu with ⟨rfl, rfl⟩ | ⟨-, hu⟩
      · exact hg.follows j t thread
      · exact hg.follows j u hu
    · rcases threads_begun thread hu with ⟨rfl, rfl⟩ | ⟨-, hu⟩
      · cases hc
        exact next
      · exact hg.current j u d seen hu hc
  | @finishes i t c seen v v' r running thread current view call =>
    have st := hg.alone thread current view call
    have ef := st.does
    have ha := hn.exist i t c seen thread current
    have hs' := ef.sound hg.sound ha
    have hcur := hg.current i t c seen thread current
    refine ⟨hs', fun j u d sn hu hc => ?_, ?_, ?_, ?_, fun j u hu => ?_, fun j u hu => ?_, fun j u d sn hu hc => ?_⟩
    · rcases threads_after thread hu with ⟨rfl, rfl⟩ | ⟨hji, w, hw, rfl⟩
      · cases hc
      · obtain ⟨sn', hc', rfl⟩ := CThread.sees_current hc
        clear hc
        rename' hc' => hc
        intro g hg'
        rcases List.mem_cons.mp hg' with rfl | hg'
        · exact .refl hs'
        · exact (hg.seen j w d sn' hw hc g hg').other hg.sound (hn.exist j w d sn' hw hc)
            (hn.apart i j t w c d seen sn' (Ne.symm hji) thread hw current hc)
            (hn.apart j i w t d c sn' seen hji hw thread hc current) ef
    · simp only [List.map_append, List.map_cons, List.map_nil]
      refine hg.runs.snoc (fun x hx => ?_) st
      obtain ⟨y, hy, rfl⟩ := List.mem_map.mp hx
      exact hg.alive running y hy
    · intro he x hx
      rcases List.mem_append.mp hx with hx | hx
      · exact hg.alive running x hx
      · rw [List.mem_singleton.mp hx]
        cases r with
        | ok y => exact ⟨y, rfl⟩
        | _ => simp [Ffi.results] at he
    · rw [← hg.progs, ← progs_set (t' := { t with done := t.done ++ r.results, current := none }) thread rfl, List.map_map]
      rfl
    · rcases threads_after thread hu with ⟨rfl, rfl⟩ | ⟨hji, w, hw, rfl⟩
      · rw [logOf_self, List.flatMap_append, ← hg.done j t thread]
        simp [CThread.sees]
      · rw [logOf_other s hji]
        exact hg.done j w hw
    · rcases threads_after thread hu with ⟨rfl, rfl⟩ | ⟨hji, w, hw, rfl⟩
      · rw [logOf_self]
        exact (hg.follows j t thread).snoc (by rw [← hg.done j t thread]; exact hcur) r
      · rw [logOf_other s hji]
        exact hg.follows j w hw
    · rcases threads_after thread hu with ⟨rfl, rfl⟩ | ⟨hji, w, hw, rfl⟩
      · cases hc
      · obtain ⟨sn', hc', rfl⟩ := CThread.sees_current hc
        clear hc
        rename' hc' => hc
        exact hg.current j w d sn' hw hc

theorem CProcess.Clean.noRace {s₀ s : CProcess Γ Φ R T} (h : CProcess.Clean newSpace kernel env s₀ s) : s.NoRace := by
  cases h with
  | start h => exact h
  | step _ _ hn => exact hn

theorem CProcess.Clean.good {h₀ : CHeap Γ Φ T} {progs : List (List (CResult T) → Option (CCall Γ Φ R T))} {s : CProcess Γ Φ R T}
    (hs : h₀.Sound) (h : CProcess.Clean newSpace kernel env (CProcess.start h₀ progs) s) : CProcess.Good newSpace kernel env h₀ progs s := by
  induction h with
  | start _ => exact .start hs progs
  | step h st _ ih => exact ih.step h.noRace st

/-! ### Polite threads -/

/-- Each thread has pointers of its own, and what it made refers to these or to what was there before. -/
structure CProcess.Own (h₀ : CHeap Γ Φ T) (s : CProcess Γ Φ R T) : Prop where
  low : h₀.next ≤ s.heap.next
  handles : ∀ (i : Nat) (t : CThread Γ Φ R T), s.threads[i]? = some t → ∀ p ∈ handlesOf t.done, h₀.next ≤ p ∧ p < s.heap.next
  apart : ∀ (i j : Nat) (t u : CThread Γ Φ R T), i ≠ j → s.threads[i]? = some t → s.threads[j]? = some u →
    ∀ p ∈ handlesOf t.done, p ∉ handlesOf u.done
  old : ∀ q o, s.heap.live q = some o → q < h₀.next → ∀ p ∈ o.refs, p < h₀.next
  own : ∀ (i : Nat) (t : CThread Γ Φ R T), s.threads[i]? = some t → ∀ q ∈ handlesOf t.done, ∀ o, s.heap.live q = some o →
    ∀ p ∈ o.refs, p < h₀.next ∨ p ∈ handlesOf t.done

theorem CProcess.Own.start {h₀ : CHeap Γ Φ T} (hs : h₀.Sound) (progs : List (List (CResult T) → Option (CCall Γ Φ R T)))
    (hl : ∀ q o, h₀.live q = some o → ∀ p ∈ o.refs, p < h₀.next) : (CProcess.start h₀ progs).Own h₀ := by
  refine ⟨le_rfl, fun i t ht p hp => ?_, fun i j t u _ ht _ p hp => ?_, fun q o ho _ => hl q o ho, fun i t ht q hq => ?_⟩
  all_goals
    obtain ⟨p, -, rfl⟩ := CProcess.start_thread ht
    simp [handlesOf] at *

theorem CProcess.Good.polite {h₀ : CHeap Γ Φ T} {progs : List (List (CResult T) → Option (CCall Γ Φ R T))} {s : CProcess Γ Φ R T}
    (hg : CProcess.Good newSpace kernel env h₀ progs s) (hp : ∀ p ∈ progs, Polite h₀ p) {i : Nat} {t : CThread Γ Φ R T}
    {c : CCall Γ Φ R T} {seen : List (CHeap Γ Φ T)} (ht : s.threads[i]? = some t) (hc : t.current = some (c, seen)) :
    (∀ p ∈ c.args, p < h₀.next ∨ p ∈ handlesOf t.done) ∧ ∀ p ∈ c.changes, p ∈ handlesOf t.done := by
  refine hp t.prog ?_ t.done c (hg.current i t c seen ht hc)
  rw [← hg.progs]
  exact List.mem_map.mpr ⟨t, List.mem_of_getElem? ht, rfl⟩

theorem CProcess.Good.noRace {h₀ : CHeap Γ Φ T} {progs : List (List (CResult T) → Option (CCall Γ Φ R T))} {s : CProcess Γ Φ R T}
    (hg : CProcess.Good newSpace kernel env h₀ progs s) (ho : s.Own h₀) (hp : ∀ p ∈ progs, Polite h₀ p) : s.NoRace := by
  constructor
  · intro i t c seen ht hc p hpa
    rcases (hg.polite hp ht hc).1 p hpa with h | h
    · exact h.trans_le ho.low
    · exact (ho.handles i t ht p h).2
  · intro i j t u c d seen seen' hij ht hu hc hd p hpc hpu
    have hpi := (hg.polite hp ht hc).2 p hpc
    have hge := (ho.handles i t ht p hpi).1
    have hnot := ho.apart i j t u hij ht hu p hpi
    rcases CCall.mem_uses.mp hpu with hpu | ⟨q, hq, o, hl, hr⟩
    · rcases (hg.polite hp hu hd).1 p hpu with h | h
      · omega
      · exact hnot h
    · rcases (hg.polite hp hu hd).1 q hq with h | h
      · have := ho.old q o hl h p hr
        omega
      · rcases ho.own j u hu q h o hl p hr with h | h
        · omega
        · exact hnot h

theorem handlesOf_append (l l' : List (CResult T)) : handlesOf (l ++ l') = handlesOf l ++ handlesOf l' := by
  simp [handlesOf]

theorem handlesOf_other {r : Ffi (CResult T)} (h : ∀ q, r ≠ .ok (.handle q)) : handlesOf r.results = [] := by
  cases r with
  | ok x => cases x <;> first | rfl | exact absurd rfl (h _)
  | _ => rfl

theorem CProcess.Own.step {h₀ : CHeap Γ Φ T} {progs : List (List (CResult T) → Option (CCall Γ Φ R T))} {s s' : CProcess Γ Φ R T}
    (ho : s.Own h₀) (hg : CProcess.Good newSpace kernel env h₀ progs s) (hp : ∀ p ∈ progs, Polite h₀ p)
    (st : CProcess.Step newSpace kernel env s s') : s'.Own h₀ := by
  cases st with
  | @begins i t c running thread idle next =>
    have key : ∀ {j : Nat} {u : CThread Γ Φ R T}, (s.threads.set i { t with current := some (c, [s.heap]) })[j]? = some u →
        ∃ w, s.threads[j]? = some w ∧ w.done = u.done := by
      intro j u hu
      rcases threads_begun thread hu with ⟨rfl, rfl⟩ | ⟨-, hu⟩
      · exact ⟨t, thread, rfl⟩
      · exact ⟨u, hu, rfl⟩
    refine ⟨ho.low, fun j u hu => ?_, fun j k u w hjk hu hw => ?_, ho.old, fun j u hu => ?_⟩
    · obtain ⟨x, hx, e⟩ := key hu
      rw [← e]
      exact ho.handles j x hx
    · obtain ⟨x, hx, e⟩ := key hu
      obtain ⟨y, hy, e'⟩ := key hw
      rw [← e, ← e']
      exact ho.apart j k x y hjk hx hy
    · obtain ⟨x, hx, e⟩ := key hu
      rw [← e]
      exact ho.own j x hx
  | @finishes i t c seen v v' r running thread current view call =>
    have ef := (hg.alone thread current view call).does
    have hpol := hg.polite hp thread current
    generalize s.heap.patch v v' = h' at ef ⊢
    -- what each thread has now
    have key : ∀ {j : Nat} {u : CThread Γ Φ R T},
        ((s.threads.set i { t with done := t.done ++ r.results, current := none }).map (CThread.sees h'))[j]? = some u →
        ∃ w, s.threads[j]? = some w ∧ u.done = w.done ++ (if j = i then r.results else []) := by
      intro j u hu
      rcases threads_after thread hu with ⟨rfl, rfl⟩ | ⟨hji, w, hw, rfl⟩
      · exact ⟨t, thread, by simp [CThread.sees]⟩
      · exact ⟨w, hw, by simp [CThread.sees, hji]⟩
    cases ef with
    | keep hr =>
      have key' : ∀ {j : Nat} {u : CThread Γ Φ R T},
          ((s.threads.set i { t with done := t.done ++ r.results, current := none }).map (CThread.sees s.heap))[j]? = some u →
          ∃ w, s.threads[j]? = some w ∧ handlesOf u.done = handlesOf w.done := by
        intro j u hu
        obtain ⟨w, hw, e⟩ := key hu
        refine ⟨w, hw, ?_⟩
        rw [e, handlesOf_append]
        split
        · rw [handlesOf_other hr, List.append_nil]
        · simp [handlesOf]
      refine ⟨ho.low, fun j u hu => ?_, fun j k u w hjk hu hw => ?_, ho.old, fun j u hu => ?_⟩
      · obtain ⟨x, hx, e⟩ := key' hu
        rw [e]
        exact ho.handles j x hx
      · obtain ⟨x, hx, e⟩ := key' hu
        obtain ⟨y, hy, e'⟩ := key' hw
        rw [e, e']
        exact ho.apart j k x y hjk hx hy
      · obtain ⟨x, hx, e⟩ := key' hu
        rw [e]
        exact ho.own j x hx
    | store p o hpc hl hor =>
      have key' : ∀ {j : Nat} {u : CThread Γ Φ R T},
          ((s.threads.set i { t with done := t.done ++ (Ffi.ok CResult.nothing : Ffi (CResult T)).results, current := none }).map
            (CThread.sees (s.heap.store p o)))[j]? = some u →
          ∃ w, s.threads[j]? = some w ∧ handlesOf u.done = handlesOf w.done := by
        intro j u hu
        obtain ⟨w, hw, e⟩ := key hu
        refine ⟨w, hw, ?_⟩
        rw [e, handlesOf_append]
        split <;> simp [handlesOf, Ffi.results]
      have refs : ∀ q x, (s.heap.store p o).live q = some x → ∀ a ∈ x.refs, s.heap.live q = some x := by
        intro q x hx a ha
        simp only [CHeap.store] at hx
        split at hx
        · rw [hor x hx] at ha
          cases ha
        · exact hx
      refine ⟨ho.low, fun j u hu => ?_, fun j k u w hjk hu hw => ?_, fun q x hx hq a ha => ho.old q x (refs q x hx a ha) hq a ha,
        fun j u hu q hq x hx a ha => ?_⟩
      · obtain ⟨x, hx, e⟩ := key' hu
        rw [e]
        exact ho.handles j x hx
      · obtain ⟨x, hx, e⟩ := key' hu
        obtain ⟨y, hy, e'⟩ := key' hw
        rw [e, e']
        exact ho.apart j k x y hjk hx hy
      · obtain ⟨y, hy, e⟩ := key' hu
        rw [e] at hq ⊢
        exact ho.own j y hy q hq x (refs q x hx a ha) a ha
    | alloc o hor =>
      have key' : ∀ {j : Nat} {u : CThread Γ Φ R T},
          ((s.threads.set i { t with
            done := t.done ++ (Ffi.ok (CResult.handle s.heap.next) : Ffi (CResult T)).results, current := none }).map
            (CThread.sees (s.heap.alloc o)))[j]? = some u →
          ∃ w, s.threads[j]? = some w ∧ handlesOf u.done = handlesOf w.done ++ if j = i then [s.heap.next] else [] := by
        intro j u hu
        obtain ⟨w, hw, e⟩ := key hu
        refine ⟨w, hw, ?_⟩
        rw [e, handlesOf_append]
        split <;> simp [handlesOf, Ffi.results]
      have live : ∀ q x, (s.heap.alloc o).live q = some x → (q = s.heap.next ∧ x = o) ∨ (q ≠ s.heap.next ∧ s.heap.live q = some x) := by
        intro q x hx
        simp only [CHeap.alloc] at hx
        split at hx
        · cases hx; exact .inl ⟨by assumption, rfl⟩
        · exact .inr ⟨by assumption, hx⟩
      have nx : (s.heap.alloc o).next = s.heap.next + 1 := rfl
      have hlow := ho.low
      refine ⟨by dsimp only; omega, fun j u hu p hpu => ?_, fun j k u w hjk hu hw p hpu hpw => ?_, fun q x hx hq a ha => ?_,
        fun j u hu q hq x hx a ha => ?_⟩
      · obtain ⟨x, hx, e⟩ := key' hu
        rw [e] at hpu
        dsimp only
        rcases List.mem_append.mp hpu with h | h
        · have := ho.handles j x hx p h
          omega
        · split at h
          · rw [List.mem_singleton.mp h]
            omega
          · cases h
      · obtain ⟨x, hx, e⟩ := key' hu
        obtain ⟨y, hy, e'⟩ := key' hw
        rw [e] at hpu
        rw [e'] at hpw
        rcases List.mem_append.mp hpu with h | h <;> rcases List.mem_append.mp hpw with h' | h'
        · exact ho.apart j k x y hjk hx hy p h h'
        · split at h'
          · have := (ho.handles j x hx p h).2
            have := List.mem_singleton.mp h'
            omega
          · cases h'
        · split at h
          · have := (ho.handles k y hy p h').2
            have := List.mem_singleton.mp h
            omega
          · cases h
        · split at h
          · split at h'
            · omega
            · cases h'
          · cases h
      · rcases live q x hx with ⟨rfl, -⟩ | ⟨-, hx⟩
        · omega
        · exact ho.old q x hx hq a ha
      · obtain ⟨y, hy, e⟩ := key' hu
        rw [e] at hq ⊢
        rcases live q x hx with ⟨hqn, rfl⟩ | ⟨hqn, hx⟩
        · rcases List.mem_append.mp hq with h | h
          · have := (ho.handles j y hy q h).2
            omega
          · split at h
            · rename_i hji
              subst hji
              rw [thread] at hy
              cases hy
              rcases hpol.1 a (hor a ha) with h | h
              · exact .inl h
              · exact .inr (List.mem_append_left _ h)
            · cases h
        · rcases List.mem_append.mp hq with h | h
          · rcases ho.own j y hy q h x hx a ha with h | h
            · exact .inl h
            · exact .inr (List.mem_append_left _ h)
          · split at h
            · exact absurd (List.mem_singleton.mp h) hqn
            · cases h

theorem CProcess.Steps.polite {h₀ : CHeap Γ Φ T} {progs : List (List (CResult T) → Option (CCall Γ Φ R T))} {s : CProcess Γ Φ R T}
    (hs : h₀.Sound) (hp : ∀ p ∈ progs, Polite h₀ p) (h : CProcess.Steps newSpace kernel env (CProcess.start h₀ progs) s) :
    CProcess.Clean newSpace kernel env (CProcess.start h₀ progs) s ∧ s.Own h₀ := by
  induction h with
  | refl =>
    have ho : (CProcess.start h₀ progs).Own h₀ := .start hs progs fun q o hq => (hs q o hq).2
    exact ⟨.start ((CProcess.Good.start (newSpace := newSpace) (kernel := kernel) (env := env) hs progs).noRace ho hp), ho⟩
  | tail _ st ih =>
    have hg := ih.1.good hs
    have ho' := ih.2.step hg hp st
    exact ⟨.step ih.1 st ((hg.step ih.1.noRace st).noRace ho' hp), ho'⟩

end
end Bempp
