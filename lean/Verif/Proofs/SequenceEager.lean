import Verif.Proofs.Sequence
import Mathlib.Logic.Relation
/-
Message passing with limited buffers: executions can be put together again, whatever the programs, and an execution of programs
that are run one after the other is made of one execution of each.
-/
namespace Bempp

variable {α β γ : Type} {n L : Nat}

/-! ### The order of the steps does not matter -/

namespace Config

theorem eager_send {c c' : Config α} {r d : Nat} {m : Msg} {k : Prog α} (hr : r < n) (hm : m.length ≤ L)
    (h : c.prog r = .send d m k) (hp : ∀ q, c'.prog q = if q = r then k else c.prog q)
    (hc : ∀ s e, c'.chan s e = if s = r ∧ e = d then c.chan r d ++ [m] else c.chan s e) : EagerStep n L c c' := by
  have : c' = ⟨c.setProg r k, c.setChan r d (c.chan r d ++ [m])⟩ := by
    cases c'
    simp only [mk.injEq]
    exact ⟨funext hp, funext fun s => funext fun e => hc s e⟩
  rw [this]
  exact .send c r d m k hr hm h

theorem eager_recv {c c' : Config α} {r s : Nat} {m : Msg} {rest : List Msg} {k : Msg → Prog α} (hr : r < n)
    (h : c.prog r = .recv s k) (hch : c.chan s r = m :: rest) (hp : ∀ q, c'.prog q = if q = r then k m else c.prog q)
    (hc : ∀ a e, c'.chan a e = if a = s ∧ e = r then rest else c.chan a e) : EagerStep n L c c' := by
  have : c' = ⟨c.setProg r (k m), c.setChan s r rest⟩ := by
    cases c'
    simp only [mk.injEq]
    exact ⟨funext hp, funext fun s => funext fun e => hc s e⟩
  rw [this]
  exact .recv c r s m rest k hr h hch

theorem eager_meet {c c' : Config α} {r d : Nat} {m : Msg} {k : Prog α} {k' : Msg → Prog α} (hr : r < n) (hd : d < n)
    (hne : r ≠ d) (hm : L < m.length) (hch : c.chan r d = []) (h : c.prog r = .send d m k) (h' : c.prog d = .recv r k')
    (hp : ∀ q, c'.prog q = if q = r then k else if q = d then k' m else c.prog q)
    (hc : ∀ a e, c'.chan a e = c.chan a e) : EagerStep n L c c' := by
  have : c' = ⟨fun q => if q = r then k else if q = d then k' m else c.prog q, c.chan⟩ := by
    cases c'
    simp only [mk.injEq]
    exact ⟨funext hp, funext fun s => funext fun e => hc s e⟩
  rw [this]
  exact .meet c r d m k k' hr hd hne hm hch h h'

/-- Two steps that are possible can be done in any order. -/
theorem eager_diamond {c c1 c2 : Config α} (h1 : EagerStep n L c c1) (h2 : EagerStep n L c c2) :
    c1 = c2 ∨ ∃ c3, EagerStep n L c1 c3 ∧ EagerStep n L c2 c3 := by
  -- the pairs in one order; the others follow by symmetry
  have sendRecv : ∀ {r d m k r' s' m' rest' k'}, r < n → m.length ≤ L → c.prog r = .send d m k → r' < n →
      c.prog r' = .recv s' k' → c.chan s' r' = m' :: rest' →
      ∃ c3, EagerStep n L ⟨c.setProg r k, c.setChan r d (c.chan r d ++ [m])⟩ c3 ∧
        EagerStep n L ⟨c.setProg r' (k' m'), c.setChan s' r' rest'⟩ c3 := by
    intro r d m k r' s' m' rest' k' hr hm h hr' h' hc'
    have hne : r ≠ r' := fun e => by subst e; rw [h] at h'; cases h'
    refine ⟨⟨fun q => if q = r then k else if q = r' then k' m' else c.prog q,
      fun a e => if a = r ∧ e = d then (if a = s' ∧ e = r' then rest' else c.chan a e) ++ [m] else
        if a = s' ∧ e = r' then rest' else c.chan a e⟩, ?_, ?_⟩
    · by_cases hs : s' = r ∧ r' = d
      · obtain ⟨rfl, rfl⟩ := hs
        refine eager_recv (r := r') (s := s') (m := m') (rest := rest' ++ [m]) (k := k') hr' ?_ ?_ ?_ ?_
        · simp [setProg, Ne.symm hne, h']
        · simp [setChan, hc']
        · intro q
          simp only [setProg]
          by_cases hq : q = r'
          · subst hq; simp [Ne.symm hne]
          · simp [hq]
        · intro a e
          simp only [setChan]
          by_cases hq : a = s' ∧ e = r' <;> simp [hq]
      · refine eager_recv (r := r') (s := s') (m := m') (rest := rest') (k := k') hr' ?_ ?_ ?_ ?_
        · simp [setProg, Ne.symm hne, h']
        · simp [setChan, hs, hc']
        · intro q
          simp only [setProg]
          by_cases hq : q = r'
          · subst hq; simp [Ne.symm hne]
          · simp [hq]
        · intro a e
          simp only [setChan]
          by_cases hq : a = r ∧ e = d
          · obtain ⟨rfl, rfl⟩ := hq
            have : ¬ (a = s' ∧ e = r') := fun x => hs ⟨x.1.symm, x.2.symm⟩
            simp [this]
          · simp [hq]
    · refine eager_send (r := r) (d := d) (m := m) (k := k) hr hm ?_ ?_ ?_
      · simp [setProg, hne, h]
      · intro q; rfl
      · intro a e
        simp only [setChan]
        by_cases hq : a = r ∧ e = d
        · obtain ⟨rfl, rfl⟩ := hq; simp
        · simp [hq]
  have sendMeet : ∀ {r d m k r' d' m' k' k''}, r < n → m.length ≤ L → c.prog r = .send d m k → r' < n → d' < n → r' ≠ d' →
      L < m'.length → c.chan r' d' = [] → c.prog r' = .send d' m' k' → c.prog d' = .recv r' k'' →
      (∃ c3, EagerStep n L ⟨c.setProg r k, c.setChan r d (c.chan r d ++ [m])⟩ c3 ∧
        EagerStep n L ⟨fun q => if q = r' then k' else if q = d' then k'' m' else c.prog q, c.chan⟩ c3) := by
    intro r d m k r' d' m' k' k'' hr hm h hr' hd' hne' hm' hc' h1 h2
    have hne : r ≠ r' := by
      rintro rfl
      rw [h] at h1
      cases h1
      omega
    have hne2 : r ≠ d' := fun e => by subst e; rw [h] at h2; cases h2
    refine ⟨⟨fun q => if q = r then k else if q = r' then k' else if q = d' then k'' m' else c.prog q,
      c.setChan r d (c.chan r d ++ [m])⟩, ?_, ?_⟩
    · refine eager_meet (r := r') (d := d') (m := m') (k := k') (k' := k'') hr' hd' hne' hm' ?_ ?_ ?_ ?_ fun _ _ => rfl
      · simp only [setChan]
        rw [if_neg fun x => hne x.1.symm, hc']
      · simp [setProg, Ne.symm hne, h1]
      · simp [setProg, Ne.symm hne2, h2]
      · intro q
        simp only [setProg]
        by_cases e1 : q = r'
        · subst e1; simp [Ne.symm hne]
        · by_cases e2 : q = d'
          · subst e2; simp [e1, Ne.symm hne2]
          · simp [e1, e2]
    · refine eager_send (r := r) (d := d) (m := m) (k := k) hr hm ?_ (fun _ => rfl) fun _ _ => rfl
      simp [hne, hne2, h]
  have recvMeet : ∀ {r s m rest k r' d' m' k' k''}, r < n → c.prog r = .recv s k → c.chan s r = m :: rest → r' < n → d' < n →
      r' ≠ d' → L < m'.length → c.chan r' d' = [] → c.prog r' = .send d' m' k' → c.prog d' = .recv r' k'' →
      (∃ c3, EagerStep n L ⟨c.setProg r (k m), c.setChan s r rest⟩ c3 ∧
        EagerStep n L ⟨fun q => if q = r' then k' else if q = d' then k'' m' else c.prog q, c.chan⟩ c3) := by
    intro r s m rest k r' d' m' k' k'' hr h hc hr' hd' hne' hm' hc' h1 h2
    have hne : r ≠ r' := fun e => by subst e; rw [h] at h1; cases h1
    have hne2 : r ≠ d' := by
      rintro rfl
      rw [h] at h2
      cases h2
      rw [hc] at hc'
      cases hc'
    refine ⟨⟨fun q => if q = r then k m else if q = r' then k' else if q = d' then k'' m' else c.prog q,
      c.setChan s r rest⟩, ?_, ?_⟩
    · refine eager_meet (r := r') (d := d') (m := m') (k := k') (k' := k'') hr' hd' hne' hm' ?_ ?_ ?_ ?_ fun _ _ => rfl
      · simp only [setChan]
        rw [if_neg fun x => hne2 x.2.symm, hc']
      · simp [setProg, Ne.symm hne, h1]
      · simp [setProg, Ne.symm hne2, h2]
      · intro q
        simp only [setProg]
        by_cases e1 : q = r'
        · subst e1; simp [Ne.symm hne]
        · by_cases e2 : q = d'
          · subst e2; simp [e1, Ne.symm hne2]
          · simp [e1, e2]
    · refine eager_recv (r := r) (s := s) (m := m) (rest := rest) (k := k) hr ?_ hc (fun _ => rfl) fun _ _ => rfl
      simp [hne, hne2, h]
  cases h1 with
  | send r d m k hr hm h =>
    cases h2 with
    | send r' d' m' k' hr' hm' h' =>
      by_cases e : r = r'
      · subst e
        rw [h] at h'
        cases h'
        exact Or.inl rfl
      · right
        refine ⟨⟨fun q => if q = r then k else if q = r' then k' else c.prog q,
          fun a x => if a = r ∧ x = d then c.chan r d ++ [m] else if a = r' ∧ x = d' then c.chan r' d' ++ [m'] else c.chan a x⟩,
          ?_, ?_⟩
        · refine eager_send (r := r') (d := d') (m := m') (k := k') hr' hm' ?_ ?_ ?_
          · simp [setProg, Ne.symm e, h']
          · intro q
            simp only [setProg]
            by_cases hq : q = r'
            · subst hq; simp [Ne.symm e]
            · simp [hq]
          · intro a x
            simp only [setChan]
            by_cases hq : a = r' ∧ x = d'
            · obtain ⟨rfl, rfl⟩ := hq
              simp [Ne.symm e]
            · simp [hq]
        · refine eager_send (r := r) (d := d) (m := m) (k := k) hr hm ?_ ?_ ?_
          · simp [setProg, e, h]
          · intro q; rfl
          · intro a x
            simp only [setChan]
            by_cases hq : a = r ∧ x = d
            · obtain ⟨rfl, rfl⟩ := hq
              simp [e]
            · simp [hq]
    | recv r' s' m' rest' k' hr' h' hc' => exact Or.inr (sendRecv hr hm h hr' h' hc')
    | meet r' d' m' k' k'' hr' hd' hne' hm' hc' h' h'' => exact Or.inr (sendMeet hr hm h hr' hd' hne' hm' hc' h' h'')
  | recv r s m rest k hr h hc =>
    cases h2 with
    | send r' d' m' k' hr' hm' h' =>
      obtain ⟨c3, x, y⟩ := sendRecv hr' hm' h' hr h hc
      exact Or.inr ⟨c3, y, x⟩
    | recv r' s' m' rest' k' hr' h' hc' =>
      by_cases e : r = r'
      · subst e
        rw [h] at h'
        cases h'
        rw [hc] at hc'
        cases hc'
        exact Or.inl rfl
      · right
        refine ⟨⟨fun q => if q = r then k m else if q = r' then k' m' else c.prog q,
          fun a x => if a = s ∧ x = r then rest else if a = s' ∧ x = r' then rest' else c.chan a x⟩, ?_, ?_⟩
        · refine eager_recv (r := r') (s := s') (m := m') (rest := rest') (k := k') hr' ?_ ?_ ?_ ?_
          · simp [setProg, Ne.symm e, h']
          · simp only [setChan]
            rw [if_neg fun x => e x.2.symm, hc']
          · intro q
            simp only [setProg]
            by_cases hq : q = r'
            · subst hq; simp [Ne.symm e]
            · simp [hq]
          · intro a x
            simp only [setChan]
            by_cases hq : a = s' ∧ x = r'
            · obtain ⟨rfl, rfl⟩ := hq
              simp [Ne.symm e]
            · simp [hq]
        · refine eager_recv (r := r) (s := s) (m := m) (rest := rest) (k := k) hr ?_ ?_ ?_ ?_
          · simp [setProg, e, h]
          · simp only [setChan]
            rw [if_neg fun x => e x.2, hc]
          · intro q; rfl
          · intro a x
            simp only [setChan]
    | meet r' d' m' k' k'' hr' hd' hne' hm' hc' h' h'' => exact Or.inr (recvMeet hr h hc hr' hd' hne' hm' hc' h' h'')
  | meet r d m k kk hr hd hne hm hc h hh =>
    cases h2 with
    | send r' d' m' k' hr' hm' h' =>
      obtain ⟨c3, x, y⟩ := sendMeet hr' hm' h' hr hd hne hm hc h hh
      exact Or.inr ⟨c3, y, x⟩
    | recv r' s' m' rest' k' hr' h' hc' =>
      obtain ⟨c3, x, y⟩ := recvMeet hr' h' hc' hr hd hne hm hc h hh
      exact Or.inr ⟨c3, y, x⟩
    | meet r' d' m' k' k'' hr' hd' hne' hm' hc' h' h'' =>
      by_cases e : r = r'
      · subst e
        rw [h] at h'
        cases h'
        rw [hh] at h''
        cases h''
        exact Or.inl rfl
      · right
        have e1 : r ≠ d' := fun x => by subst x; rw [h] at h''; cases h''
        have e2 : r' ≠ d := fun x => by subst x; rw [hh] at h'; cases h'
        have e3 : d ≠ d' := fun x => by
          subst x
          rw [hh] at h''
          cases h''
          exact e rfl
        refine ⟨⟨fun q => if q = r then k else if q = d then kk m else if q = r' then k' else if q = d' then k'' m' else c.prog q,
          c.chan⟩, ?_, ?_⟩
        · refine eager_meet (r := r') (d := d') (m := m') (k := k') (k' := k'') hr' hd' hne' hm' hc' ?_ ?_ ?_ fun _ _ => rfl
          · simp [Ne.symm e, e2, h']
          · simp [Ne.symm e1, Ne.symm e3, h'']
          · intro q
            by_cases x1 : q = r'
            · subst x1; simp [Ne.symm e, e2]
            · by_cases x2 : q = d'
              · subst x2; simp [Ne.symm e1, Ne.symm e3, Ne.symm hne']
              · simp [x1, x2]
        · refine eager_meet (r := r) (d := d) (m := m) (k := k) (k' := kk) hr hd hne hm hc ?_ ?_ ?_ fun _ _ => rfl
          · simp [e, e1, h]
          · simp [Ne.symm e2, e3, hh]
          · intro q; rfl

theorem reach_trans_gen {S : Config α → Config α → Prop} {c c' : Config α} :
    (∃ k, Reach S k c c') ↔ Relation.ReflTransGen S c c' := by
  constructor
  · rintro ⟨k, h⟩
    induction h with
    | refl => exact .refl
    | tail _ hs ih => exact ih.tail hs
  · intro h
    induction h with
    | refl => exact ⟨0, .refl _⟩
    | tail _ hs ih =>
      obtain ⟨k, hk⟩ := ih
      exact ⟨k + 1, .tail hk hs⟩

/-- Every execution can be continued to the one that cannot go on, if there is one. -/
theorem eager_confluent {c0 c c' : Config α} {k k' : Nat} (h : Reach (EagerStep n L) k c0 c) (h' : Reach (EagerStep n L) k' c0 c')
    (hs : ¬ ∃ x, EagerStep n L c' x) : ∃ j, Reach (EagerStep n L) j c c' := by
  obtain ⟨d, h1, h2⟩ := Relation.church_rosser (r := EagerStep n L)
    (fun a b c hb hc => by
      rcases eager_diamond hb hc with rfl | ⟨d, h1, h2⟩
      · exact ⟨b, .refl, .refl⟩
      · exact ⟨d, .single h1, .single h2⟩)
    (reach_trans_gen.mp ⟨k, h⟩) (reach_trans_gen.mp ⟨k', h'⟩)
  rcases Relation.ReflTransGen.cases_head h2 with rfl | ⟨x, hx, -⟩
  · exact reach_trans_gen.mpr h1
  · exact absurd ⟨x, hx⟩ hs

/-- A process that has returned stays as it is. -/
theorem eager_done {c c' : Config α} {k r : Nat} {x : α} (h : Reach (EagerStep n L) k c c') (hd : c.prog r = .done x) :
    c'.prog r = .done x := by
  induction h with
  | refl => exact hd
  | tail _ hs ih =>
    have ih := ih hd
    cases hs with
    | send q d m k hq hm hp =>
      simp only [setProg]
      rw [if_neg (fun e => by subst e; rw [ih] at hp; cases hp), ih]
    | recv q s m rest k hq hp hc =>
      simp only [setProg]
      rw [if_neg (fun e => by subst e; rw [ih] at hp; cases hp), ih]
    | meet q d m k k' hq hd hne hm hc hp hp' =>
      simp only
      rw [if_neg (fun e => by subst e; rw [ih] at hp; cases hp), if_neg (fun e => by subst e; rw [ih] at hp'; cases hp'), ih]

end Config

/-! ### Programs that are run one after the other -/

theorem bind_send {p : Prog α} {f : α → Prog β} {d : Nat} {m : Msg} {k : Prog β} (h : p.bind f = .send d m k) :
    (∃ x, p = .done x ∧ f x = .send d m k) ∨ ∃ k', p = .send d m k' ∧ k = k'.bind f := by
  cases p with
  | done x => exact Or.inl ⟨x, rfl, h⟩
  | panic => cases h
  | send d' m' k' => cases h; exact Or.inr ⟨k', rfl, rfl⟩
  | recv s k' => cases h

theorem bind_recv {p : Prog α} {f : α → Prog β} {s : Nat} {k : Msg → Prog β} (h : p.bind f = .recv s k) :
    (∃ x, p = .done x ∧ f x = .recv s k) ∨ ∃ k', p = .recv s k' ∧ k = fun m => (k' m).bind f := by
  cases p with
  | done x => exact Or.inl ⟨x, rfl, h⟩
  | panic => cases h
  | send d' m' k' => cases h
  | recv s k' => cases h; exact Or.inr ⟨k', rfl, rfl⟩

theorem bind_done {p : Prog α} {f : α → Prog β} {y : β} (h : p.bind f = .done y) : ∃ x, p = .done x ∧ f x = .done y := by
  cases p with
  | done x => exact ⟨x, rfl, h⟩
  | panic => cases h
  | send d' m' k' => cases h
  | recv s k' => cases h

theorem bind_panic {p : Prog α} {f : α → Prog β} (h : p.bind f = .panic) : p = .panic ∨ ∃ x, p = .done x ∧ f x = .panic := by
  cases p with
  | done x => exact Or.inr ⟨x, rfl, h⟩
  | panic => exact Or.inl rfl
  | send d' m' k' => cases h
  | recv s k' => cases h

/-- The first program, then the second one, then the results together. -/
def both (g : α → β → γ) (p : Prog α) (q : Prog β) : Prog γ := p.bind fun x => q.bind fun y => .done (g x y)

theorem both_send {g : α → β → γ} {p : Prog α} {q : Prog β} {d : Nat} {m : Msg} {k : Prog γ} (h : both g p q = .send d m k) :
    (∃ x k', p = .done x ∧ q = .send d m k' ∧ k = both g p k') ∨ ∃ k', p = .send d m k' ∧ k = both g k' q := by
  rcases bind_send h with ⟨x, rfl, h1⟩ | h
  · rcases bind_send h1 with ⟨y, _, h⟩ | ⟨k', rfl, rfl⟩
    · cases h
    · exact Or.inl ⟨x, k', rfl, rfl, rfl⟩
  · exact Or.inr h

theorem both_recv {g : α → β → γ} {p : Prog α} {q : Prog β} {s : Nat} {k : Msg → Prog γ} (h : both g p q = .recv s k) :
    (∃ x k', p = .done x ∧ q = .recv s k' ∧ k = fun m => both g p (k' m)) ∨ ∃ k', p = .recv s k' ∧ k = fun m => both g (k' m) q := by
  rcases bind_recv h with ⟨x, rfl, h1⟩ | h
  · rcases bind_recv h1 with ⟨y, _, h⟩ | ⟨k', rfl, rfl⟩
    · cases h
    · exact Or.inl ⟨x, k', rfl, rfl, rfl⟩
  · exact Or.inr h

theorem both_done {g : α → β → γ} {p : Prog α} {q : Prog β} {z : γ} (h : both g p q = .done z) :
    ∃ x y, p = .done x ∧ q = .done y ∧ z = g x y := by
  obtain ⟨x, rfl, h1⟩ := bind_done h
  obtain ⟨y, rfl, h2⟩ := bind_done h1
  cases h2
  exact ⟨x, y, rfl, rfl, rfl⟩

theorem both_panic {g : α → β → γ} {p : Prog α} {q : Prog β} (h : both g p q = .panic) : p = .panic ∨ q = .panic := by
  rcases bind_panic h with rfl | ⟨x, rfl, h1⟩
  · exact Or.inl rfl
  · rcases bind_panic h1 with rfl | ⟨y, rfl, h2⟩
    · exact Or.inr rfl
    · cases h2

/-- What is known about executions of programs that send each other as many messages as they receive. -/
structure Tidy (n : Nat) (a : Config α) : Prop where
  recv : ∀ s d, s < n → d < n → ∀ x k, a.prog s = .done x → a.prog d = .recv s k → a.chan s d ≠ []
  empty : ∀ s d, s < n → d < n → ∀ x, a.prog d = .done x → a.chan s d = []
  send : ∀ s d, s < n → d < n → ∀ x m k, a.prog d = .done x → a.prog s ≠ .send d m k

theorem NetInv.tidy {T : Nat → Trace} {res : Nat → α} {c : Config α} {pre suf : Nat → Trace} (hM : Matching n T)
    (inv : NetInv n T res c pre suf) : Tidy n c := by
  have key : ∀ s d, s < n → d < n →
      c.chan s d ++ (sendsTo d (suf s)).map Prod.fst = (recvsFrom s (suf d)).map Prod.fst := by
    intro s d hs hd
    have h1 := inv.chan s d hs hd
    have h2 := forall2_map_fst (hM.chan s d hs hd)
    rw [inv.split s hs, inv.split d hd, sendsTo_append, recvsFrom_append, List.map_append, List.map_append, h1,
      List.append_assoc] at h2
    exact List.append_cancel_left h2
  have nil : ∀ r, r < n → ∀ x, c.prog r = .done x → suf r = [] := by
    intro r hr x h
    have := inv.runs r hr
    rw [h] at this
    generalize suf r = t at this
    cases this; rfl
  refine ⟨?_, ?_, ?_⟩
  · intro s d hs hd x k h h' he
    have h1 := key s d hs hd
    rw [nil s hs x h, he] at h1
    have h2 := inv.runs d hd
    rw [h'] at h2
    generalize suf d = t at h1 h2
    cases h2
    simp [sendsTo, recvsFrom] at h1
  · intro s d hs hd x h
    have h1 := key s d hs hd
    rw [nil d hd x h] at h1
    exact (List.append_eq_nil_iff.mp (h1.trans (by simp [recvsFrom]))).1
  · intro s d hs hd x m k h h'
    have h1 := key s d hs hd
    rw [nil d hd x h] at h1
    have h3 := (List.append_eq_nil_iff.mp (h1.trans (by simp [recvsFrom]))).2
    have h2 := inv.runs s hs
    rw [h'] at h2
    generalize suf s = t at h2 h3
    cases h2
    simp [sendsTo] at h3

/-- `c` is an execution of the programs of `a0` followed by those of `b0`, made of the executions `a` and `b`. -/
structure Sim (n : Nat) (b0 : Config β) (g : α → β → γ) (a : Config α) (b : Config β) (c : Config γ) : Prop where
  prog : ∀ r, c.prog r = both g (a.prog r) (b.prog r)
  chan : ∀ s d, c.chan s d = a.chan s d ++ b.chan s d
  late : ∀ r, (∀ x, a.prog r ≠ .done x) → b.prog r = b0.prog r ∧ ∀ d, b.chan r d = []
  out : ∀ s d, n ≤ s → c.chan s d = []

theorem Sim.init {b0 : Config β} (hb : ∀ s d, b0.chan s d = []) {g : α → β → γ} {a0 : Config α} {c0 : Config γ}
    (ha : ∀ s d, a0.chan s d = []) (hc : ∀ s d, c0.chan s d = []) (h : ∀ r, c0.prog r = both g (a0.prog r) (b0.prog r)) :
    Sim n b0 g a0 b0 c0 :=
  ⟨h, fun s d => by rw [hc, ha, hb]; rfl, fun r _ => ⟨rfl, fun d => hb r d⟩, fun s d _ => hc s d⟩

open Config in
/-- Every step is one of the two executions. -/
theorem Sim.step {b0 : Config β} {g : α → β → γ} {a : Config α} {b : Config β} {c c' : Config γ} (h : Sim n b0 g a b c)
    (ta : Tidy n a) (hs : EagerStep n L c c') :
    (∃ a', EagerStep n L a a' ∧ Sim n b0 g a' b c') ∨ ∃ b', EagerStep n L b b' ∧ Sim n b0 g a b' c' := by
  cases hs with
  | send r d m k hr hm hp =>
    rw [h.prog] at hp
    rcases both_send hp with ⟨x, k', hx, hk, rfl⟩ | ⟨k', hk, rfl⟩
    · right
      refine ⟨_, .send b r d m k' hr hm hk, ?_, ?_, ?_, ?_⟩
      · intro q
        simp only [setProg]
        by_cases hq : q = r
        · subst hq; simp
        · simp [hq, h.prog]
      · intro s e
        simp only [setChan]
        by_cases hq : s = r ∧ e = d
        · obtain ⟨rfl, rfl⟩ := hq; simp [h.chan]
        · simp [hq, h.chan]
      · intro q hq
        have : q ≠ r := fun e => by subst e; exact hq x hx
        obtain ⟨h1, h2⟩ := h.late q hq
        exact ⟨by simp [setProg, this, h1], fun e => by simp [setChan, this, h2]⟩
      · intro s e hse
        simp only [setChan]
        rw [if_neg (by omega), h.out s e hse]
    · left
      refine ⟨_, .send a r d m k' hr hm hk, ?_, ?_, ?_, ?_⟩
      · intro q
        simp only [setProg]
        by_cases hq : q = r
        · subst hq; simp
        · simp [hq, h.prog]
      · intro s e
        simp only [setChan]
        by_cases hq : s = r ∧ e = d
        · obtain ⟨rfl, rfl⟩ := hq
          have := (h.late s (fun x hx => by rw [hk] at hx; cases hx)).2 e
          simp [h.chan, this]
        · simp [hq, h.chan]
      · intro q hq
        by_cases e : q = r
        · subst e
          exact h.late q fun x hx => by rw [hk] at hx; cases hx
        · exact h.late q fun x hx => hq x (by simp [setProg, e, hx])
      · intro s e hse
        simp only [setChan]
        rw [if_neg (by omega), h.out s e hse]
  | recv r s m rest k hr hp hc =>
    have hsn : s < n := by
      by_contra hge
      rw [h.out s r (by omega)] at hc
      cases hc
    rw [h.prog] at hp
    rw [h.chan] at hc
    rcases both_recv hp with ⟨x, k', hx, hk, rfl⟩ | ⟨k', hk, rfl⟩
    · right
      rw [ta.empty s r hsn hr x hx, List.nil_append] at hc
      refine ⟨_, .recv b r s m rest k' hr hk hc, ?_, ?_, ?_, ?_⟩
      · intro q
        simp only [setProg]
        by_cases hq : q = r
        · subst hq; simp
        · simp [hq, h.prog]
      · intro s' e
        simp only [setChan]
        by_cases hq : s' = s ∧ e = r
        · obtain ⟨rfl, rfl⟩ := hq; simp [ta.empty s' e hsn hr x hx]
        · simp [hq, h.chan]
      · intro q hq
        have : q ≠ r := fun e => by subst e; exact hq x hx
        obtain ⟨h1, h2⟩ := h.late q hq
        refine ⟨by simp [setProg, this, h1], fun e => ?_⟩
        simp only [setChan]
        by_cases hq' : q = s ∧ e = r
        · obtain ⟨rfl, rfl⟩ := hq'
          rw [h2] at hc
          cases hc
        · simp [hq', h2]
      · intro s' e hse
        simp only [setChan]
        rw [if_neg (by omega), h.out s' e hse]
    · left
      have hne : a.chan s r ≠ [] := by
        by_cases hd : ∃ x, a.prog s = .done x
        · obtain ⟨x, hx⟩ := hd
          exact ta.recv s r hsn hr x k' hx hk
        · intro he
          rw [he, (h.late s fun x hx => hd ⟨x, hx⟩).2] at hc
          cases hc
      obtain ⟨m', rest', he⟩ : ∃ m' rest', a.chan s r = m' :: rest' := by
        cases hcc : a.chan s r with
        | nil => exact absurd hcc hne
        | cons m' rest' => exact ⟨m', rest', rfl⟩
      rw [he] at hc
      simp only [List.cons_append, List.cons.injEq] at hc
      obtain ⟨rfl, rfl⟩ := hc
      refine ⟨_, .recv a r s m' rest' k' hr hk he, ?_, ?_, ?_, ?_⟩
      · intro q
        simp only [setProg]
        by_cases hq : q = r
        · subst hq; simp
        · simp [hq, h.prog]
      · intro s' e
        simp only [setChan]
        by_cases hq : s' = s ∧ e = r
        · obtain ⟨rfl, rfl⟩ := hq; simp
        · simp [hq, h.chan]
      · intro q hq
        by_cases e : q = r
        · subst e
          exact h.late q fun x hx => by rw [hk] at hx; cases hx
        · exact h.late q fun x hx => hq x (by simp [setProg, e, hx])
      · intro s' e hse
        simp only [setChan]
        rw [if_neg (by omega), h.out s' e hse]
  | meet r d m k kk hr hd hne hm hc hp hp' =>
    rw [h.prog] at hp hp'
    rw [h.chan, List.append_eq_nil_iff] at hc
    rcases both_send hp with ⟨x, k', hx, hk, rfl⟩ | ⟨k', hk, rfl⟩
    · rcases both_recv hp' with ⟨x', kk', hx', hkk, rfl⟩ | ⟨kk', hkk, rfl⟩
      · right
        refine ⟨_, .meet b r d m k' kk' hr hd hne hm hc.2 hk hkk, ?_, ?_, ?_, ?_⟩
        · intro q
          by_cases hq : q = r
          · subst hq; simp
          · by_cases hq' : q = d
            · subst hq'; simp [hq]
            · simp [hq, hq', h.prog]
        · exact h.chan
        · intro q hq
          have e1 : q ≠ r := fun e => by subst e; exact hq x hx
          have e2 : q ≠ d := fun e => by subst e; exact hq x' hx'
          simpa [e1, e2] using h.late q hq
        · exact h.out
      · exact absurd hc.1 (ta.recv r d hr hd x kk' hx hkk)
    · rcases both_recv hp' with ⟨x', kk', hx', hkk, rfl⟩ | ⟨kk', hkk, rfl⟩
      · exact absurd hk (ta.send r d hr hd x' m k' hx')
      · left
        refine ⟨_, .meet a r d m k' kk' hr hd hne hm hc.1 hk hkk, ?_, ?_, ?_, ?_⟩
        · intro q
          by_cases hq : q = r
          · subst hq; simp
          · by_cases hq' : q = d
            · subst hq'; simp [hq]
            · simp [hq, hq', h.prog]
        · exact h.chan
        · intro q hq
          by_cases e1 : q = r
          · subst e1
            exact h.late q fun x hx => by rw [hk] at hx; cases hx
          · by_cases e2 : q = d
            · subst e2
              exact h.late q fun x hx => by rw [hkk] at hx; cases hx
            · exact h.late q fun x hx => hq x (by simp [e1, e2, hx])
        · exact h.out

open Config in
/-- If the first execution can go on, so can the whole. -/
theorem Sim.go_first {b0 : Config β} {g : α → β → γ} {a a' : Config α} {b : Config β} {c : Config γ} (h : Sim n b0 g a b c)
    (hs : EagerStep n L a a') : ∃ c', EagerStep n L c c' := by
  cases hs with
  | send r d m k hr hm hp => exact ⟨_, .send c r d m _ hr hm (by rw [h.prog, hp]; rfl)⟩
  | recv r s m rest k hr hp hc =>
    exact ⟨_, .recv c r s m (rest ++ b.chan s r) _ hr (by rw [h.prog, hp]; rfl) (by rw [h.chan, hc]; rfl)⟩
  | meet r d m k kk hr hd hne hm hc hp hp' =>
    refine ⟨_, .meet c r d m _ _ hr hd hne hm ?_ (by rw [h.prog, hp]; rfl) (by rw [h.prog, hp']; rfl)⟩
    rw [h.chan, hc, (h.late r fun x hx => by rw [hp] at hx; cases hx).2]
    rfl

open Config in
/-- If all processes have returned from the first part and the second one can go on, so can the whole. -/
theorem Sim.go_second {b0 : Config β} {g : α → β → γ} {a : Config α} {b b' : Config β} {c : Config γ} (h : Sim n b0 g a b c)
    (ta : Tidy n a) (hd : ∀ r, r < n → ∃ x, a.prog r = .done x) (hs : EagerStep n L b b') : ∃ c', EagerStep n L c c' := by
  have nil : ∀ s d, d < n → c.chan s d = b.chan s d := by
    intro s d hdn
    by_cases hs : s < n
    · obtain ⟨x, hx⟩ := hd d hdn
      rw [h.chan, ta.empty s d hs hdn x hx]
      rfl
    · have h1 := h.out s d (by omega)
      rw [h1]
      rw [h.chan, List.append_eq_nil_iff] at h1
      exact h1.2.symm
  cases hs with
  | send r d m k hr hm hp =>
    obtain ⟨x, hx⟩ := hd r hr
    exact ⟨_, .send c r d m _ hr hm (by rw [h.prog, hx, hp]; rfl)⟩
  | recv r s m rest k hr hp hc =>
    obtain ⟨x, hx⟩ := hd r hr
    exact ⟨_, .recv c r s m rest _ hr (by rw [h.prog, hx, hp]; rfl) (by rw [nil s r hr, hc])⟩
  | meet r d m k kk hr hdn hne hm hc hp hp' =>
    obtain ⟨x, hx⟩ := hd r hr
    obtain ⟨y, hy⟩ := hd d hdn
    exact ⟨_, .meet c r d m _ _ hr hdn hne hm (by rw [nil r d hdn, hc]) (by rw [h.prog, hx, hp]; rfl)
      (by rw [h.prog, hy, hp']; rfl)⟩

open Config in
/-- An execution of programs that are run one after the other is made of one execution of each. -/
theorem Sim.reach {a0 : Config α} {b0 : Config β} {c0 c : Config γ} {g : α → β → γ} {k : Nat} (h0 : Sim n b0 g a0 b0 c0)
    (ta : ∀ k a, Reach (EagerStep n L) k a0 a → Tidy n a) (h : Reach (EagerStep n L) k c0 c) :
    ∃ i j a b, k = i + j ∧ Reach (EagerStep n L) i a0 a ∧ Reach (EagerStep n L) j b0 b ∧ Sim n b0 g a b c := by
  induction h with
  | refl => exact ⟨0, 0, a0, b0, rfl, .refl _, .refl _, h0⟩
  | tail _ hs ih =>
    obtain ⟨i, j, a, b, rfl, ha, hb, hsim⟩ := ih h0
    rcases hsim.step (ta i a ha) hs with ⟨a', h1, h2⟩ | ⟨b', h1, h2⟩
    · exact ⟨i + 1, j, a', b, by omega, .tail ha h1, hb, h2⟩
    · exact ⟨i, j + 1, a, b', by omega, ha, .tail hb h1, h2⟩

/-! ### Processes that have made a step -/

/-- `p` is what remains of `q` after one action. -/
inductive Prog.Next : Prog α → Prog α → Prop
  | send (d : Nat) (m : Msg) (k : Prog α) : Next k (.send d m k)
  | recv (s : Nat) (k : Msg → Prog α) (m : Msg) : Next (k m) (.recv s k)

theorem Prog.next_wf : WellFounded (Prog.Next (α := α)) := by
  refine ⟨fun p => ?_⟩
  induction p with
  | done a => exact ⟨_, fun q h => by cases h⟩
  | panic => exact ⟨_, fun q h => by cases h⟩
  | send d m k ih => exact ⟨_, fun q h => by cases h; exact ih⟩
  | recv s k ih => exact ⟨_, fun q h => by cases h; exact ih _⟩

theorem Prog.next_ne {p q : Prog α} (h : Relation.TransGen Prog.Next p q) : p ≠ q := by
  rintro rfl
  exact Prog.next_wf.transGen.asymmetric _ _ h h

open Config in
/-- Executions of programs that follow matching traces, with limited buffers. -/
theorem eager_reach {T : Nat → Trace} {res : Nat → α} {P : Nat → Prog α} (hM : Matching n T)
    (hP : ∀ r, r < n → Runs (P r) (T r) (res r)) {k : Nat} {c c0 : Config α} (h : Reach (EagerStep n L) k c0 c)
    (h0 : c0 = Config.init P) :
    ∃ pre suf, NetInv n T res c pre suf ∧ k ≤ doneCount n pre ∧
      ∀ r, r < n → pre r ≠ [] → Relation.TransGen Prog.Next (c.prog r) (P r) := by
  -- the programs
  have gen : ∀ {r : Nat} {p q : Prog α} {pre : Trace}, (pre = [] → q = P r) → (pre ≠ [] → Relation.TransGen Prog.Next q (P r)) →
      Prog.Next p q → Relation.TransGen Prog.Next p (P r) := by
    intro r p q pre h1 h2 h
    by_cases hn : pre = []
    · rw [← h1 hn]; exact .single h
    · exact .head h (h2 hn)
  suffices ∃ pre suf, NetInv n T res c pre suf ∧ k ≤ doneCount n pre ∧ ∀ r, r < n →
      (pre r = [] → c.prog r = P r) ∧ (pre r ≠ [] → Relation.TransGen Prog.Next (c.prog r) (P r)) by
    obtain ⟨pre, suf, h1, h2, h3⟩ := this
    exact ⟨pre, suf, h1, h2, fun r hr => (h3 r hr).2⟩
  induction h with
  | refl c =>
    subst h0
    exact ⟨fun _ => [], T, ⟨fun _ _ => rfl, hP, fun _ _ _ _ => rfl⟩, Nat.zero_le _, fun r _ => ⟨fun _ => rfl, fun h => absurd rfl h⟩⟩
  | @tail k c c1 c2 _ hs ih =>
    obtain ⟨pre, suf, inv, hk, hpre⟩ := ih h0
    cases hs with
    | send r d m kk hr hm hp =>
      obtain ⟨τ, rest, hsuf, inv'⟩ := net_send inv hr hp
      refine ⟨_, _, inv', by rw [doneCount_update n pre r hr]; omega, ?_⟩
      intro q hq
      simp only [setProg]
      by_cases e : q = r
      · subst e
        simp only [if_true]
        refine ⟨fun h => by simp at h, fun _ => gen (hpre q hq).1 (hpre q hq).2 ?_⟩
        rw [hp]
        exact .send d m kk
      · simp only [if_neg e]
        exact hpre q hq
    | recv r s m rest kk hr hp hc =>
      obtain ⟨τ, rest', hsuf, inv'⟩ := net_recv hM inv hr hp hc
      refine ⟨_, _, inv', by rw [doneCount_update n pre r hr]; omega, ?_⟩
      intro q hq
      simp only [setProg]
      by_cases e : q = r
      · subst e
        simp only [if_true]
        refine ⟨fun h => by simp at h, fun _ => gen (hpre q hq).1 (hpre q hq).2 ?_⟩
        rw [hp]
        exact .recv s kk m
      · simp only [if_neg e]
        exact hpre q hq
    | meet r d m kk k' hr hd hne hm hc hp hp' =>
      obtain ⟨τ, u, hs, inv1⟩ := net_send inv hr hp
      have hp1 : (⟨c1.setProg r kk, c1.setChan r d (c1.chan r d ++ [m])⟩ : Config α).prog d = .recv r k' := by
        simp only [Config.setProg, if_neg (Ne.symm hne)]
        exact hp'
      have hc1 : (⟨c1.setProg r kk, c1.setChan r d (c1.chan r d ++ [m])⟩ : Config α).chan r d = m :: [] := by
        simp [Config.setChan, hc]
      obtain ⟨τ', v, hv, inv2⟩ := net_recv hM inv1 hd hp1 hc1
      have hconf : (⟨fun q => if q = r then kk else if q = d then k' m else c1.prog q, c1.chan⟩ : Config α) =
          ⟨(⟨c1.setProg r kk, c1.setChan r d (c1.chan r d ++ [m])⟩ : Config α).setProg d (k' m),
            (⟨c1.setProg r kk, c1.setChan r d (c1.chan r d ++ [m])⟩ : Config α).setChan r d []⟩ := by
        simp only [Config.mk.injEq]
        refine ⟨funext fun q => ?_, funext fun a => funext fun e => ?_⟩
        · simp only [setProg]
          by_cases e : q = d
          · subst e; simp [Ne.symm hne]
          · simp [e]
        · simp only [setChan]
          by_cases e' : a = r ∧ e = d
          · obtain ⟨rfl, rfl⟩ := e'; simp [hc]
          · simp [e']
      refine ⟨_, _, hconf ▸ inv2, ?_, ?_⟩
      · rw [doneCount_update n _ d hd, doneCount_update n pre r hr]; omega
      · intro q hq
        simp only
        by_cases e : q = d
        · subst e
          simp only [if_true, if_neg (Ne.symm hne)]
          refine ⟨fun h => by simp at h, fun _ => gen (hpre q hq).1 (hpre q hq).2 ?_⟩
          rw [hp']
          exact .recv r k' m
        · simp only [if_neg e]
          by_cases e' : q = r
          · subst e'
            simp only [if_true]
            refine ⟨fun h => by simp at h, fun _ => gen (hpre q hq).1 (hpre q hq).2 ?_⟩
            rw [hp]
            exact .send d m kk
          · simp only [if_neg e']
            exact hpre q hq

/-- Whoever has received something has a partner that has sent something. -/
theorem NetInv.sent {T : Nat → Trace} {res : Nat → α} {c : Config α} {pre suf : Nat → Trace} (inv : NetInv n T res c pre suf)
    {s d : Nat} (hs : s < n) (hd : d < n) {m : Msg} {τ : Nat} (h : (Act.recv s m, τ) ∈ pre d) : pre s ≠ [] := by
  intro he
  have h1 := inv.chan s d hs hd
  rw [he] at h1
  have h2 : recvsFrom s (pre d) = [] := by
    have := (List.append_eq_nil_iff.mp (h1.symm.trans (by simp [sendsTo]))).1
    simpa using this
  have : (m, τ) ∈ recvsFrom s (pre d) := by
    unfold recvsFrom
    rw [List.mem_filterMap]
    exact ⟨_, h, by simp⟩
  rw [h2] at this
  cases this

theorem seqTrace_head {D : Nat → DofState} {Ds : List (Nat → DofState)} {r : Nat} (hr : r ≠ 0) :
    ∃ m τ t, seqTrace n (D :: Ds) r = (.recv (r - 1) m, τ) :: t := by
  refine ⟨[offs D r], 2 * r, ?_⟩
  simp [seqTrace, traceOf, trOffRecv, hr]

theorem seqTrace_total {D : Nat → DofState} {Ds : List (Nat → DofState)} {r : Nat} (hr : r + 1 ≠ n) :
    ∃ m τ, (Act.recv (n - 1) m, τ) ∈ seqTrace n (D :: Ds) r :=
  ⟨[offs D n], 2 * n + 1, by simp [seqTrace, traceOf, trSize, hr]⟩

/-- When some process has returned, all have started. -/
theorem all_started {D : Nat → DofState} {Ds : List (Nat → DofState)} {res : Nat → α} {c : Config α} {pre suf : Nat → Trace}
    (inv : NetInv n (seqTrace n (D :: Ds)) res c pre suf) {r : Nat} (hr : r < n) (hn : 2 ≤ n) {x : α} (h : c.prog r = .done x) :
    ∀ q, q < n → pre q ≠ [] := by
  have hsuf : suf r = [] := by
    have := inv.runs r hr
    rw [h] at this
    generalize suf r = t at this
    cases this; rfl
  have hpre : pre r = seqTrace n (D :: Ds) r := by rw [inv.split r hr, hsuf, List.append_nil]
  have last : pre (n - 1) ≠ [] := by
    by_cases e : r + 1 = n
    · have : n - 1 = r := by omega
      rw [this, hpre]
      obtain ⟨m, τ, t, ht⟩ := seqTrace_head (n := n) (D := D) (Ds := Ds) (r := r) (by omega)
      rw [ht]
      simp
    · obtain ⟨m, τ, hm⟩ := seqTrace_total (n := n) (D := D) (Ds := Ds) (r := r) e
      exact inv.sent (by omega) hr (hpre ▸ hm)
  have down : ∀ i, i < n → pre (n - 1 - i) ≠ [] := by
    intro i
    induction i with
    | zero => intro _; exact last
    | succ i ih =>
      intro hi
      have h1 := ih (by omega)
      obtain ⟨m, τ, t, ht⟩ := seqTrace_head (n := n) (D := D) (Ds := Ds) (r := n - 1 - i) (by omega)
      have h2 := inv.split (n - 1 - i) (by omega)
      rw [ht] at h2
      cases hp : pre (n - 1 - i) with
      | nil => exact absurd hp h1
      | cons y l =>
        rw [hp] at h2
        simp only [List.cons_append, List.cons.injEq] at h2
        have := inv.sent (s := n - 1 - i - 1) (d := n - 1 - i) (by omega) (by omega) (m := m) (τ := τ) (by rw [hp, ← h2.1]; simp)
        rwa [Nat.sub_sub _ i 1] at this
  intro q hq
  have := down (n - 1 - q) (by omega)
  rwa [show n - 1 - (n - 1 - q) = q by omega] at this

end Bempp
