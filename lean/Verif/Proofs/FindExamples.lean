import Verif.Spec.FindExamples
import Mathlib.Data.List.TakeWhile
/-
Proofs about the model of `find_examples.py`: splitting, joining and replacing texts, and the line of an example that says how
it is run.
-/
namespace Bempp

theorem pyJoin_cons (sep p : PyText) (ps : List PyText) (h : ps ≠ []) :
    pyJoin sep (p :: ps) = p ++ sep ++ pyJoin sep ps := by
  cases ps with
  | nil => exact absurd rfl h
  | cons q ps => rfl

theorem pyJoin_between (sep : PyText) (ps : List PyText) : pyJoin sep ps = between sep ps := by
  induction ps with
  | nil => rfl
  | cons p ps ih =>
    cases ps with
    | nil => simp [pyJoin, between]
    | cons q ps =>
      rw [pyJoin_cons _ _ _ (by simp), ih]
      simp [between]

theorem pySplitGo_ne (pat : PyText) (s : PyText) (k : Nat) : pySplitGo pat k s ≠ [] := by
  induction s generalizing k with
  | nil => cases k <;> simp [pySplitGo]
  | cons c s ih =>
    cases k with
    | succ k => simpa [pySplitGo] using ih k
    | zero =>
      rw [pySplitGo]
      split
      · simp
      · split <;> simp

theorem pySplitGo_join (pat : PyText) (hp : pat ≠ []) (s : PyText) (k : Nat) :
    pyJoin pat (pySplitGo pat k s) = s.drop k := by
  induction s generalizing k with
  | nil => cases k <;> simp [pySplitGo, pyJoin]
  | cons c s ih =>
    cases k with
    | succ k => simpa [pySplitGo] using ih k
    | zero =>
      rw [pySplitGo]
      split
      · rename_i h
        rw [pyJoin_cons _ _ _ (pySplitGo_ne _ _ _), ih]
        rw [List.isPrefixOf_iff_prefix] at h
        obtain ⟨r, hr⟩ := h
        cases pat with
        | nil => exact absurd rfl hp
        | cons d pat =>
          simp only [List.cons_append, List.cons.injEq] at hr
          obtain ⟨rfl, rfl⟩ := hr
          simp
      · have h := ih 0
        have hne := pySplitGo_ne pat s 0
        split
        · rename_i h'
          exact absurd h' hne
        · rename_i p ps h'
          rw [h'] at h
          cases ps with
          | nil => simp [pyJoin] at h ⊢; exact h
          | cons q ps => simp [pyJoin] at h ⊢; exact h

theorem pyJoin_prefix (sep p : PyText) (ps : List PyText) : p <+: pyJoin sep (p :: ps) := by
  cases ps with
  | nil => simp [pyJoin]
  | cons q ps => exact ⟨sep ++ pyJoin sep (q :: ps), by simp [pyJoin]⟩

theorem pySplitGo_free (pat : PyText) (hp : pat ≠ []) (s : PyText) (k : Nat) :
    ∀ p ∈ pySplitGo pat k s, ¬ pat <:+: p := by
  induction s generalizing k with
  | nil => cases k <;> simp [pySplitGo, hp]
  | cons c s ih =>
    cases k with
    | succ k => simpa [pySplitGo] using ih k
    | zero =>
      rw [pySplitGo]
      split
      · intro p hp'
        rcases List.mem_cons.mp hp' with rfl | hp'
        · simpa using hp
        · exact ih _ p hp'
      · rename_i hpre
        split
        · rename_i h'
          exact absurd h' (pySplitGo_ne _ _ _)
        · rename_i p ps h'
          intro q hq
          rcases List.mem_cons.mp hq with rfl | hq
          · intro hin
            rw [List.infix_cons_iff] at hin
            rcases hin with hin | hin
            · apply hpre
              rw [List.isPrefixOf_iff_prefix]
              refine hin.trans ?_
              have := pySplitGo_join pat hp s 0
              rw [h'] at this
              have hpf := pyJoin_prefix pat p ps
              rw [this] at hpf
              simpa using hpf
            · exact ih 0 p (by rw [h']; simp) hin
          · exact ih 0 q (by rw [h']; simp [hq])

theorem pySplit_join (pat : PyText) (hp : pat ≠ []) (s : PyText) : pyJoin pat (pySplit pat s) = s := by
  have := pySplitGo_join pat hp s 0
  rw [List.drop_zero] at this
  exact this

theorem pySplit_free (pat : PyText) (hp : pat ≠ []) (s : PyText) : ∀ p ∈ pySplit pat s, ¬ pat <:+: p :=
  pySplitGo_free pat hp s 0

theorem pyIn_iff (pat s : PyText) : pyIn pat s = true ↔ pat <:+: s := by
  induction s with
  | nil => simp [pyIn]
  | cons c s ih => rw [pyIn, Bool.or_eq_true, ih, List.isPrefixOf_iff_prefix, List.infix_cons_iff]

/-- No part at the start of the text is also a part at its end. -/
def Unbordered (pat : PyText) : Prop := ∀ n, n < pat.length → 0 < n → pat.take n ≠ pat.drop (pat.length - n)

theorem occurrences_apart {pat : PyText} (hb : Unbordered pat) {a b a' b' : PyText} (h : a ++ pat ++ b = a' ++ pat ++ b')
    (hl : a'.length < a.length) : pat <:+: a := by
  by_cases hle : a'.length + pat.length ≤ a.length
  · have h1 : (a' ++ pat) <+: (a ++ pat ++ b) := ⟨b', by simpa using h.symm⟩
    have h2 : a <+: (a ++ pat ++ b) := ⟨pat ++ b, by simp⟩
    obtain ⟨r, hr⟩ := List.prefix_of_prefix_length_le h1 h2 (by simpa using hle)
    exact ⟨a', r, by rw [← hr]⟩
  · exfalso
    have h1 : a' <+: (a ++ pat ++ b) := ⟨pat ++ b', by simpa using h.symm⟩
    have h2 : a <+: (a ++ pat ++ b) := ⟨pat ++ b, by simp⟩
    obtain ⟨x, rfl⟩ := List.prefix_of_prefix_length_le h1 h2 (by omega)
    have h3 : x ++ (pat ++ b) = pat ++ b' := by simpa using h
    have h4 : x <+: (pat ++ b') := ⟨pat ++ b, h3⟩
    have h5 : pat <+: (pat ++ b') := ⟨b', rfl⟩
    have hx : x.length < pat.length := by simp at hle; omega
    obtain ⟨y, hy⟩ := List.prefix_of_prefix_length_le h4 h5 (by omega)
    have h6 : pat ++ b = y ++ b' := by
      have : x ++ (pat ++ b) = x ++ (y ++ b') := by rw [h3, ← List.append_assoc, hy]
      exact List.append_cancel_left this
    have hlen : pat.length = x.length + y.length := by rw [← hy]; simp
    have hx0 : 0 < x.length := by simp at hl; omega
    have h7 : y <+: pat := List.prefix_of_prefix_length_le (l₃ := pat ++ b) ⟨b', h6.symm⟩ ⟨b, rfl⟩ (by omega)
    refine hb y.length (by omega) (by omega) ?_
    rw [← List.prefix_iff_eq_take.mp h7]
    have : pat.length - y.length = x.length := by omega
    rw [this]
    conv_rhs => rw [← hy]
    simp

theorem pySplit_once {pat s a b : PyText} (hp : pat ≠ []) (hb : Unbordered pat) :
    pySplit pat s = [a, b] ↔ OnceIn pat s a b := by
  have hj := pySplit_join pat hp s
  have hf := pySplit_free pat hp s
  have hpos : 0 < pat.length := List.length_pos_iff.mpr hp
  constructor
  · intro h
    rw [h] at hj hf
    have hs : s = a ++ pat ++ b := by rw [← hj]; rfl
    refine ⟨hs, fun a' b' h' => ?_⟩
    have e : a ++ pat ++ b = a' ++ pat ++ b' := hs.symm.trans h'
    rcases lt_trichotomy a'.length a.length with hlt | heq | hgt
    · exact absurd (occurrences_apart hb e hlt) (hf a (by simp))
    · obtain ⟨h1, h2⟩ := List.append_inj (by simpa using e) heq.symm
      exact ⟨h1.symm, (List.append_cancel_left h2).symm⟩
    · exfalso
      by_cases hge : a.length + pat.length ≤ a'.length
      · have h1 : (a ++ pat) <+: s := ⟨b, hs.symm⟩
        have h2 : a' <+: s := ⟨pat ++ b', by rw [h']; simp⟩
        obtain ⟨r, rfl⟩ := List.prefix_of_prefix_length_le h1 h2 (by simpa using hge)
        apply hf b (by simp)
        have : b = r ++ (pat ++ b') := by
          have : (a ++ pat) ++ b = (a ++ pat) ++ (r ++ (pat ++ b')) := by rw [e]; simp
          exact List.append_cancel_left this
        exact ⟨r, b', by rw [this]; simp⟩
      · have h1 : a <+: s := ⟨pat ++ b, by rw [hs]; simp⟩
        have h2 : a' <+: s := ⟨pat ++ b', by rw [h']; simp⟩
        obtain ⟨x, rfl⟩ := List.prefix_of_prefix_length_le h1 h2 (by omega)
        have e2 : ([] : PyText) ++ pat ++ b = x ++ pat ++ b' := by
          have : a ++ (pat ++ b) = a ++ (x ++ (pat ++ b')) := by simpa using e
          simpa using List.append_cancel_left this
        have := occurrences_apart hb e2.symm (by simp at hgt ⊢; omega)
        have := this.length_le
        simp at hge
        omega
  · rintro ⟨hs, hu⟩
    generalize pySplit pat s = l at hj hf
    match l with
    | [] =>
      exfalso
      simp only [pyJoin] at hj
      rw [← hj] at hs
      have := congrArg List.length hs
      simp at this
      omega
    | [p] =>
      exfalso
      simp only [pyJoin] at hj
      exact hf p (by simp) ⟨a, b, by rw [hj, hs]⟩
    | [p, q] =>
      obtain ⟨rfl, rfl⟩ := hu p q (by rw [← hj]; rfl)
      rfl
    | p :: q :: r :: ps =>
      exfalso
      have h1 := hu p (pyJoin pat (q :: r :: ps)) (by rw [← hj]; rfl)
      have h2 := hu (p ++ pat ++ q) (pyJoin pat (r :: ps)) (by rw [← hj]; simp [pyJoin])
      have := congrArg List.length (h1.1.trans h2.1.symm)
      simp at this
      exact hp this.1

theorem pySplit_two_of_in {pat s : PyText} (hp : pat ≠ []) (hb : Unbordered pat) :
    (∃ a b, pySplit pat s = [a, b]) ↔ ∃ a b, OnceIn pat s a b := by
  simp only [pySplit_once hp hb]

theorem pyReplace_spec (pat new s : PyText) (hp : pat ≠ []) : Replaced pat new s (pyReplace pat new s) :=
  ⟨pySplit pat s, by rw [← pyJoin_between, pySplit_join pat hp], by rw [← pyJoin_between]; rfl, pySplit_free pat hp s⟩

/-- After the replacement by a character that is not in `pat`, `pat` is not in the text. -/
theorem replaced_free {pat s s' : PyText} {d : Char} (hp : pat ≠ []) (hd : d ∉ pat) (h : Replaced pat [d] s s') :
    ¬ pat <:+: s' := by
  obtain ⟨ps, -, rfl, hf⟩ := h
  rw [← pyJoin_between]
  induction ps with
  | nil => simpa [pyJoin] using hp
  | cons p ps ih =>
    cases ps with
    | nil => simpa [pyJoin] using hf
    | cons q ps =>
      have ih := ih fun x hx => hf x (by simp at hx ⊢; tauto)
      have hfp := hf p (by simp)
      intro hin
      rw [pyJoin_cons _ _ _ (by simp)] at hin
      generalize pyJoin [d] (q :: ps) = r at hin ih
      obtain ⟨a, b, hab⟩ := hin
      have hab : (a ++ pat) ++ b = p ++ (d :: r) := by simpa using hab
      rcases List.append_eq_append_iff.mp hab with ⟨x, hx, hx'⟩ | ⟨x, hx, hx'⟩
      · exact hfp ⟨a, x, hx.symm⟩
      · cases x with
        | nil =>
          simp at hx
          exact hfp ⟨a, [], by simpa using hx⟩
        | cons e x =>
          simp only [List.cons_append, List.cons.injEq] at hx'
          obtain ⟨rfl, hx'⟩ := hx'
          rcases List.append_eq_append_iff.mp hx with ⟨y, hy, hy'⟩ | ⟨y, hy, hy'⟩
          · exact hd (by rw [hy']; simp)
          · cases y with
            | nil =>
              simp at hy'
              exact hd (by rw [← hy']; simp)
            | cons f y =>
              simp only [List.cons_append, List.cons.injEq] at hy'
              obtain ⟨-, rfl⟩ := hy'
              exact ih ⟨y, b, by rw [hx']⟩

/-! ## Lines -/

/-- The lines of a text: all but the last one end with a line end. -/
inductive LineList : List PyText → Prop
  | nil : LineList []
  | last (x : PyText) : x ≠ [] → '\n' ∉ x → LineList [x]
  | cons (x : PyText) (ls : List PyText) : '\n' ∉ x → LineList ls → LineList ((x ++ ['\n']) :: ls)

theorem pyLines_flatten (s : PyText) : (pyLines s).flatten = s := by
  induction s with
  | nil => rfl
  | cons c s ih =>
    rw [pyLines]
    split
    · simp [ih]
    · split
      · rename_i h
        rw [h] at ih
        simp at ih
        simp [← ih]
      · rename_i l ls h
        rw [h] at ih
        simp at ih ⊢
        exact ih

theorem pyLines_lineList (s : PyText) : LineList (pyLines s) := by
  induction s with
  | nil => exact .nil
  | cons c s ih =>
    rw [pyLines]
    split
    · rename_i h
      subst h
      exact .cons [] _ (by simp) ih
    · rename_i hc
      split
      · exact .last _ (by simp) (by simpa using fun h => hc h.symm)
      · rename_i l ls h
        rw [h] at ih
        cases ih with
        | last _ h1 h2 => exact .last _ (by simp) (by simpa [h2] using fun h => hc h.symm)
        | cons x _ h1 h2 => exact .cons (c :: x) _ (by simpa [h1] using fun h => hc h.symm) h2

theorem directiveAt_single {x a b : PyText} (hx : '\n' ∉ x) (h : DirectiveAt x a b) : a = [] ∧ x = "//?".toList ++ b := by
  obtain ⟨h1, rfl | ⟨a', rfl⟩⟩ := h
  · exact ⟨rfl, by simpa using h1⟩
  · exact absurd (by rw [h1]; simp) hx

theorem directiveAt_cons {x t a b : PyText} (hx : '\n' ∉ x) :
    DirectiveAt (x ++ '\n' :: t) a b ↔
      (a = [] ∧ ∃ r, x = "//?".toList ++ r ∧ b = r ++ '\n' :: t) ∨ ∃ a2, a = x ++ '\n' :: a2 ∧ DirectiveAt t a2 b := by
  constructor
  · rintro ⟨h1, rfl | ⟨a', rfl⟩⟩
    · left
      refine ⟨rfl, ?_⟩
      rw [List.nil_append] at h1
      rcases List.append_eq_append_iff.mp h1 with ⟨y, hy, hy'⟩ | ⟨y, hy, hy'⟩
      · cases y with
        | nil => exact ⟨[], by simpa using hy.symm, by simpa using hy'.symm⟩
        | cons e y =>
          exfalso
          simp only [List.cons_append, List.cons.injEq] at hy'
          obtain ⟨rfl, -⟩ := hy'
          have : '\n' ∈ "//?".toList := by rw [hy]; simp
          revert this
          decide
      · exact ⟨y, hy, hy'⟩
    · right
      have h2 : x ++ '\n' :: t = (a' ++ ['\n']) ++ ("//?".toList ++ b) := by rw [h1]; simp
      rcases List.append_eq_append_iff.mp h2 with ⟨y, hy, hy'⟩ | ⟨y, hy, hy'⟩
      · cases y with
        | nil => exact absurd (by rw [← List.append_nil x, ← hy]; simp) hx
        | cons e y =>
          simp only [List.cons_append, List.cons.injEq] at hy'
          obtain ⟨rfl, hy'⟩ := hy'
          refine ⟨y, hy, by rw [hy']; simp, ?_⟩
          rcases List.eq_nil_or_concat y with rfl | ⟨y', e, rfl⟩
          · exact .inl rfl
          · right
            have h3 : a' ++ ['\n'] = (x ++ '\n' :: y') ++ [e] := by simpa using hy
            have h4 := (List.append_inj' h3 rfl).2
            exact ⟨y', by rw [h4]; simp⟩
      · exact absurd (by rw [hy]; simp) hx
  · rintro (⟨rfl, r, rfl, rfl⟩ | ⟨a2, rfl, h1, h2⟩)
    · exact ⟨by simp, .inl rfl⟩
    · refine ⟨by rw [h1]; simp, .inr ?_⟩
      rcases h2 with rfl | ⟨a', rfl⟩
      · exact ⟨x, rfl⟩
      · exact ⟨x ++ '\n' :: a', by simp⟩

theorem lineStart (x : PyText) (hx : '\n' ∉ x) : "//?".toList.isPrefixOf (x ++ ['\n']) = true ↔ ∃ r, x = "//?".toList ++ r := by
  rw [List.isPrefixOf_iff_prefix]
  constructor
  · rintro ⟨r, hr⟩
    rcases List.append_eq_append_iff.mp hr with ⟨y, hy, -⟩ | ⟨y, hy, hy'⟩
    · exact ⟨y, hy⟩
    · cases y with
      | nil => exact ⟨[], by simpa using hy.symm⟩
      | cons e y =>
        exfalso
        simp only [List.cons_append, List.cons.injEq] at hy'
        obtain ⟨rfl, -⟩ := hy'
        have : '\n' ∈ "//?".toList := by rw [hy]; simp
        revert this
        decide
  · rintro ⟨r, rfl⟩
    exact ⟨r ++ ['\n'], by simp⟩

/-- The first line that starts with `//?`. -/
theorem find_directive {ls : List PyText} (h : LineList ls) :
    (ls.find? (fun l => "//?".toList.isPrefixOf l) = none ∧ ∀ a b, ¬ DirectiveAt ls.flatten a b) ∨
    ∃ rest tail, ls.find? (fun l => "//?".toList.isPrefixOf l) = some ("//?".toList ++ rest ++ tail) ∧
      FirstDirective ls.flatten rest ∧ (tail = [] ∨ tail = ['\n']) := by
  induction h with
  | nil =>
    left
    refine ⟨rfl, fun a b h => ?_⟩
    have := congrArg List.length h.1
    simp at this
  | last x hx hn =>
    by_cases hp : "//?".toList.isPrefixOf x = true
    · right
      obtain ⟨r, rfl⟩ := List.isPrefixOf_iff_prefix.mp hp
      refine ⟨r, [], by rw [List.find?_cons_of_pos hp]; simp, ⟨[], [], ⟨by simp, .inl rfl⟩, by simp, ?_, .inl rfl⟩, .inl rfl⟩
      intro h'
      exact hn (by simp [h'])
    · left
      refine ⟨by rw [List.find?_cons_of_neg hp]; rfl, fun a b h => hp ?_⟩
      simp only [List.flatten_cons, List.flatten_nil, List.append_nil] at h
      exact List.isPrefixOf_iff_prefix.mpr ⟨b, (directiveAt_single hn h).2.symm⟩
  | cons x ls hn _ ih =>
    have hfl : ((x ++ ['\n']) :: ls).flatten = x ++ '\n' :: ls.flatten := by simp
    rw [hfl]
    by_cases hp : "//?".toList.isPrefixOf (x ++ ['\n']) = true
    · right
      obtain ⟨r, rfl⟩ := (lineStart x hn).mp hp
      refine ⟨r, ['\n'], by rw [List.find?_cons_of_pos hp],
        ⟨[], '\n' :: ls.flatten, ⟨by simp, .inl rfl⟩, by simp, ?_, .inr ⟨_, rfl⟩⟩, .inr rfl⟩
      intro h'
      exact hn (by simp [h'])
    · rw [List.find?_cons_of_neg hp]
      have hno : ¬ ∃ r, x = "//?".toList ++ r := fun h => hp ((lineStart x hn).mpr h)
      rcases ih with ⟨h1, h2⟩ | ⟨rest, tail, h1, ⟨a, t, h2, h3, h4, h5⟩, h6⟩
      · left
        refine ⟨h1, fun a b h => ?_⟩
        rcases (directiveAt_cons hn).mp h with ⟨-, r, hr, -⟩ | ⟨a2, -, h'⟩
        · exact hno ⟨r, hr⟩
        · exact h2 _ _ h'
      · right
        refine ⟨rest, tail, h1, ⟨x ++ '\n' :: a, t, (directiveAt_cons hn).mpr (.inr ⟨a, rfl, h2⟩), fun a' b' h => ?_, h4, h5⟩, h6⟩
        rcases (directiveAt_cons hn).mp h with ⟨-, r, hr, -⟩ | ⟨a2, rfl, h'⟩
        · exact absurd ⟨r, hr⟩ hno
        · have := h3 _ _ h'
          simp
          omega

theorem firstDirective_unique {text r r' : PyText} (h : FirstDirective text r) (h' : FirstDirective text r') : r = r' := by
  obtain ⟨a, t, h1, h2, h3, h4⟩ := h
  obtain ⟨a', t', h1', h2', h3', h4'⟩ := h'
  have hl : a.length = a'.length := le_antisymm (h2 _ _ h1') (h2' _ _ h1)
  have e := h1.1.symm.trans h1'.1
  simp only [List.append_assoc] at e
  obtain ⟨-, e2⟩ := List.append_inj e hl
  have e3 := List.append_cancel_left e2
  rcases List.append_eq_append_iff.mp e3 with ⟨y, hy, hy'⟩ | ⟨y, hy, hy'⟩
  · cases y with
    | nil => simpa using hy.symm
    | cons c y =>
      exfalso
      rcases h4 with rfl | ⟨u, rfl⟩
      · simp at hy'
      · simp only [List.cons_append, List.cons.injEq] at hy'
        obtain ⟨rfl, -⟩ := hy'
        exact h3' (by rw [hy]; simp)
  · cases y with
    | nil => simpa using hy
    | cons c y =>
      exfalso
      rcases h4' with rfl | ⟨u, rfl⟩
      · simp at hy'
      · simp only [List.cons_append, List.cons.injEq] at hy'
        obtain ⟨rfl, -⟩ := hy'
        exact h3 (by rw [hy]; simp)

/-! ## Spaces at the ends -/

theorem dropWhile_append_all {p : Char → Bool} {x s : PyText} (hx : ∀ c ∈ x, p c = true) :
    (x ++ s).dropWhile p = s.dropWhile p := by
  induction x with
  | nil => rfl
  | cons c x ih =>
    rw [List.cons_append, List.dropWhile_cons_of_pos (hx c (by simp))]
    exact ih fun d hd => hx d (by simp [hd])

theorem dropWhile_id {p : Char → Bool} {s : PyText} (h : ∀ c, s.head? = some c → p c = false) : s.dropWhile p = s := by
  cases s with
  | nil => rfl
  | cons c s => rw [List.dropWhile_cons_of_neg (by simp [h c rfl])]

theorem Trimmed.eq {s core : PyText} (h : Trimmed s core) : pyStrip s = core := by
  obtain ⟨x, y, rfl, hx, hy, h1, h2⟩ := h
  cases core with
  | nil =>
    have : (x ++ [] ++ y).dropWhile pySpace = [] := by
      rw [List.append_nil, dropWhile_append_all hx]
      have := dropWhile_append_all (s := []) hy
      simpa using this
    rw [pyStrip, this]
    rfl
  | cons c core =>
    have e : (x ++ (c :: core) ++ y).dropWhile pySpace = (c :: core) ++ y := by
      rw [List.append_assoc, dropWhile_append_all hx]
      exact dropWhile_id (by simpa using h1)
    rw [pyStrip, e, List.reverse_append, dropWhile_append_all (by simpa using hy), dropWhile_id, List.reverse_reverse]
    intro d hd
    exact h2 d (by rw [List.head?_reverse] at hd; exact hd)

theorem trimmed_strip (s : PyText) : Trimmed s (pyStrip s) := by
  refine ⟨s.takeWhile pySpace, ((s.dropWhile pySpace).reverse.takeWhile pySpace).reverse, ?_, ?_, ?_, ?_, ?_⟩
  · have h1 : (s.dropWhile pySpace) = pyStrip s ++ ((s.dropWhile pySpace).reverse.takeWhile pySpace).reverse := by
      rw [pyStrip, ← List.reverse_append, List.takeWhile_append_dropWhile, List.reverse_reverse]
    rw [List.append_assoc, ← h1, List.takeWhile_append_dropWhile]
  · intro c hc
    exact List.mem_takeWhile_imp hc
  · intro c hc
    rw [List.mem_reverse] at hc
    exact List.mem_takeWhile_imp hc
  · intro c hc
    have h1 : (s.dropWhile pySpace) = pyStrip s ++ ((s.dropWhile pySpace).reverse.takeWhile pySpace).reverse := by
      rw [pyStrip, ← List.reverse_append, List.takeWhile_append_dropWhile, List.reverse_reverse]
    have h2 : (s.dropWhile pySpace).head? = some c := by
      rw [h1, List.head?_append, hc]
      rfl
    have := List.head?_dropWhile_not pySpace s
    rw [h2] at this
    simpa using this
  · intro c hc
    rw [pyStrip, List.getLast?_reverse] at hc
    have := List.head?_dropWhile_not pySpace (s.dropWhile pySpace).reverse
    rw [hc] at this
    simpa using this

theorem pyStrip_newline (s : PyText) : pyStrip (s ++ ['\n']) = pyStrip s := by
  apply Trimmed.eq
  obtain ⟨x, y, h, hx, hy, h1, h2⟩ := trimmed_strip s
  refine ⟨x, y ++ ['\n'], by rw [← List.append_assoc, ← h], hx, ?_, h1, h2⟩
  intro c hc
  rcases List.mem_append.mp hc with hc | hc
  · exact hy c hc
  · rw [List.mem_singleton.mp hc]
    decide

theorem split_space (cmd o : PyText) (h : ' ' ∉ cmd) :
    (cmd ++ ' ' :: o).takeWhile (· ≠ ' ') = cmd ∧ ((cmd ++ ' ' :: o).dropWhile (· ≠ ' ')).drop 1 = o := by
  induction cmd with
  | nil => simp
  | cons c cmd ih =>
    simp only [List.mem_cons, not_or] at h
    have hc : c ≠ ' ' := fun e => h.1 e.symm
    obtain ⟨h1, h2⟩ := ih h.2
    constructor
    · rw [List.cons_append, List.takeWhile_cons_of_pos (by simpa using hc), h1]
    · rw [List.cons_append, List.dropWhile_cons_of_pos (by simpa using hc), h2]

theorem first_space {s : PyText} (h : ' ' ∈ s) : ∃ u v, s = u ++ ' ' :: v ∧ ' ' ∉ u := by
  induction s with
  | nil => simp at h
  | cons c s ih =>
    by_cases hc : c = ' '
    · exact ⟨[], s, by simp [hc], by simp⟩
    · obtain ⟨u, v, rfl, hu⟩ := ih ((List.mem_cons.mp h).resolve_left fun e => hc e.symm)
      exact ⟨c :: u, v, rfl, by simpa [hu] using fun e => hc e.symm⟩

theorem asks_iff (text cmd : PyText) (o : Option PyText) : Asks text cmd o ↔ directive text = (cmd, o) := by
  have hfl := pyLines_flatten text
  rcases find_directive (pyLines_lineList text) with ⟨hf, hno⟩ | ⟨rest, tail, hf, hfirst, htail⟩
  · rw [hfl] at hno
    have hd : directive text = ("run".toList, none) := by rw [directive, hf]
    rw [hd]
    constructor
    · intro h
      cases h with
      | nothing _ => rfl
      | command r c h1 _ _ => obtain ⟨a, t, h1, -⟩ := h1; exact absurd h1 (hno _ _)
      | options r c o h1 _ _ => obtain ⟨a, t, h1, -⟩ := h1; exact absurd h1 (hno _ _)
    · intro h
      cases h
      exact .nothing hno
  · rw [hfl] at hfirst
    have hstrip : pyStrip (("//?".toList ++ rest ++ tail).drop 3) = pyStrip rest := by
      have : ("//?".toList ++ rest ++ tail).drop 3 = rest ++ tail := by
        rw [List.append_assoc]
        rfl
      rw [this]
      rcases htail with rfl | rfl
      · rw [List.append_nil]
      · exact pyStrip_newline rest
    have hd : directive text = if pyIn [' '] (pyStrip rest) then
        ((pyStrip rest).takeWhile (· ≠ ' '), some (((pyStrip rest).dropWhile (· ≠ ' ')).drop 1)) else (pyStrip rest, none) := by
      rw [directive, hf]
      simp only [hstrip]
    have hin : ∀ s : PyText, pyIn [' '] s = true ↔ ' ' ∈ s := by
      intro s
      rw [pyIn_iff]
      constructor
      · rintro ⟨a, b, rfl⟩
        simp
      · intro h
        obtain ⟨a, b, rfl⟩ := List.append_of_mem h
        exact ⟨a, b, by simp⟩
    constructor
    · intro h
      cases h with
      | nothing hno => obtain ⟨a, t, h1, -⟩ := hfirst; exact absurd h1 (hno _ _)
      | command r _ h1 h2 h3 =>
        obtain rfl := firstDirective_unique h1 hfirst
        rw [hd, h2.eq, if_neg (by rw [hin]; exact h3)]
      | options r _ o h1 h2 h3 =>
        obtain rfl := firstDirective_unique h1 hfirst
        rw [hd, h2.eq, if_pos (by rw [hin]; simp), (split_space cmd o h3).1, (split_space cmd o h3).2]
    · intro h
      rw [hd] at h
      split at h
      · rename_i hs
        rw [hin] at hs
        obtain ⟨u, v, huv, hu⟩ := first_space hs
        rw [huv, (split_space u v hu).1, (split_space u v hu).2] at h
        cases h
        exact .options rest _ _ hfirst (huv ▸ trimmed_strip rest) hu
      · rename_i hs
        cases h
        exact .command rest _ hfirst (trimmed_strip rest) (by rw [← hin]; exact hs)

end Bempp
