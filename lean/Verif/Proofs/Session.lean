import Verif.Spec.Session
import Verif.Props.Leaks
import Verif.Props.PythonData
/-
Sessions with Rust objects behave like sessions with values.
-/
set_option linter.unusedVariables false

namespace Bempp

/-- Options objects have a degree for exactly the supported keys. -/
structure Options.Keys (o : Options) : Prop where
  regular : ∀ t, (o.getRegularQuadratureDegree t).isSome = decide t.Supported
  singular : ∀ t0 t1, (o.getSingularQuadratureDegree (t0, t1)).isSome = decide (t0.Supported ∧ t1.Supported)

theorem keys_default : Options.default.Keys :=
  ⟨fun t => by cases t <;> decide, fun a b => by cases a <;> cases b <;> decide⟩

theorem isSome_andModify {K V : Type} [DecidableEq K] (m : Map K V) (k k' : K) (v : V) :
    ((m.andModify k v).get? k').isSome = (m.get? k').isSome := by
  induction m with
  | nil => rfl
  | cons e m ih =>
    unfold Map.andModify Map.get? at *
    rw [List.map_cons]
    by_cases h : e.1 = k
    · rw [if_pos h, List.lookup_cons, List.lookup_cons]
      by_cases h2 : (k' == e.1) = true
      · rw [h2]; rfl
      · rw [Bool.eq_false_iff.mpr h2]; exact ih
    · rw [if_neg h, List.lookup_cons, List.lookup_cons]
      by_cases h2 : (k' == e.1) = true
      · rw [h2]
      · rw [Bool.eq_false_iff.mpr h2]; exact ih

theorem Options.Keys.setRegular {o : Options} (h : o.Keys) (t : CellType) (n : Nat) :
    (o.setRegularQuadratureDegree t n).Keys :=
  ⟨fun t' => by rw [← h.regular t']; exact isSome_andModify _ _ _ _, h.singular⟩

theorem Options.Keys.setSingular {o : Options} (h : o.Keys) (t : CellType × CellType) (n : Nat) :
    (o.setSingularQuadratureDegree t n).Keys :=
  ⟨h.regular, fun a b => by rw [← h.singular a b]; exact isSome_andModify _ _ _ _⟩

theorem Options.Keys.setBatch {o : Options} (h : o.Keys) (n : Nat) : (o.setBatchSize n).Keys := ⟨h.regular, h.singular⟩

variable {R T : Type} [Zero T] [Add T] [Mul T] [Sub T] [Div T] [Neg T] [Zero R] [Mul R]

/-- The objects of a session and its values are the same thing. -/
structure Agrees (kernel : DType → Kernel R T) (s : PySession) (v : Values R T) : Prop where
  booked : Booked s.py v.ledger
  nextO : s.nextOptions = v.nextOptions
  nextA : s.nextAssembler = v.nextAssembler
  opts : ∀ i, (s.options i = none ∧ v.options i = none) ∨ ∃ x o, s.options i = some x ∧
    v.options i = some (o, !x.readOnly) ∧ s.heap.live x.rs = some (.options o) ∧ o.Keys
  asms : ∀ k, (s.assemblers k = none ∧ v.assemblers k = none) ∨ ∃ y a op d x o, s.assemblers k = some y ∧
    v.assemblers k = some a ∧ s.options y.options = some x ∧ x.readOnly = true ∧
    s.heap.live y.rs = some (.assembler op d x.rs) ∧ s.heap.live x.rs = some (.options o) ∧
    createLaplaceAssembler (kernel d) op o d = .ok a
  injO : ∀ i j x y, s.options i = some x → s.options j = some y → x.rs = y.rs → i = j
  injA : ∀ i j x y, s.assemblers i = some x → s.assemblers j = some y → x.rs = y.rs → i = j
  fresh : ∀ p, s.heap.next ≤ p → s.heap.live p = none
  freshO : ∀ i, s.nextOptions ≤ i → s.options i = none
  usedO : ∀ i, i < s.nextOptions → s.options i ≠ none
  freshA : ∀ k, s.nextAssembler ≤ k → s.assemblers k = none
  aliveO : ∀ p o, s.heap.live p = some (.options o) → ∃ i x, s.options i = some x ∧ x.rs = p
  aliveA : ∀ p op d q, s.heap.live p = some (.assembler op d q) → ∃ k y, s.assemblers k = some y ∧ y.rs = p

omit [Zero T] [Zero R] [Mul R] in
theorem Agrees.start (kernel : DType → Kernel R T) : Agrees kernel PySession.start Values.start where
  booked := Booked.start
  nextO := rfl
  nextA := rfl
  opts i := by
    by_cases h : i = 0
    · subst h
      exact Or.inr ⟨⟨false, 0⟩, Options.default, rfl, rfl, rfl, keys_default⟩
    · exact Or.inl ⟨if_neg h, if_neg h⟩
  asms k := Or.inl ⟨rfl, rfl⟩
  injO i j x y hx hy h := by
    simp only [PySession.start] at hx hy
    split at hx <;> split at hy <;> simp_all
  injA i j x y hx hy h := by cases hx
  fresh p hp := if_neg (by change 1 ≤ p at hp; omega)
  freshO i hi := if_neg (by change 1 ≤ i at hi; omega)
  usedO i hi := by
    have : i = 0 := by change i < 1 at hi; omega
    subst this
    simp [PySession.start]
  freshA k _ := rfl
  aliveO p o hp := by
    simp only [PySession.start] at hp
    split at hp
    · rename_i h
      exact ⟨0, ⟨false, 0⟩, rfl, h.symm⟩
    · cases hp
  aliveA p op d q hp := by
    simp only [PySession.start] at hp
    split at hp <;> simp at hp

/-- What a call does in a session with objects and in one with values. -/
def SameStep (content : Nat → Nat → PyFs R T) (kernel : DType → Kernel R T) (env : DType → Env R T) (s : PySession)
    (v : Values R T) (c : SessionCall) : Prop :=
  ∃ s' v', ∃ P : Ffi (PyValue T) → Prop, Agrees kernel s' v' ∧
    (∀ t r, c.Step content kernel env s t r ↔ t = s' ∧ P r) ∧
    (∀ w r, c.Means content kernel env v w r ↔ w = v' ∧ P r) ∧ ¬ P .undefined

variable {content : Nat → Nat → PyFs R T} {kernel : DType → Kernel R T} {env : DType → Env R T} {s : PySession}
  {v : Values R T}

theorem Agrees.space (h : Agrees kernel s v) (c : PyCall) : SameStep content kernel env s v (.space c) := by
  obtain ⟨p, e, hb⟩ := h.booked.call c
  refine ⟨{ s with py := p }, { v with ledger := (v.ledger.call c).1 },
    fun r => r = if (v.ledger.call c).2 then .raised else .ok .nothing, { h with booked := hb }, fun t r => ?_,
    fun w r => Iff.rfl, ?_⟩
  · unfold SessionCall.Step
    dsimp only
    rw [e]
    by_cases hc : (v.ledger.call c).2 = true
    · simp only [hc, if_true]
    · simp only [hc, if_false, Bool.false_eq_true]
  · split <;> simp

theorem Agrees.newOptions (h : Agrees kernel s v) : SameStep content kernel env s v .newOptions := by
  refine ⟨_, _, fun r => r = .ok .nothing, ?_, fun t r => Iff.rfl, fun w r => Iff.rfl, by simp⟩
  have hfr : ∀ {p o}, s.heap.live p = some o → p ≠ s.heap.next := by
    rintro p o hp rfl
    rw [h.fresh _ (Nat.le_refl _)] at hp
    cases hp
  constructor
  · exact h.booked
  · exact congrArg (· + 1) h.nextO
  · exact h.nextA
  · intro i
    dsimp only [AsmHeap.alloc]
    rw [h.nextO]
    by_cases hi : i = v.nextOptions
    · rw [if_pos hi, if_pos hi]
      exact Or.inr ⟨_, _, rfl, rfl, if_pos rfl, keys_default⟩
    · rw [if_neg hi, if_neg hi]
      rcases h.opts i with h1 | ⟨x, o, h1, h2, h3, h4⟩
      · exact Or.inl h1
      · exact Or.inr ⟨x, o, h1, h2, by rw [if_neg (hfr h3)]; exact h3, h4⟩
  · intro k
    dsimp only [AsmHeap.alloc]
    rcases h.asms k with h1 | ⟨y, a, op, d, x, o, h1, h2, h3, h4, h5, h6, h7⟩
    · exact Or.inl h1
    · refine Or.inr ⟨y, a, op, d, x, o, h1, h2, ?_, h4, ?_, ?_, h7⟩
      · rw [if_neg]
        · exact h3
        · intro hk
          rw [h.freshO _ (Nat.le_of_eq hk.symm)] at h3
          cases h3
      · rw [if_neg (hfr h5)]; exact h5
      · rw [if_neg (hfr h6)]; exact h6
  · intro i j x y hx hy e
    dsimp only [AsmHeap.alloc] at hx hy
    split at hx <;> split at hy
    · omega
    · rcases h.opts j with h1 | ⟨z, o, h1, h2, h3, h4⟩
      · rw [h1.1] at hy; cases hy
      · rw [h1] at hy
        cases hx; cases hy
        exact absurd e.symm (hfr h3)
    · rcases h.opts i with h1 | ⟨z, o, h1, h2, h3, h4⟩
      · rw [h1.1] at hx; cases hx
      · rw [h1] at hx
        cases hx; cases hy
        exact absurd e (hfr h3)
    · exact h.injO i j x y hx hy e
  · exact h.injA
  · intro p hp
    dsimp only [AsmHeap.alloc] at hp ⊢
    rw [if_neg (by omega)]
    exact h.fresh p (by omega)
  · intro i hi
    dsimp only at hi ⊢
    rw [if_neg (by omega)]
    exact h.freshO i (by omega)
  · intro i hi
    dsimp only at hi ⊢
    split
    · simp
    · exact h.usedO i (by omega)
  · exact h.freshA
  · intro p o hp
    dsimp only [AsmHeap.alloc] at hp ⊢
    split at hp
    · rename_i hpp
      exact ⟨s.nextOptions, _, if_pos rfl, hpp.symm⟩
    · obtain ⟨i, x, hx, e⟩ := h.aliveO p o hp
      refine ⟨i, x, ?_, e⟩
      rw [if_neg]
      · exact hx
      · intro hk
        rw [h.freshO _ (Nat.le_of_eq hk.symm)] at hx
        cases hx
  · intro p op d q hp
    dsimp only [AsmHeap.alloc] at hp ⊢
    split at hp
    · simp at hp
    · exact h.aliveA p op d q hp

/-- The two setters. -/
theorem Agrees.setOption (h : Agrees kernel s v) (i : Nat) {has : Options → Bool} {b : Bool} {set : Options → Options}
    (hb : ∀ o, o.Keys → has o = b) (hs : ∀ o, o.Keys → (set o).Keys) {c : SessionCall}
    (e1 : ∀ t r, c.Step content kernel env s t r ↔ (t, r) = s.setOption i has set)
    (e2 : ∀ w r, c.Means content kernel env v w r ↔ (w, r) = v.setOption i b set) :
    SameStep content kernel env s v c := by
  have stay : s.setOption (T := T) i has set = (s, .raised) → v.setOption i b set = (v, .raised) →
      SameStep content kernel env s v c := by
    intro h1 h2
    refine ⟨s, v, fun r => r = .raised, h, fun t r => ?_, fun w r => ?_, by simp⟩
    · rw [e1, h1, Prod.mk.injEq]
    · rw [e2, h2, Prod.mk.injEq]
  rcases h.opts i with ⟨h1, h2⟩ | ⟨x, o, h1, h2, h3, h4⟩
  · refine stay ?_ ?_
    · unfold PySession.setOption; rw [h1]
    · unfold Values.setOption; rw [h2]
  · by_cases hr : x.readOnly = true
    · refine stay ?_ ?_
      · unfold PySession.setOption; rw [h1]; simp [hr]
      · unfold Values.setOption; rw [h2, hr]; rfl
    · rw [Bool.not_eq_true] at hr
      by_cases hbb : b = true
      · subst hbb
        have E1 : s.setOption (T := T) i has set =
            ({ s with heap := s.heap.store x.rs (.options (set o)) }, .ok .nothing) := by
          unfold PySession.setOption AsmHeap.readOptions
          simp [h1, hr, h3, hb o h4]
        have E2 : v.setOption i true set =
            ({ v with options := fun j => if j = i then some (set o, true) else v.options j }, .ok .nothing) := by
          unfold Values.setOption
          rw [h2, hr]
          rfl
        refine ⟨_, _, fun r => r = .ok .nothing, ?_, fun t r => by rw [e1, E1, Prod.mk.injEq],
          fun w r => by rw [e2, E2, Prod.mk.injEq], by simp⟩
        have other : ∀ {p a}, s.heap.live p = some a → p ≠ x.rs →
            (s.heap.store x.rs (.options (set o))).live p = some a := by
          intro p a hp hne
          unfold AsmHeap.store
          dsimp only
          rw [if_neg hne]
          exact hp
        have inv : ∀ {p a}, (s.heap.store x.rs (.options (set o))).live p = some a →
            (p = x.rs ∧ a = .options (set o)) ∨ (p ≠ x.rs ∧ s.heap.live p = some a) := by
          intro p a hp
          unfold AsmHeap.store at hp
          dsimp only at hp
          split at hp
          · rename_i hpp
            cases hp
            exact Or.inl ⟨hpp, rfl⟩
          · rename_i hpp
            exact Or.inr ⟨hpp, hp⟩
        constructor
        · exact h.booked
        · exact h.nextO
        · exact h.nextA
        · intro j
          dsimp only
          by_cases hj : j = i
          · subst hj
            rw [if_pos rfl]
            exact Or.inr ⟨x, set o, h1, by rw [hr]; rfl, if_pos rfl, hs o h4⟩
          · rw [if_neg hj]
            rcases h.opts j with k | ⟨x', o', k1, k2, k3, k4⟩
            · exact Or.inl k
            · refine Or.inr ⟨x', o', k1, k2, other k3 ?_, k4⟩
              intro e
              exact hj (h.injO j i x' x k1 h1 e)
        · intro k
          rcases h.asms k with k1 | ⟨y, a, op, d, x', o', k1, k2, k3, k4, k5, k6, k7⟩
          · exact Or.inl k1
          · refine Or.inr ⟨y, a, op, d, x', o', k1, k2, k3, k4, other k5 ?_, other k6 ?_, k7⟩
            · intro e
              rw [e, h3] at k5
              cases k5
            · intro e
              have := h.injO _ i x' x k3 h1 e
              rw [this, h1] at k3
              cases k3
              rw [hr] at k4
              cases k4
        · exact h.injO
        · exact h.injA
        · intro p hp
          have hne : p ≠ x.rs := by
            intro e
            rw [← e, h.fresh p hp] at h3
            cases h3
          unfold AsmHeap.store
          dsimp only
          rw [if_neg hne]
          exact h.fresh p hp
        · exact h.freshO
        · exact h.usedO
        · exact h.freshA
        · intro p a hp
          rcases inv hp with ⟨e, -⟩ | ⟨-, e⟩
          · exact ⟨i, x, h1, e.symm⟩
          · exact h.aliveO p a e
        · intro p op d q hp
          rcases inv hp with ⟨-, e⟩ | ⟨-, e⟩
          · cases e
          · exact h.aliveA p op d q e
      · rw [Bool.not_eq_true] at hbb
        subst hbb
        refine stay ?_ ?_
        · unfold PySession.setOption AsmHeap.readOptions
          simp [h1, hr, h3, hb o h4]
        · unfold Values.setOption
          rw [h2, hr]
          rfl

omit [Zero T] [Zero R] [Mul R] in
/-- The getters. -/
theorem Agrees.getOption (h : Agrees kernel s v) (i : Nat) (get : Options → Option Nat) :
    s.getOption (T := T) i get = v.getOption i get ∧ v.getOption i get ≠ .undefined := by
  rcases h.opts i with ⟨h1, h2⟩ | ⟨x, o, h1, h2, h3, h4⟩
  · unfold PySession.getOption Values.getOption
    rw [h1, h2]
    simp
  · unfold PySession.getOption Values.getOption AsmHeap.readOptions
    rw [h1, h2]
    dsimp only
    rw [h3]
    cases hg : get o with
    | none => exact ⟨by simp [bind, Ffi.bind, hg], by simp⟩
    | some n => exact ⟨by simp [bind, Ffi.bind, hg, Ffi.rust, pure], by simp⟩

omit [Zero T] [Zero R] [Mul R] in
theorem createLaplaceAssembler_cases (k : Kernel R T) (op : PyOperator) (o : Options) (d : DType) :
    (∃ a, createLaplaceAssembler k op o d = .ok a) ∨ createLaplaceAssembler k op o d = .panic := by
  unfold createLaplaceAssembler
  split
  · exact Or.inr rfl
  · cases op <;> first | exact Or.inr rfl | exact Or.inl ⟨_, rfl⟩

theorem Agrees.createLaplace (h : Agrees kernel s v) (op : PyOperator) (i : Nat) (d : Option DType) :
    SameStep content kernel env s v (.createLaplace op i d) := by
  have stay : ∀ r₀ : Ffi (PyValue T), r₀ ≠ .undefined → s.createLaplace kernel op i d = (s, r₀) →
      (∀ w r, (SessionCall.createLaplace op i d).Means content kernel env v w r ↔ w = v ∧ r = r₀) →
      SameStep content kernel env s v (.createLaplace op i d) := by
    intro r₀ hr h1 h2
    refine ⟨s, v, fun r => r = r₀, h, fun t r => ?_, h2, fun e => hr e.symm⟩
    change (t, r) = _ ↔ _
    rw [h1, Prod.mk.injEq]
  rcases h.opts i with ⟨h1, h2⟩ | ⟨x, o, h1, h2, h3, h4⟩
  · refine stay .raised (by simp) ?_ fun w r => ?_
    · unfold PySession.createLaplace; rw [h1]
    · simp only [SessionCall.Means, h2]
  · cases d with
    | none =>
      refine stay .raised (by simp) ?_ fun w r => ?_
      · unfold PySession.createLaplace; rw [h1]
      · simp only [SessionCall.Means, h2]
    | some d =>
      rcases createLaplaceAssembler_cases (kernel d) op o d with ⟨a, ha⟩ | ha
      · have hfr : ∀ {p o}, s.heap.live p = some o → p ≠ s.heap.next := by
          rintro p o hp rfl
          rw [h.fresh _ (Nat.le_refl _)] at hp
          cases hp
        have E : s.createLaplace kernel op i (some d) = ({ s with
              heap := (s.heap.alloc (.assembler op d x.rs)).1
              options := fun j => if j = i then some { x with readOnly := true } else s.options j
              assemblers := fun k => if k = s.nextAssembler then some ⟨i, s.heap.next⟩ else s.assemblers k
              nextAssembler := s.nextAssembler + 1 }, .ok .nothing) := by
          unfold PySession.createLaplace AsmHeap.readOptions
          simp only [h1, h3, ha]
          rfl
        refine ⟨{ s with
              heap := (s.heap.alloc (.assembler op d x.rs)).1
              options := fun j => if j = i then some { x with readOnly := true } else s.options j
              assemblers := fun k => if k = s.nextAssembler then some ⟨i, s.heap.next⟩ else s.assemblers k
              nextAssembler := s.nextAssembler + 1 }, { v with
            options := fun j => if j = i then some (o, false) else v.options j
            assemblers := fun k => if k = v.nextAssembler then some a else v.assemblers k
            nextAssembler := v.nextAssembler + 1 }, fun r => r = .ok .nothing, ?_, fun t r => ?_, fun w r => ?_,
            by simp⟩
        rotate_left
        · change (t, r) = _ ↔ _
          rw [E, Prod.mk.injEq]
        · simp only [SessionCall.Means, h2, ha]
        constructor
        · exact h.booked
        · exact h.nextO
        · exact congrArg (· + 1) h.nextA
        · intro j
          dsimp only [AsmHeap.alloc]
          by_cases hj : j = i
          · rw [if_pos hj, if_pos hj]
            exact Or.inr ⟨_, o, rfl, rfl, by dsimp only; rw [if_neg (hfr h3)]; exact h3, h4⟩
          · rw [if_neg hj, if_neg hj]
            rcases h.opts j with k | ⟨x', o', k1, k2, k3, k4⟩
            · exact Or.inl k
            · exact Or.inr ⟨x', o', k1, k2, by rw [if_neg (hfr k3)]; exact k3, k4⟩
        · intro k
          dsimp only [AsmHeap.alloc]
          rw [h.nextA]
          by_cases hk : k = v.nextAssembler
          · rw [if_pos hk, if_pos hk]
            refine Or.inr ⟨_, a, op, d, { x with readOnly := true }, o, rfl, rfl, if_pos rfl, rfl, if_pos rfl, ?_, ha⟩
            dsimp only
            rw [if_neg (hfr h3)]
            exact h3
          · rw [if_neg hk, if_neg hk]
            rcases h.asms k with k1 | ⟨y, a', op', d', x', o', k1, k2, k3, k4, k5, k6, k7⟩
            · exact Or.inl k1
            · by_cases hi : y.options = i
              · rw [hi, h1] at k3
                cases k3
                refine Or.inr ⟨y, a', op', d', { x with readOnly := true }, o', k1, k2, if_pos hi, rfl, ?_, ?_, k7⟩
                · rw [if_neg (hfr k5)]; exact k5
                · dsimp only; rw [if_neg (hfr k6)]; exact k6
              · refine Or.inr ⟨y, a', op', d', x', o', k1, k2, by rw [if_neg hi]; exact k3, k4, ?_, ?_, k7⟩
                · rw [if_neg (hfr k5)]; exact k5
                · rw [if_neg (hfr k6)]; exact k6
        · intro j k y z hy hz e
          dsimp only at hy hz
          split at hy <;> split at hz
          · omega
          · rename_i hj _
            cases hy
            rw [hj]
            exact h.injO i k x z h1 hz e
          · rename_i _ hk
            cases hz
            rw [hk]
            exact h.injO j i y x hy h1 e
          · exact h.injO j k y z hy hz e
        · intro j k y z hy hz e
          dsimp only at hy hz
          have old : ∀ {n w}, s.assemblers n = some w → w.rs ≠ s.heap.next := by
            intro n w hn
            rcases h.asms n with k1 | ⟨y, a', op', d', x', o', k1, k2, k3, k4, k5, k6, k7⟩
            · rw [k1.1] at hn; cases hn
            · rw [k1] at hn
              cases hn
              exact hfr k5
          split at hy <;> split at hz
          · omega
          · cases hy
            exact absurd e.symm (old hz)
          · cases hz
            exact absurd e (old hy)
          · exact h.injA j k y z hy hz e
        · intro p hp
          dsimp only [AsmHeap.alloc] at hp ⊢
          rw [if_neg (by omega)]
          exact h.fresh p (by omega)
        · intro j hj
          dsimp only at hj ⊢
          rw [if_neg]
          · exact h.freshO j hj
          · rintro rfl
            rw [h.freshO j hj] at h1
            cases h1
        · intro j hj
          dsimp only at hj ⊢
          split
          · simp
          · exact h.usedO j hj
        · intro k hk
          dsimp only at hk ⊢
          rw [if_neg (by omega)]
          exact h.freshA k (by omega)
        · intro p o' hp
          dsimp only [AsmHeap.alloc] at hp ⊢
          split at hp
          · cases hp
          · obtain ⟨j, y, hy, e⟩ := h.aliveO p o' hp
            by_cases hj : j = i
            · rw [hj, h1] at hy
              cases hy
              exact ⟨i, _, if_pos rfl, e⟩
            · exact ⟨j, y, by rw [if_neg hj]; exact hy, e⟩
        · intro p op' d' q hp
          dsimp only [AsmHeap.alloc] at hp ⊢
          split at hp
          · rename_i hpp
            exact ⟨s.nextAssembler, _, if_pos rfl, hpp.symm⟩
          · obtain ⟨k, y, hy, e⟩ := h.aliveA p op' d' q hp
            refine ⟨k, y, ?_, e⟩
            rw [if_neg]
            · exact hy
            · intro hk
              rw [h.freshA _ (Nat.le_of_eq hk.symm)] at hy
              cases hy
      · refine stay .panic (by simp) ?_ fun w r => ?_
        · unfold PySession.createLaplace AsmHeap.readOptions
          simp only [h1, h3, ha]
        · simp only [SessionCall.Means, h2, ha]

theorem Agrees.deleteAssembler (h : Agrees kernel s v) (k : Nat) :
    SameStep content kernel env s v (.deleteAssembler k) := by
  rcases h.asms k with ⟨k1, k2⟩ | ⟨y, a, op, d, x, o, k1, k2, k3, k4, k5, k6, k7⟩
  · refine ⟨s, v, fun r => r = .raised, h, fun t r => ?_, fun w r => ?_, by simp⟩
    · simp only [SessionCall.Step, k1]
    · simp only [SessionCall.Means, k2, Option.isSome_none, Bool.false_eq_true, if_false]
      have : (fun j => if j = k then none else v.assemblers j) = v.assemblers := by
        funext j
        split
        · rename_i hj
          rw [hj, k2]
        · rfl
      rw [this]
  · have old : ∀ {n w}, s.assemblers n = some w → n ≠ k → w.rs ≠ y.rs := fun {n w} hn hne e =>
      hne (h.injA n k w y hn k1 e)
    have oldO : ∀ {n w}, s.options n = some w → w.rs ≠ y.rs := by
      intro n w hn e
      rcases h.opts n with h1 | ⟨x', o', h1, h2, h3, h4⟩
      · rw [h1.1] at hn; cases hn
      · rw [h1] at hn
        cases hn
        rw [e, k5] at h3
        cases h3
    refine ⟨{ s with
          heap := { s.heap with live := fun q => if q = y.rs then none else s.heap.live q }
          assemblers := fun j => if j = k then none else s.assemblers j },
        { v with assemblers := fun j => if j = k then none else v.assemblers j }, fun r => r = .ok .nothing, ?_,
        fun t r => ?_, fun w r => ?_, by simp⟩
    rotate_left
    · simp only [SessionCall.Step, k1, AsmHeap.free, k5]
    · simp only [SessionCall.Means, k2, Option.isSome_some, if_true]
    constructor
    · exact h.booked
    · exact h.nextO
    · exact h.nextA
    · intro i
      rcases h.opts i with h1 | ⟨x', o', h1, h2, h3, h4⟩
      · exact Or.inl h1
      · exact Or.inr ⟨x', o', h1, h2, by dsimp only; rw [if_neg (oldO h1)]; exact h3, h4⟩
    · intro n
      dsimp only
      by_cases hn : n = k
      · rw [if_pos hn, if_pos hn]
        exact Or.inl ⟨rfl, rfl⟩
      · rw [if_neg hn, if_neg hn]
        rcases h.asms n with m1 | ⟨y', a', op', d', x', o', m1, m2, m3, m4, m5, m6, m7⟩
        · exact Or.inl m1
        · refine Or.inr ⟨y', a', op', d', x', o', m1, m2, m3, m4, ?_, ?_, m7⟩
          · rw [if_neg (old m1 hn)]; exact m5
          · rw [if_neg (oldO m3)]; exact m6
    · exact h.injO
    · intro j n w z hw hz e
      dsimp only at hw hz
      split at hw
      · cases hw
      · split at hz
        · cases hz
        · exact h.injA j n w z hw hz e
    · intro p hp
      dsimp only
      split
      · rfl
      · exact h.fresh p hp
    · exact h.freshO
    · exact h.usedO
    · intro n hn
      dsimp only
      split
      · rfl
      · exact h.freshA n hn
    · intro p o' hp
      dsimp only at hp
      split at hp
      · cases hp
      · exact h.aliveO p o' hp
    · intro p op' d' q hp
      dsimp only at hp ⊢
      split at hp
      · cases hp
      · rename_i hpp
        obtain ⟨n, z, hz, e⟩ := h.aliveA p op' d' q hp
        refine ⟨n, z, ?_, e⟩
        rw [if_neg]
        · exact hz
        · intro hn
          rw [hn, k1] at hz
          cases hz
          exact hpp e.symm

theorem Agrees.dtype (h : Agrees kernel s v) (k : Nat) : SameStep content kernel env s v (.dtype k) := by
  rcases h.asms k with ⟨k1, k2⟩ | ⟨y, a, op, d, x, o, k1, k2, k3, k4, k5, k6, k7⟩
  · refine ⟨s, v, fun r => r = .raised, h, fun t r => ?_, fun w r => ?_, by simp⟩
    · simp only [SessionCall.Step, k1]
    · simp only [SessionCall.Means, k2]
  · have hd : a.dtype = d := by
      unfold createLaplaceAssembler at k7
      split at k7
      · cases k7
      · cases op <;> cases k7 <;> rfl
    refine ⟨s, v, fun r => r = .ok (.dtype d), h, fun t r => ?_, fun w r => ?_, by simp⟩
    · simp only [SessionCall.Step, k1, k5]
    · simp only [SessionCall.Means, k2, hd]

omit [Zero T] [Zero R] [Mul R] in
theorem Agrees.readSpace (h : Agrees kernel s v) (k : Nat) :
    s.readSpace content k = match v.space content k with | some x => .ok x | none => .raised := by
  unfold PySession.readSpace Values.space
  rw [← h.booked.spaces]
  have e : (s.py.spaces.map fun e => (e.1, e.2.grid, e.2.family)).lookup k =
      (s.py.spaces.get? k).map fun x => (x.grid, x.family) := by
    unfold Map.get?
    induction s.py.spaces with
    | nil => rfl
    | cons e l ih =>
      rw [List.map_cons, List.lookup_cons, List.lookup_cons]
      by_cases h2 : (k == e.1) = true
      · rw [h2]; rfl
      · rw [Bool.eq_false_iff.mpr h2]; exact ih
  rw [e, use_good h.booked.good]
  cases s.py.spaces.get? k <;> rfl

omit [Zero T] [Zero R] [Mul R] in
theorem Agrees.readArguments (h : Agrees kernel s v) (k trial test : Nat) :
    s.readArguments content kernel k trial test =
      match v.assemblers k, v.space content trial, v.space content test with
      | some a, some x, some y => .ok (a, x, y)
      | _, _, _ => .raised := by
  unfold PySession.readArguments
  rw [h.readSpace, h.readSpace]
  rcases h.asms k with ⟨k1, k2⟩ | ⟨y, a, op, d, x, o, k1, k2, k3, k4, k5, k6, k7⟩
  · rw [k1, k2]
  · rw [k1, k2]
    dsimp only
    have : s.heap.readAssembler kernel y.rs = .ok a := by
      unfold AsmHeap.readAssembler AsmHeap.readOptions
      rw [k5]
      dsimp only
      rw [k6]
      exact k7
    rw [this]
    cases v.space content trial <;> cases v.space content test <;> rfl

theorem checkDtypes_cases (a d e : DType) : checkDtypes a d e = .ok () ∨ checkDtypes a d e = .raised := by
  cases a <;> cases d <;> cases e <;> first | exact Or.inl rfl | exact Or.inr rfl

omit [Sub T] [Div T] [Neg T] in
theorem pyAssemble_defined (e : Env R T) (a : PyAssembler R T) (x y : PyFs R T) : ¬ PyAssemble e a x y .undefined := by
  unfold PyAssemble
  cases hc : checkDtypes a.dtype x.dtype y.dtype with
  | raised => simp
  | panic => simp
  | undefined =>
    rcases checkDtypes_cases a.dtype x.dtype y.dtype with e | e <;> rw [hc] at e <;> cases e
  | ok u =>
    dsimp only
    split
    · simp
    · rw [if_neg]
      · rintro ⟨o, -, e⟩
        cases o <;> cases e
      · simp [NpArray.zerosF]

omit [Sub T] [Div T] [Neg T] in
theorem pyAssembleSingular_defined (e : Env R T) (a : PyAssembler R T) (x y : PyFs R T) :
    ¬ PyAssembleSingular e a x y .undefined := by
  unfold PyAssembleSingular
  cases hc : checkDtypes a.dtype x.dtype y.dtype with
  | raised => simp
  | panic => simp
  | undefined =>
    rcases checkDtypes_cases a.dtype x.dtype y.dtype with e | e <;> rw [hc] at e <;> cases e
  | ok u =>
    dsimp only
    split
    · simp
    · rintro ⟨m, -, e⟩
      cases m with
      | none => cases e
      | some m =>
        dsimp only at e
        rw [convertToScipy_some] at e
        cases e

/-- Every call does the same thing in both. -/
theorem Agrees.step (h : Agrees kernel s v) (c : SessionCall) : SameStep content kernel env s v c := by
  cases c with
  | space c => exact h.space c
  | newOptions => exact h.newOptions
  | setRegular i t n =>
    exact h.setOption i (fun o ho => ho.regular t) (fun o ho => ho.setRegular t n) (fun _ _ => Iff.rfl) fun _ _ => Iff.rfl
  | setSingular i t0 t1 n =>
    exact h.setOption i (fun o ho => ho.singular t0 t1) (fun o ho => ho.setSingular (t0, t1) n) (fun _ _ => Iff.rfl)
      fun _ _ => Iff.rfl
  | setBatch i n =>
    exact h.setOption i (fun o ho => rfl) (fun o ho => ho.setBatch n) (fun _ _ => Iff.rfl) fun _ _ => Iff.rfl
  | getRegular i t =>
    obtain ⟨e, d⟩ := h.getOption i (·.getRegularQuadratureDegree t)
    exact ⟨s, v, _, h, fun _ _ => by rw [← e]; exact Iff.rfl, fun _ _ => Iff.rfl, fun k => d k.symm⟩
  | getSingular i t0 t1 =>
    obtain ⟨e, d⟩ := h.getOption i (·.getSingularQuadratureDegree (t0, t1))
    exact ⟨s, v, _, h, fun _ _ => by rw [← e]; exact Iff.rfl, fun _ _ => Iff.rfl, fun k => d k.symm⟩
  | getBatch i =>
    obtain ⟨e, d⟩ := h.getOption i (fun o => some o.getBatchSize)
    exact ⟨s, v, _, h, fun _ _ => by rw [← e]; exact Iff.rfl, fun _ _ => Iff.rfl, fun k => d k.symm⟩
  | createLaplace op i d => exact h.createLaplace op i d
  | deleteAssembler k => exact h.deleteAssembler k
  | dtype k => exact h.dtype k
  | assemble k trial test =>
    refine ⟨s, v, _, h, fun _ _ => Iff.rfl, fun w r => ?_, ?_⟩
    · rw [h.readArguments]
      unfold SessionCall.Means
      dsimp only
      cases v.assemblers k <;> cases v.space content trial <;> cases v.space content test <;> exact Iff.rfl
    · rw [h.readArguments]
      cases v.assemblers k <;> cases v.space content trial <;> cases v.space content test <;>
        first
        | (intro e; cases e; done)
        | skip
      rintro ⟨out, ho, e⟩
      cases out <;> first | (cases e; done) | exact pyAssemble_defined _ _ _ _ ho
  | assembleSingular k trial test =>
    refine ⟨s, v, _, h, fun _ _ => Iff.rfl, fun w r => ?_, ?_⟩
    · rw [h.readArguments]
      unfold SessionCall.Means
      dsimp only
      cases v.assemblers k <;> cases v.space content trial <;> cases v.space content test <;> exact Iff.rfl
    · rw [h.readArguments]
      cases v.assemblers k <;> cases v.space content trial <;> cases v.space content test <;>
        first
        | (intro e; cases e; done)
        | skip
      rintro ⟨out, ho, e⟩
      cases out <;> first | (cases e; done) | exact pyAssembleSingular_defined _ _ _ _ ho
  | assembleSingularCorrection k trial test =>
    refine ⟨s, v, fun r => r = .raised, h, fun t r => ?_, fun w r => Iff.rfl, by simp⟩
    unfold SessionCall.Step
    dsimp only
    rw [h.readArguments]
    cases v.assemblers k with
    | none => exact Iff.rfl
    | some a =>
      cases v.space content trial with
      | none => exact Iff.rfl
      | some x =>
        cases v.space content test with
        | none => exact Iff.rfl
        | some y =>
          dsimp only
          rcases checkDtypes_cases a.dtype x.dtype y.dtype with e | e <;> rw [e]

/-- Whole sessions, from the objects to the values. -/
theorem Agrees.runs (h : Agrees kernel s v) {calls : List SessionCall} {s' : PySession} {rs : List (Ffi (PyValue T))}
    (hr : SessionRuns content kernel env s calls s' rs) :
    ∃ v', SessionMeans content kernel env v calls v' rs ∧ Agrees kernel s' v' ∧ ∀ r ∈ rs, r ≠ .undefined := by
  induction hr generalizing v with
  | nil s => exact ⟨v, .nil v, h, fun r hr => by cases hr⟩
  | @returned s s1 s2 c cs r rs hc hne _ ih =>
    obtain ⟨t, w, P, ha, e1, e2, hu⟩ := h.step (content := content) (env := env) c
    obtain ⟨rfl, hp⟩ := (e1 _ _).mp hc
    obtain ⟨v', hm, ha', hd⟩ := ih ha
    refine ⟨v', .returned ((e2 _ _).mpr ⟨rfl, hp⟩) hne hm, ha', fun q hq => ?_⟩
    rcases List.mem_cons.mp hq with rfl | hq
    · exact hne.2
    · exact hd q hq
  | @ended s s1 c cs r hc hne =>
    obtain ⟨t, w, P, ha, e1, e2, hu⟩ := h.step (content := content) (env := env) c
    obtain ⟨rfl, hp⟩ := (e1 _ _).mp hc
    refine ⟨w, .ended ((e2 _ _).mpr ⟨rfl, hp⟩) hne, ha, fun q hq => ?_⟩
    rw [List.mem_singleton] at hq
    subst hq
    rintro rfl
    exact hu hp

/-- Whole sessions, from the values to the objects. -/
theorem Agrees.means (h : Agrees kernel s v) {calls : List SessionCall} {v' : Values R T} {rs : List (Ffi (PyValue T))}
    (hr : SessionMeans content kernel env v calls v' rs) :
    ∃ s', SessionRuns content kernel env s calls s' rs ∧ Agrees kernel s' v' := by
  induction hr generalizing s with
  | nil v => exact ⟨s, .nil s, h⟩
  | @returned v s1 s2 c cs r rs hc hne _ ih =>
    obtain ⟨t, w, P, ha, e1, e2, hu⟩ := h.step (content := content) (env := env) c
    obtain ⟨rfl, hp⟩ := (e2 _ _).mp hc
    obtain ⟨v', hm, ha'⟩ := ih ha
    exact ⟨v', .returned ((e1 _ _).mpr ⟨rfl, hp⟩) hne hm, ha'⟩
  | @ended v s1 c cs r hc hne =>
    obtain ⟨t, w, P, ha, e1, e2, hu⟩ := h.step (content := content) (env := env) c
    obtain ⟨rfl, hp⟩ := (e2 _ _).mp hc
    exact ⟨t, .ended ((e1 _ _).mpr ⟨rfl, hp⟩) hne, ha⟩

end Bempp
