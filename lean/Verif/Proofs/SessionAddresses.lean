import Verif.Spec.SessionAddresses
import Verif.Proofs.Session
/-
For C116: a session with an allocator goes along with the session in which every object has a new address. The addresses differ by a renaming.
-/
set_option linter.unusedVariables false
set_option linter.unusedSectionVars false
namespace Bempp

/-- The same objects at other addresses. -/
structure Renamed {α : Type} (ren : (Nat → Nat) → α → α) (σ : Nat → Nat) (l l' : Nat → Option α) : Prop where
  map : ∀ p o, l p = some o → l' (σ p) = some (ren σ o)
  inj : ∀ p q, l p ≠ none → l q ≠ none → σ p = σ q → p = q
  onto : ∀ q, l' q ≠ none → ∃ p, l p ≠ none ∧ σ p = q

section
variable {α : Type} {ren : (Nat → Nat) → α → α} {σ : Nat → Nat} {l l' : Nat → Option α}

theorem Renamed.isSome (h : Renamed ren σ l l') {p : Nat} (hp : l p ≠ none) : l' (σ p) ≠ none := by
  obtain ⟨o, ho⟩ := Option.ne_none_iff_exists'.mp hp
  rw [h.map p o ho]
  simp

theorem Renamed.alloc (h : Renamed ren σ l l') {n q : Nat} (hn : l n = none) (hq : l' q = none) {σ' : Nat → Nat} (hσ : σ' n = q)
    (hσ' : ∀ p, l p ≠ none → σ' p = σ p) (hr : ∀ p x, l p = some x → ren σ' x = ren σ x) (o : α) :
    Renamed ren σ' (fun p => if p = n then some o else l p) (fun p => if p = q then some (ren σ' o) else l' p) := by
  have old : ∀ p, l p ≠ none → σ p ≠ q := fun p hp e => h.isSome hp (e ▸ hq)
  constructor
  · intro p x hp
    split at hp
    · rename_i e
      cases hp
      rw [e, hσ, if_pos rfl]
    · have hl : l p ≠ none := by rw [hp]; simp
      rw [hσ' p hl, if_neg (old p hl), h.map p x hp, hr p x hp]
  · intro p p' hp hp' e
    split at hp <;> split at hp'
    · omega
    · rename_i e1 _
      rw [e1, hσ, hσ' p' hp'] at e
      exact absurd e.symm (old p' hp')
    · rename_i _ e1
      rw [e1, hσ, hσ' p hp] at e
      exact absurd e (old p hp)
    · rw [hσ' p hp, hσ' p' hp'] at e
      exact h.inj p p' hp hp' e
  · intro x hx
    split at hx
    · rename_i e
      exact ⟨n, by simp, hσ.trans e.symm⟩
    · obtain ⟨p, hp, e⟩ := h.onto x hx
      refine ⟨p, ?_, (hσ' p hp).trans e⟩
      split
      · simp
      · exact hp

theorem Renamed.free (h : Renamed ren σ l l') {p : Nat} (hp : l p ≠ none) :
    Renamed ren σ (fun q => if q = p then none else l q) (fun q => if q = σ p then none else l' q) := by
  constructor
  · intro q x hq
    split at hq
    · cases hq
    · rename_i hne
      have hl : l q ≠ none := by rw [hq]; simp
      rw [if_neg fun e => hne (h.inj q p hl hp e)]
      exact h.map q x hq
  · intro a b ha hb e
    split at ha <;> split at hb
    · omega
    · exact absurd rfl ha
    · exact absurd rfl hb
    · exact h.inj a b ha hb e
  · intro x hx
    split at hx
    · exact absurd rfl hx
    · rename_i hne
      obtain ⟨q, hq, e⟩ := h.onto x hx
      refine ⟨q, ?_, e⟩
      rw [if_neg]
      · exact hq
      · rintro rfl
        exact hne e.symm

theorem Renamed.store (h : Renamed ren σ l l') {p : Nat} (hp : l p ≠ none) (o : α) :
    Renamed ren σ (fun q => if q = p then some o else l q) (fun q => if q = σ p then some (ren σ o) else l' q) := by
  constructor
  · intro q x hq
    split at hq
    · rename_i e
      cases hq
      rw [e, if_pos rfl]
    · rename_i hne
      have hl : l q ≠ none := by rw [hq]; simp
      rw [if_neg fun e => hne (h.inj q p hl hp e)]
      exact h.map q x hq
  · intro a b ha hb e
    have some' : ∀ a, (if a = p then some o else l a) ≠ none → l a ≠ none := by
      intro a ha
      split at ha
      · rename_i e; rw [e]; exact hp
      · exact ha
    exact h.inj a b (some' a ha) (some' b hb) e
  · intro x hx
    split at hx
    · rename_i e
      exact ⟨p, by simp, e.symm⟩
    · obtain ⟨q, hq, e⟩ := h.onto x hx
      refine ⟨q, ?_, e⟩
      split
      · simp
      · exact hq

theorem Renamed.finite (h : Renamed ren σ l l') {n : Nat} (hn : ∀ p, n ≤ p → l p = none) : {q | l' q ≠ none}.Finite := by
  refine ((Set.finite_lt_nat n).image σ).subset ?_
  intro q hq
  obtain ⟨p, hp, e⟩ := h.onto q hq
  refine ⟨p, ?_, e⟩
  by_contra hc
  exact hp (hn p (by simpa using hc))
end

/-- Other addresses in an object. -/
def RustObj.ren (σ : Nat → Nat) : RustObj → RustObj
  | .grid => .grid
  | .family => .family
  | .space a b => .space (σ a) (σ b)

def Shared.ren (σ : Nat → Nat) (a : Shared) : Shared := { a with rs := a.rs.map σ }

def PySpace.ren (σ : Nat → Nat) (x : PySpace) : PySpace := { x with rsSpace := σ x.rsSpace }

/-- The two memories. -/
structure HeapSim (σ : Nat → Nat) (h h' : RustHeap) : Prop where
  ren : Renamed RustObj.ren σ h.live h'.live
  fresh : ∀ p, h.next ≤ p → h.live p = none
  inside : ∀ p a b, h.live p = some (.space a b) → a < h.next ∧ b < h.next

/-- The attributes of a grid or family. -/
structure SharedSim (σ : Nat → Nat) (n : Nat) (a b : Shared) : Prop where
  ren : b = a.ren σ
  inside : ∀ p, a.rs = some p → p < n

theorem SharedSim.mono {σ σ' : Nat → Nat} {n n' : Nat} {a b : Shared} (h : SharedSim σ n a b) (hσ : ∀ p, p < n → σ' p = σ p) (hn : n ≤ n') :
    SharedSim σ' n' a b := by
  refine ⟨?_, fun p hp => Nat.lt_of_lt_of_le (h.inside p hp) hn⟩
  rw [h.ren]
  unfold Shared.ren
  cases e : a.rs with
  | none => rfl
  | some p => rw [Option.map_some, Option.map_some, hσ p (h.inside p e)]

theorem HeapSim.alloc {σ : Nat → Nat} {h h' : RustHeap} (hs : HeapSim σ h h') {pick : Picker RustObj} (hp : pick.Honest) {o : RustObj}
    (ho : ∀ a b, o = .space a b → a < h.next ∧ b < h.next) :
    ∃ σ', (∀ p, p < h.next → σ' p = σ p) ∧ HeapSim σ' (h.alloc o).1 (h'.allocAt pick (o.ren σ)).1 ∧
      (h'.allocAt pick (o.ren σ)).2 = σ' h.next := by
  have hq : h'.live (pick h'.next h'.live) = none := hp _ _ (hs.ren.finite hs.fresh)
  refine ⟨fun p => if p = h.next then pick h'.next h'.live else σ p, fun p hp => if_neg (by omega), ?_, (if_pos rfl).symm⟩
  have below : ∀ p, p < h.next → (if p = h.next then pick h'.next h'.live else σ p) = σ p := fun p hp => if_neg (by omega)
  have lt : ∀ p, h.live p ≠ none → p < h.next := by
    intro p hp
    by_contra hc
    exact hp (hs.fresh p (by omega))
  have same : ∀ o : RustObj, (∀ a b, o = .space a b → a < h.next ∧ b < h.next) →
      o.ren (fun p => if p = h.next then pick h'.next h'.live else σ p) = o.ren σ := by
    intro o ho
    cases o with
    | grid => rfl
    | family => rfl
    | space a b =>
      obtain ⟨h1, h2⟩ := ho a b rfl
      simp only [RustObj.ren, below a h1, below b h2]
  constructor
  · have := hs.ren.alloc (hs.fresh _ (Nat.le_refl _)) hq (σ' := fun p => if p = h.next then pick h'.next h'.live else σ p) (if_pos rfl)
      (fun p hp => below p (lt p hp)) (fun p x hx => same x fun a b e => hs.inside p a b (e ▸ hx)) o
    rw [same o ho] at this
    exact this
  · intro p hp
    simp only [RustHeap.alloc] at hp ⊢
    rw [if_neg (by omega)]
    exact hs.fresh p (by omega)
  · intro p a b e
    simp only [RustHeap.alloc] at e ⊢
    split at e
    · injection e with e
      obtain ⟨h1, h2⟩ := ho a b e
      omega
    · obtain ⟨h1, h2⟩ := hs.inside p a b e
      omega

theorem HeapSim.free {σ : Nat → Nat} {h h' h1 : RustHeap} (hs : HeapSim σ h h') {p : Nat} (e : h.free p = some h1) :
    ∃ h1', h'.free (σ p) = some h1' ∧ HeapSim σ h1 h1' ∧ h1.next = h.next := by
  unfold RustHeap.free at e
  split at e
  · cases e
  · rename_i o ho
    cases e
    have hl : h.live p ≠ none := by rw [ho]; simp
    refine ⟨{ h' with live := fun q => if q = σ p then none else h'.live q }, ?_, ⟨hs.ren.free hl, ?_, ?_⟩, rfl⟩
    · unfold RustHeap.free
      rw [hs.ren.map p o ho]
    · intro q hq
      dsimp only
      split
      · rfl
      · exact hs.fresh q hq
    · intro q a b e
      dsimp only at e
      split at e
      · cases e
      · exact hs.inside q a b e

theorem acquire_sim {σ : Nat → Nat} {h h' : RustHeap} {a b : Shared} (hs : HeapSim σ h h') (ha : SharedSim σ h.next a b)
    {pick : Picker RustObj} (hp : pick.Honest) {kind : RustObj} (hk : kind = .grid ∨ kind = .family) (ok : Bool) :
    (acquire kind ok h a = none ∧ acquireAt pick kind ok h' b = none) ∨
    ∃ σ' h1 a1 h1' b1, acquire kind ok h a = some (h1, a1) ∧ acquireAt pick kind ok h' b = some (h1', b1) ∧
      (∀ p, p < h.next → σ' p = σ p) ∧ h.next ≤ h1.next ∧ HeapSim σ' h1 h1' ∧ SharedSim σ' h1.next a1 b1 := by
  have hb : b.rs = a.rs.map σ := by rw [ha.ren]; rfl
  unfold acquire acquireAt
  rw [hb]
  cases e : a.rs with
  | some p => exact .inr ⟨σ, h, a, h', b, rfl, rfl, fun _ _ => rfl, Nat.le_refl _, hs, ha⟩
  | none =>
    cases ok with
    | false => exact .inl ⟨rfl, rfl⟩
    | true =>
      have hn : kind.ren σ = kind := by rcases hk with rfl | rfl <;> rfl
      obtain ⟨σ', h1, h2, h3⟩ := hs.alloc hp (o := kind) (by rcases hk with rfl | rfl <;> intro _ _ e <;> cases e)
      rw [hn] at h2 h3
      refine .inr ⟨σ', _, _, _, _, rfl, rfl, h1, Nat.le_succ _, h2, ?_, ?_⟩
      · exact congrArg (fun r => (⟨some r, some 0⟩ : Shared)) h3
      · intro p e
        cases e
        exact Nat.lt_succ_self _

theorem release_sim {σ : Nat → Nat} {h h' : RustHeap} {a b : Shared} (hs : HeapSim σ h h') (ha : SharedSim σ h.next a b) (keep : Bool) :
    release keep h a = .undefined ∨ (release keep h a = .raised ∧ release keep h' b = .raised) ∨
    ∃ h1 a1 h1' b1, release keep h a = .done h1 a1 ∧ release keep h' b = .done h1' b1 ∧ HeapSim σ h1 h1' ∧
      SharedSim σ h1.next a1 b1 ∧ h1.next = h.next := by
  have hb : b.rs = a.rs.map σ := by rw [ha.ren]; rfl
  have hc : b.refcount = a.refcount := by rw [ha.ren]; rfl
  unfold release
  rw [hc]
  cases ec : a.refcount with
  | none => exact .inr (.inl ⟨rfl, rfl⟩)
  | some c =>
    dsimp only
    by_cases h0 : c - 1 = 0
    · rw [if_pos h0, if_pos h0, hb]
      cases er : a.rs with
      | none => exact .inr (.inl ⟨rfl, rfl⟩)
      | some p =>
        dsimp only [Option.map_some]
        cases ef : h.free p with
        | none => exact .inl rfl
        | some h1 =>
          obtain ⟨h1', e1, e2, e3⟩ := hs.free ef
          rw [e1]
          exact .inr (.inr ⟨_, _, _, _, rfl, rfl, e2, ⟨rfl, fun p e => by cases e⟩, e3⟩)
    · rw [if_neg h0, if_neg h0]
      refine .inr (.inr ⟨_, _, _, _, rfl, rfl, hs, ⟨?_, ha.inside⟩, rfl⟩)
      rw [ha.ren]
      rfl

/-- The states of the two programs. -/
structure PySim (σ : Nat → Nat) (s t : Py) : Prop where
  heap : HeapSim σ s.heap t.heap
  grids : ∀ g, SharedSim σ s.heap.next (s.grids g) (t.grids g)
  families : ∀ f, SharedSim σ s.heap.next (s.families f) (t.families f)
  spaces : t.spaces = s.spaces.map fun e => (e.1, e.2.ren σ)
  inside : ∀ e ∈ s.spaces, e.2.rsSpace < s.heap.next
  next : t.nextSpace = s.nextSpace

theorem PySim.spaces_mono {σ σ' : Nat → Nat} {s t : Py} (h : PySim σ s t) (hσ : ∀ p, p < s.heap.next → σ' p = σ p) :
    t.spaces = s.spaces.map fun e => (e.1, e.2.ren σ') := by
  rw [h.spaces]
  refine List.map_congr_left fun e he => ?_
  simp only [PySpace.ren, hσ _ (h.inside e he)]

theorem PySim.setGrid {σ σ' : Nat → Nat} {s t : Py} (h : PySim σ s t) {h1 h1' : RustHeap} {a b : Shared}
    (hσ : ∀ p, p < s.heap.next → σ' p = σ p) (hn : s.heap.next ≤ h1.next) (hh : HeapSim σ' h1 h1') (ha : SharedSim σ' h1.next a b) (g : Nat) :
    PySim σ' { s.setGrid g a with heap := h1 } { t.setGrid g b with heap := h1' } where
  heap := hh
  grids x := by
    simp only [Py.setGrid]
    split
    · exact ha
    · exact (h.grids x).mono hσ hn
  families x := (h.families x).mono hσ hn
  spaces := h.spaces_mono hσ
  inside e he := Nat.lt_of_lt_of_le (h.inside e he) hn
  next := h.next

theorem PySim.setFamily {σ σ' : Nat → Nat} {s t : Py} (h : PySim σ s t) {h1 h1' : RustHeap} {a b : Shared}
    (hσ : ∀ p, p < s.heap.next → σ' p = σ p) (hn : s.heap.next ≤ h1.next) (hh : HeapSim σ' h1 h1') (ha : SharedSim σ' h1.next a b) (f : Nat) :
    PySim σ' { s.setFamily f a with heap := h1 } { t.setFamily f b with heap := h1' } where
  heap := hh
  grids x := (h.grids x).mono hσ hn
  families x := by
    simp only [Py.setFamily]
    split
    · exact ha
    · exact (h.families x).mono hσ hn
  spaces := h.spaces_mono hσ
  inside e he := Nat.lt_of_lt_of_le (h.inside e he) hn
  next := h.next

theorem SharedSim.count {σ : Nat → Nat} {n : Nat} {a b : Shared} (h : SharedSim σ n a b) (c : Option Int) :
    SharedSim σ n { a with refcount := c } { b with refcount := c } := ⟨by rw [h.ren]; rfl, h.inside⟩

/-- How the two programs go on. -/
def PyResult.Sim (x y : PyResult) : Prop :=
  (∃ s t σ, x = .done s ∧ y = .done t ∧ PySim σ s t) ∨ ∃ s t σ, x = .raised s ∧ y = .raised t ∧ PySim σ s t

theorem functionSpace_sim {σ : Nat → Nat} {s t : Py} (h : PySim σ s t) {pick : Picker RustObj} (hp : pick.Honest) (g f : Nat)
    (gridOk familyOk : Bool) (hu : functionSpaceCall g f gridOk familyOk s ≠ .undefined) :
    (functionSpaceCall g f gridOk familyOk s).Sim (functionSpaceAt pick g f gridOk familyOk t) := by
  unfold functionSpaceCall at hu ⊢
  unfold functionSpaceAt
  rcases acquire_sim h.heap (h.grids g) hp (.inl rfl) gridOk with ⟨e1, e2⟩ | ⟨σ1, h1, a, h1', a', e1, e2, s1, n1, hs1, ha⟩
  · rw [e1, e2]
    exact .inr ⟨_, _, σ, rfl, rfl, h⟩
  rw [e1] at hu ⊢
  rw [e2]
  dsimp only at hu ⊢
  have k1 := h.setGrid s1 n1 hs1 ha g
  have hc : a'.refcount = a.refcount := by rw [ha.ren]; rfl
  rw [hc]
  cases ec : a.refcount with
  | none => exact .inr ⟨_, _, σ1, rfl, rfl, k1⟩
  | some c =>
    rw [ec] at hu
    dsimp only at hu ⊢
    have k2 := k1.setGrid (fun _ _ => rfl) (Nat.le_refl _) hs1 (ha.count (some (c + 1))) g
    rcases acquire_sim k2.heap (k2.families f) hp (.inr rfl) familyOk with ⟨e3, e4⟩ | ⟨σ2, h2, b, h2', b', e3, e4, s2, n2, hs2, hb⟩
    · erw [e3, e4]
      exact .inr ⟨_, _, σ1, rfl, rfl, k2⟩
    erw [e3] at hu ⊢
    erw [e4]
    dsimp only at hu ⊢
    have k3 := k2.setFamily s2 n2 hs2 hb f
    have hd : b'.refcount = b.refcount := by rw [hb.ren]; rfl
    rw [hd]
    cases ed : b.refcount with
    | none => exact .inr ⟨_, _, σ2, rfl, rfl, k3⟩
    | some d =>
      rw [ed] at hu
      dsimp only at hu ⊢
      have k4 := k3.setFamily (fun _ _ => rfl) (Nat.le_refl _) hs2 (hb.count (some (d + 1))) f
      have ha' := (ha.mono s2 n2)
      obtain ⟨ar, ac⟩ := a
      obtain ⟨br, bc⟩ := b
      have ra := ha'.ren
      have rb := hb.ren
      subst ra rb
      cases ar with
      | none => exact .inr ⟨_, _, σ2, rfl, rfl, k4⟩
      | some p =>
        cases br with
        | none => exact .inr ⟨_, _, σ2, rfl, rfl, k4⟩
        | some q =>
          dsimp only [Shared.ren, Option.map_some, Py.setFamily, Py.setGrid] at hu ⊢
          cases lp : h2.live p with
          | none => rw [lp] at hu; exact absurd rfl hu
          | some x =>
            cases lq : h2.live q with
            | none => rw [lp, lq] at hu; cases x <;> exact absurd rfl hu
            | some y =>
              rw [lp, lq] at hu
              rw [hs2.ren.map p x lp, hs2.ren.map q y lq]
              cases x with
              | family => exact absurd rfl hu
              | space => exact absurd rfl hu
              | grid =>
                cases y with
                | grid => exact absurd rfl hu
                | space => exact absurd rfl hu
                | family =>
                  dsimp only [RustObj.ren]
                  obtain ⟨σ3, s3, hs3, e5⟩ := hs2.alloc hp (o := .space p q) (by
                    intro x y e
                    cases e
                    exact ⟨ha'.inside p rfl, hb.inside q rfl⟩)
                  refine .inl ⟨_, _, σ3, rfl, rfl, ?_⟩
                  constructor
                  · exact hs3
                  · exact fun x => (k4.grids x).mono s3 (Nat.le_succ _)
                  · exact fun x => (k4.families x).mono s3 (Nat.le_succ _)
                  · dsimp only
                    rw [List.map_cons]
                    congr 1
                    · unfold PySpace.ren
                      dsimp only
                      rw [h.next]
                      exact congrArg (fun r => (s.nextSpace, PySpace.mk r g f)) e5
                    · exact k4.spaces_mono s3
                  · intro e he
                    rcases List.mem_cons.mp he with rfl | he
                    · exact Nat.lt_succ_self _
                    · exact Nat.lt_succ_of_lt (k4.inside e he)
                  · exact congrArg (· + 1) h.next

theorem lookup_ren (σ : Nat → Nat) (l : List (Nat × PySpace)) (k : Nat) :
    List.lookup k (l.map fun e => (e.1, e.2.ren σ)) = (List.lookup k l).map (PySpace.ren σ) := by
  induction l with
  | nil => rfl
  | cons e l ih =>
    rw [List.map_cons, List.lookup_cons, List.lookup_cons]
    cases k == e.1
    · exact ih
    · rfl

theorem PySim.get? {σ : Nat → Nat} {s t : Py} (h : PySim σ s t) (k : Nat) :
    t.spaces.get? k = (s.spaces.get? k).map (PySpace.ren σ) := by
  unfold Map.get?
  rw [h.spaces]
  exact lookup_ren σ _ k

theorem deleteSpace_sim {σ : Nat → Nat} {s t : Py} (h : PySim σ s t) (k : Nat) (hu : deleteSpaceCall k s ≠ .undefined) :
    (deleteSpaceCall k s).Sim (deleteSpaceCall k t) := by
  unfold deleteSpaceCall at hu ⊢
  rw [h.get? k]
  cases e : s.spaces.get? k with
  | none => exact .inl ⟨_, _, σ, rfl, rfl, h⟩
  | some x =>
    rw [e] at hu
    dsimp only [Option.map_some] at hu ⊢
    cases ef : s.heap.free x.rsSpace with
    | none => rw [ef] at hu; exact absurd rfl hu
    | some h1 =>
      rw [ef] at hu
      obtain ⟨h1', e1, hs1, n1⟩ := h.heap.free ef
      have e1' : t.heap.free (x.ren σ).rsSpace = some h1' := e1
      rw [e1']
      dsimp only at hu ⊢
      have k1 : PySim σ { s with heap := h1, spaces := s.spaces.filter fun e => e.1 ≠ k }
          { t with heap := h1', spaces := t.spaces.filter fun e => e.1 ≠ k } := by
        constructor
        · exact hs1
        · exact fun g => (h.grids g).mono (fun _ _ => rfl) (Nat.le_of_eq n1.symm)
        · exact fun g => (h.families g).mono (fun _ _ => rfl) (Nat.le_of_eq n1.symm)
        · dsimp only
          rw [h.spaces, List.filter_map]
          rfl
        · intro e he
          exact Nat.lt_of_lt_of_eq (h.inside e (List.mem_filter.mp he).1) n1.symm
        · exact h.next
      rcases release_sim hs1 (k1.families x.family) false with r | ⟨r, r'⟩ | ⟨h2, b, h2', b', r, r', hs2, hb, n2⟩
      · erw [r] at hu
        exact absurd rfl hu
      · erw [r, r']
        exact .inr ⟨_, _, σ, rfl, rfl, k1⟩
      · erw [r] at hu
        erw [r, r']
        dsimp only at hu ⊢
        have k2 := k1.setFamily (fun _ _ => rfl) (Nat.le_of_eq n2.symm) hs2 hb x.family
        rcases release_sim hs2 (k2.grids x.grid) true with r | ⟨r, r'⟩ | ⟨h3, a, h3', a', r, r', hs3, ha, n3⟩
        · erw [r] at hu
          exact absurd rfl hu
        · erw [r, r']
          exact .inr ⟨_, _, σ, rfl, rfl, k2⟩
        · erw [r, r']
          exact .inl ⟨_, _, σ, rfl, rfl, k2.setGrid (fun _ _ => rfl) (Nat.le_of_eq n3.symm) hs3 ha x.grid⟩

theorem useSpace_sim {σ : Nat → Nat} {s t : Py} (h : PySim σ s t) (k : Nat) (hu : useSpaceCall k s ≠ .undefined) :
    useSpaceCall k s = .done s ∧ useSpaceCall k t = .done t := by
  unfold useSpaceCall at hu ⊢
  rw [h.get? k]
  cases e : s.spaces.get? k with
  | none => exact ⟨rfl, rfl⟩
  | some x =>
    rw [e] at hu
    dsimp only [Option.map_some] at hu ⊢
    split at hu
    · rename_i p q hx
      rw [show t.heap.live (x.ren σ).rsSpace = some (.space (σ p) (σ q)) from h.heap.ren.map _ _ hx]
      dsimp only
      split at hu
      · rename_i hp hq
        rw [show t.heap.live (σ p) = some .grid from h.heap.ren.map _ _ hp,
          show t.heap.live (σ q) = some .family from h.heap.ren.map _ _ hq]
        exact ⟨rfl, rfl⟩
      · exact absurd rfl hu
    · exact absurd rfl hu

theorem pyCall_sim {σ : Nat → Nat} {s t : Py} (h : PySim σ s t) {pick : Picker RustObj} (hp : pick.Honest) (c : PyCall)
    (hu : c.run s ≠ .undefined) : (c.run s).Sim (c.runAt pick t) := by
  cases c with
  | create g f a b => exact functionSpace_sim h hp g f a b hu
  | delete k => exact deleteSpace_sim h k hu
  | use k =>
    obtain ⟨e1, e2⟩ := useSpace_sim h k hu
    exact .inl ⟨s, t, σ, e1, e2, h⟩

def AsmObj.ren (τ : Nat → Nat) : AsmObj → AsmObj
  | .options o => .options o
  | .assembler op d q => .assembler op d (τ q)

def PyOptObj.ren (τ : Nat → Nat) (x : PyOptObj) : PyOptObj := { x with rs := τ x.rs }

def PyAsmObj.ren (τ : Nat → Nat) (x : PyAsmObj) : PyAsmObj := { x with rs := τ x.rs }

/-- The states of the two sessions. -/
structure SessSim (τ : Nat → Nat) (s t : PySession) : Prop where
  py : ∃ σ, PySim σ s.py t.py
  heap : Renamed AsmObj.ren τ s.heap.live t.heap.live
  fresh : ∀ p, s.heap.next ≤ p → s.heap.live p = none
  options : ∀ i, t.options i = (s.options i).map (PyOptObj.ren τ)
  assemblers : ∀ k, t.assemblers k = (s.assemblers k).map (PyAsmObj.ren τ)
  nextO : t.nextOptions = s.nextOptions
  nextA : t.nextAssembler = s.nextAssembler

theorem SessSim.start : SessSim id PySession.start PySession.start where
  py := by
    refine ⟨id, ⟨⟨?_, fun _ _ => rfl, fun _ _ _ e => by cases e⟩, fun g => ⟨rfl, fun _ e => by cases e⟩, fun g => ⟨rfl, fun _ e => by cases e⟩,
      rfl, fun _ he => (List.not_mem_nil he).elim, rfl⟩⟩
    exact ⟨fun _ _ e => (by cases e), fun _ _ e => absurd rfl e, fun _ e => absurd rfl e⟩
  heap := by
    refine ⟨fun p o hp => ?_, fun _ _ _ _ e => e, fun q hq => ⟨q, hq, rfl⟩⟩
    simp only [PySession.start] at hp ⊢
    by_cases h0 : p = 0
    · rw [if_pos h0] at hp
      cases hp
      exact if_pos h0
    · rw [if_neg h0] at hp
      cases hp
  fresh p hp := if_neg (by change 1 ≤ p at hp; omega)
  options i := by
    simp only [PySession.start]
    split <;> rfl
  assemblers k := rfl
  nextO := rfl
  nextA := rfl

section
variable {R T : Type} [Zero T] [Add T] [Mul T] [Sub T] [Div T] [Neg T] [Zero R] [Mul R]
  {content : Nat → Nat → PyFs R T} {kernel : DType → Kernel R T} {env : DType → Env R T} {s t : PySession} {v : Values R T}
  {τ : Nat → Nat} {pick : Picker RustObj} {pickAsm : Picker AsmObj}

theorem SessSim.alloc (h : SessSim τ s t) (ha : Agrees kernel s v) (hp : pickAsm.Honest) (o : AsmObj)
    (ho : ∀ op d q, o = .assembler op d q → s.heap.live q ≠ none) :
    ∃ τ', (∀ p, s.heap.live p ≠ none → τ' p = τ p) ∧ Renamed AsmObj.ren τ' (s.heap.alloc o).1.live (t.heap.allocAt pickAsm (o.ren τ)).1.live ∧
      (t.heap.allocAt pickAsm (o.ren τ)).2 = τ' s.heap.next ∧ (∀ p, (s.heap.alloc o).1.next ≤ p → (s.heap.alloc o).1.live p = none) ∧
      (∀ i, t.options i = (s.options i).map (PyOptObj.ren τ')) ∧ ∀ k, t.assemblers k = (s.assemblers k).map (PyAsmObj.ren τ') := by
  have hq : t.heap.live (pickAsm t.heap.next t.heap.live) = none := hp _ _ (h.heap.finite h.fresh)
  have hn := h.fresh _ (Nat.le_refl _)
  have below : ∀ p, s.heap.live p ≠ none → (if p = s.heap.next then pickAsm t.heap.next t.heap.live else τ p) = τ p := by
    intro p hp
    refine if_neg ?_
    rintro rfl
    exact hp hn
  have same : ∀ o : AsmObj, (∀ op d q, o = .assembler op d q → s.heap.live q ≠ none) →
      o.ren (fun p => if p = s.heap.next then pickAsm t.heap.next t.heap.live else τ p) = o.ren τ := by
    intro o ho
    cases o with
    | options => rfl
    | assembler op d q => simp only [AsmObj.ren, below q (ho _ _ _ rfl)]
  refine ⟨fun p => if p = s.heap.next then pickAsm t.heap.next t.heap.live else τ p, below, ?_, (if_pos rfl).symm, ?_, ?_, ?_⟩
  · have := h.heap.alloc hn hq (σ' := fun p => if p = s.heap.next then pickAsm t.heap.next t.heap.live else τ p) (if_pos rfl) below
      (fun p x hx => same x fun op d q e => by
        subst e
        obtain ⟨k, y, hy, rfl⟩ := ha.aliveA p op d q hx
        rcases ha.asms k with k1 | ⟨y', a, op', d', x, o, k1, k2, k3, k4, k5, k6, k7⟩
        · rw [k1.1] at hy; cases hy
        · rw [k1] at hy
          cases hy
          rw [k5] at hx
          cases hx
          rw [k6]
          simp) o
    rw [same o ho] at this
    exact this
  · intro p hp
    simp only [AsmHeap.alloc] at hp ⊢
    rw [if_neg (by omega)]
    exact h.fresh p (by omega)
  · intro i
    rw [h.options i]
    rcases ha.opts i with h1 | ⟨x, o, h1, h2, h3, h4⟩
    · rw [h1.1]; rfl
    · rw [h1, Option.map_some, Option.map_some]
      unfold PyOptObj.ren
      beta_reduce
      rw [below x.rs (by rw [h3]; simp)]
  · intro k
    rw [h.assemblers k]
    rcases ha.asms k with k1 | ⟨y', a, op', d', x, o, k1, k2, k3, k4, k5, k6, k7⟩
    · rw [k1.1]; rfl
    · rw [k1, Option.map_some, Option.map_some]
      unfold PyAsmObj.ren
      beta_reduce
      rw [below y'.rs (by rw [k5]; simp)]

/-- The two sessions can make the same step. -/
def StepSim (pick : Picker RustObj) (pickAsm : Picker AsmObj) (content : Nat → Nat → PyFs R T) (kernel : DType → Kernel R T)
    (env : DType → Env R T) (s t : PySession) (c : SessionCall) : Prop :=
  ∃ s' t', ∃ P : Ffi (PyValue T) → Prop, (∀ x r, c.Step content kernel env s x r ↔ x = s' ∧ P r) ∧
    (∀ x r, c.StepAt pick pickAsm content kernel env t x r ↔ x = t' ∧ P r) ∧ ∃ τ', SessSim τ' s' t'

theorem SessSim.readOptions (h : SessSim τ s t) {p : Nat} {o : Options} (hp : s.heap.live p = some (.options o)) :
    t.heap.readOptions (τ p) = .ok o := by
  unfold AsmHeap.readOptions
  rw [show t.heap.live (τ p) = some (.options o) from h.heap.map _ _ hp]

theorem SessSim.setOption (h : SessSim τ s t) (ha : Agrees kernel s v) (i : Nat) (has : Options → Bool) (set : Options → Options) :
    ∃ s' t' r, s.setOption (T := T) i has set = (s', r) ∧ t.setOption (T := T) i has set = (t', r) ∧ SessSim τ s' t' := by
  unfold PySession.setOption
  rw [h.options i]
  rcases ha.opts i with h1 | ⟨x, o, h1, h2, h3, h4⟩
  · rw [h1.1]
    exact ⟨s, t, _, rfl, rfl, h⟩
  · rw [h1, Option.map_some]
    dsimp only
    have e1 : s.heap.readOptions x.rs = .ok o := by unfold AsmHeap.readOptions; rw [h3]
    have e2 : t.heap.readOptions (x.ren τ).rs = .ok o := h.readOptions h3
    rw [e1, e2]
    have er : (x.ren τ).readOnly = x.readOnly := rfl
    rw [er]
    cases x.readOnly with
    | true => exact ⟨s, t, _, rfl, rfl, h⟩
    | false =>
      dsimp only
      cases has o with
      | false => exact ⟨s, t, _, rfl, rfl, h⟩
      | true =>
        have hl : s.heap.live x.rs ≠ none := by rw [h3]; simp
        refine ⟨_, _, _, rfl, rfl, ?_⟩
        exact
          { py := h.py
            heap := h.heap.store hl (.options (set o))
            fresh := fun p hp => by
              simp only [AsmHeap.store] at hp ⊢
              rw [if_neg]
              · exact h.fresh p hp
              · rintro rfl
                exact hl (h.fresh _ hp)
            options := h.options
            assemblers := h.assemblers
            nextO := h.nextO
            nextA := h.nextA }

theorem SessSim.getOption (h : SessSim τ s t) (ha : Agrees kernel s v) (i : Nat) (get : Options → Option Nat) :
    t.getOption (T := T) i get = s.getOption i get := by
  unfold PySession.getOption
  rw [h.options i]
  rcases ha.opts i with h1 | ⟨x, o, h1, h2, h3, h4⟩
  · rw [h1.1]; rfl
  · rw [h1, Option.map_some]
    dsimp only
    have e1 : s.heap.readOptions x.rs = .ok o := by unfold AsmHeap.readOptions; rw [h3]
    have e2 : t.heap.readOptions (x.ren τ).rs = .ok o := h.readOptions h3
    rw [e1, e2]

theorem SessSim.readSpace (h : SessSim τ s t) (ha : Agrees kernel s v) (k : Nat) : t.readSpace content k = s.readSpace content k := by
  obtain ⟨σ, hp⟩ := h.py
  have hu : useSpaceCall k s.py ≠ .undefined := by
    obtain ⟨p, e, -⟩ := ha.booked.call (.use k)
    change useSpaceCall k s.py = _ at e
    rw [e]
    split <;> simp
  obtain ⟨e1, e2⟩ := useSpace_sim hp k hu
  unfold PySession.readSpace
  rw [hp.get? k, e1, e2]
  cases s.py.spaces.get? k <;> rfl

theorem SessSim.readAssembler (h : SessSim τ s t) (ha : Agrees kernel s v) {k : Nat} {y : PyAsmObj} (hy : s.assemblers k = some y) :
    t.heap.readAssembler kernel (τ y.rs) = s.heap.readAssembler kernel y.rs := by
  rcases ha.asms k with k1 | ⟨y', a, op', d', x, o, k1, k2, k3, k4, k5, k6, k7⟩
  · rw [k1.1] at hy; cases hy
  · rw [k1] at hy
    cases hy
    unfold AsmHeap.readAssembler
    rw [k5, show t.heap.live (τ y.rs) = some (.assembler op' d' (τ x.rs)) from h.heap.map _ _ k5]
    dsimp only
    have e1 : s.heap.readOptions x.rs = .ok o := by unfold AsmHeap.readOptions; rw [k6]
    rw [e1, h.readOptions k6]

theorem SessSim.readArguments (h : SessSim τ s t) (ha : Agrees kernel s v) (k a b : Nat) :
    t.readArguments content kernel k a b = s.readArguments content kernel k a b := by
  unfold PySession.readArguments
  rw [h.assemblers k, h.readSpace ha a, h.readSpace ha b]
  cases e : s.assemblers k with
  | none => rfl
  | some y =>
    dsimp only [Option.map_some]
    rw [show (PyAsmObj.ren τ y).rs = τ y.rs from rfl, h.readAssembler ha e]

theorem SessSim.createLaplace (h : SessSim τ s t) (ha : Agrees kernel s v) (hp : pickAsm.Honest) (op : PyOperator) (i : Nat)
    (d : Option DType) :
    ∃ s' t' r τ', s.createLaplace kernel op i d = (s', r) ∧ t.createLaplaceAt pickAsm kernel op i d = (t', r) ∧ SessSim τ' s' t' := by
  unfold PySession.createLaplace PySession.createLaplaceAt
  rw [h.options i]
  rcases ha.opts i with h1 | ⟨x, o, h1, h2, h3, h4⟩
  · rw [h1.1]
    exact ⟨s, t, _, τ, rfl, rfl, h⟩
  · rw [h1, Option.map_some]
    cases d with
    | none => exact ⟨s, t, _, τ, rfl, rfl, h⟩
    | some d =>
      dsimp only
      have e1 : s.heap.readOptions x.rs = .ok o := by unfold AsmHeap.readOptions; rw [h3]
      have e2 : t.heap.readOptions (x.ren τ).rs = .ok o := h.readOptions h3
      rw [e1, e2]
      dsimp only
      cases createLaplaceAssembler (kernel d) op o d with
      | raised => exact ⟨s, t, _, τ, rfl, rfl, h⟩
      | panic => exact ⟨s, t, _, τ, rfl, rfl, h⟩
      | undefined => exact ⟨s, t, _, τ, rfl, rfl, h⟩
      | ok a =>
        have hl : s.heap.live x.rs ≠ none := by rw [h3]; simp
        obtain ⟨τ', t1, t2, t3, t4, t5, t6⟩ := h.alloc ha hp (.assembler op d x.rs) (by
          intro _ _ q e
          cases e
          exact hl)
        refine ⟨_, _, _, τ', rfl, rfl, ?_⟩
        exact
          { py := h.py
            heap := t2
            fresh := t4
            options := fun j => by
              dsimp only
              split
              · simp only [Option.map_some, PyOptObj.ren, t1 x.rs hl]
              · exact t5 j
            assemblers := fun k => by
              dsimp only
              rw [h.nextA]
              split
              · exact congrArg (fun p => some (PyAsmObj.mk i p)) t3
              · exact t6 k
            nextO := h.nextO
            nextA := congrArg (· + 1) h.nextA }

theorem SessSim.step (h : SessSim τ s t) (ha : Agrees kernel s v) (hp : pick.Honest) (hpa : pickAsm.Honest) (c : SessionCall) :
    StepSim pick pickAsm content kernel env s t c := by
  have same : ∀ {c : SessionCall} {x : PySession × Ffi (PyValue T)} {y : PySession × Ffi (PyValue T)},
      (∀ z r, c.Step content kernel env s z r ↔ (z, r) = x) → (∀ z r, c.StepAt pick pickAsm content kernel env t z r ↔ (z, r) = y) →
      (∃ s' t' r τ', x = (s', r) ∧ y = (t', r) ∧ SessSim τ' s' t') → StepSim pick pickAsm content kernel env s t c := by
    rintro c x y e1 e2 ⟨s', t', r, τ', rfl, rfl, k⟩
    exact ⟨s', t', fun q => q = r, fun z q => (e1 z q).trans (Prod.mk.injEq _ _ _ _ ▸ Iff.rfl),
      fun z q => (e2 z q).trans (Prod.mk.injEq _ _ _ _ ▸ Iff.rfl), τ', k⟩
  have set : ∀ i has set, ∃ s' t' r τ', s.setOption (T := T) i has set = (s', r) ∧ t.setOption (T := T) i has set = (t', r) ∧ SessSim τ' s' t' :=
    fun i has set => by
      obtain ⟨s', t', r, e1, e2, k⟩ := h.setOption (T := T) ha i has set
      exact ⟨s', t', r, τ, e1, e2, k⟩
  cases c with
  | space c =>
    obtain ⟨σ, hs⟩ := h.py
    have hu : c.run s.py ≠ .undefined := by
      obtain ⟨p, e, -⟩ := ha.booked.call c
      rw [e]
      split <;> simp
    rcases pyCall_sim hs hp c hu with ⟨p, q, σ', e1, e2, k⟩ | ⟨p, q, σ', e1, e2, k⟩
    · refine ⟨{ s with py := p }, { t with py := q }, fun r => r = .ok .nothing, fun x r => ?_, fun x r => ?_, τ, { h with py := ⟨σ', k⟩ }⟩
      · simp only [SessionCall.Step, e1]
      · simp only [SessionCall.StepAt, e2]
    · refine ⟨{ s with py := p }, { t with py := q }, fun r => r = .raised, fun x r => ?_, fun x r => ?_, τ, { h with py := ⟨σ', k⟩ }⟩
      · simp only [SessionCall.Step, e1]
      · simp only [SessionCall.StepAt, e2]
  | newOptions =>
    obtain ⟨τ', t1, t2, t3, t4, t5, t6⟩ := h.alloc ha hpa (.options Options.default) (fun _ _ _ e => by cases e)
    refine ⟨_, _, fun r => r = .ok .nothing, fun x r => Iff.rfl, fun x r => Iff.rfl, τ', ?_⟩
    exact
      { py := h.py
        heap := t2
        fresh := t4
        options := fun j => by
          dsimp only
          rw [h.nextO]
          split
          · exact congrArg (fun p => some (PyOptObj.mk false p)) t3
          · exact t5 j
        assemblers := t6
        nextO := congrArg (· + 1) h.nextO
        nextA := h.nextA }
  | setRegular i c n => exact same (fun _ _ => Iff.rfl) (fun _ _ => Iff.rfl) (set _ _ _)
  | setSingular i c d n => exact same (fun _ _ => Iff.rfl) (fun _ _ => Iff.rfl) (set _ _ _)
  | setBatch i n => exact same (fun _ _ => Iff.rfl) (fun _ _ => Iff.rfl) (set _ _ _)
  | getRegular i c =>
    exact ⟨s, t, _, fun _ _ => Iff.rfl, fun _ _ => by rw [← h.getOption ha]; exact Iff.rfl, τ, h⟩
  | getSingular i c d =>
    exact ⟨s, t, _, fun _ _ => Iff.rfl, fun _ _ => by rw [← h.getOption ha]; exact Iff.rfl, τ, h⟩
  | getBatch i =>
    exact ⟨s, t, _, fun _ _ => Iff.rfl, fun _ _ => by rw [← h.getOption ha]; exact Iff.rfl, τ, h⟩
  | createLaplace op i d => exact same (fun _ _ => Iff.rfl) (fun _ _ => Iff.rfl) (h.createLaplace ha hpa op i d)
  | deleteAssembler k =>
    rcases ha.asms k with k1 | ⟨y, a, op', d', x, o, k1, k2, k3, k4, k5, k6, k7⟩
    · refine ⟨s, t, fun r => r = .raised, fun x r => ?_, fun x r => ?_, τ, h⟩
      · simp only [SessionCall.Step, k1.1]
      · simp only [SessionCall.StepAt, SessionCall.Step, h.assemblers k, k1.1, Option.map_none]
    · have hl : s.heap.live y.rs ≠ none := by rw [k5]; simp
      have e2 : t.heap.live (PyAsmObj.ren τ y).rs = some (.assembler op' d' (τ x.rs)) := h.heap.map _ _ k5
      refine ⟨{ s with heap := { s.heap with live := fun q => if q = y.rs then none else s.heap.live q }
                       assemblers := fun j => if j = k then none else s.assemblers j },
        { t with heap := { t.heap with live := fun q => if q = τ y.rs then none else t.heap.live q }
                 assemblers := fun j => if j = k then none else t.assemblers j }, fun r => r = .ok .nothing, fun x r => ?_, fun x r => ?_, τ, ?_⟩
      · simp only [SessionCall.Step, k1, AsmHeap.free, k5]
      · simp only [SessionCall.StepAt, SessionCall.Step, h.assemblers k, k1, Option.map_some, AsmHeap.free, e2]
        rfl
      · exact
          { py := h.py
            heap := h.heap.free hl
            fresh := fun p hp => by
              dsimp only
              split
              · rfl
              · exact h.fresh p hp
            options := h.options
            assemblers := fun j => by
              dsimp only
              split
              · rfl
              · exact h.assemblers j
            nextO := h.nextO
            nextA := h.nextA }
  | dtype k =>
    rcases ha.asms k with k1 | ⟨y, a, op', d', x, o, k1, k2, k3, k4, k5, k6, k7⟩
    · refine ⟨s, t, fun r => r = .raised, fun x r => ?_, fun x r => ?_, τ, h⟩
      · simp only [SessionCall.Step, k1.1]
      · simp only [SessionCall.StepAt, SessionCall.Step, h.assemblers k, k1.1, Option.map_none]
    · have e2 : t.heap.live (PyAsmObj.ren τ y).rs = some (.assembler op' d' (τ x.rs)) := h.heap.map _ _ k5
      refine ⟨s, t, fun r => r = .ok (.dtype d'), fun x r => ?_, fun x r => ?_, τ, h⟩
      · simp only [SessionCall.Step, k1, k5]
      · simp only [SessionCall.StepAt, SessionCall.Step, h.assemblers k, k1, Option.map_some, e2]
  | assemble k a b =>
    refine ⟨s, t, _, fun _ _ => Iff.rfl, fun _ _ => ?_, τ, h⟩
    simp only [SessionCall.StepAt, SessionCall.Step, h.readArguments ha]
  | assembleSingular k a b =>
    refine ⟨s, t, _, fun _ _ => Iff.rfl, fun _ _ => ?_, τ, h⟩
    simp only [SessionCall.StepAt, SessionCall.Step, h.readArguments ha]
  | assembleSingularCorrection k a b =>
    refine ⟨s, t, _, fun _ _ => Iff.rfl, fun _ _ => ?_, τ, h⟩
    simp only [SessionCall.StepAt, SessionCall.Step, h.readArguments ha]

/-- Whole sessions, from the given addresses to new addresses. -/
theorem SessSim.runs (h : SessSim τ s t) (ha : Agrees kernel s v) (hp : pick.Honest) (hpa : pickAsm.Honest) {calls : List SessionCall}
    {t' : PySession} {rs : List (Ffi (PyValue T))} (hr : SessionRunsAt pick pickAsm content kernel env t calls t' rs) :
    ∃ s' τ' v', SessionRuns content kernel env s calls s' rs ∧ SessSim τ' s' t' ∧ Agrees kernel s' v' := by
  induction hr generalizing s τ v with
  | nil t => exact ⟨s, τ, v, .nil s, h, ha⟩
  | @returned t t1 t2 c cs r rs hc hne _ ih =>
    obtain ⟨s1, t1', P, e1, e2, τ1, h1⟩ := h.step (content := content) (env := env) ha hp hpa c
    obtain ⟨rfl, hP⟩ := (e2 _ _).mp hc
    have hs := (e1 _ _).mpr ⟨rfl, hP⟩
    obtain ⟨s1', v1, P', ha1, e3, -⟩ := ha.step (content := content) (env := env) c
    obtain ⟨rfl, -⟩ := (e3 _ _).mp hs
    obtain ⟨s', τ', v', k1, k2, k3⟩ := ih h1 ha1
    exact ⟨s', τ', v', .returned hs hne k1, k2, k3⟩
  | @ended t t1 c cs r hc hne =>
    obtain ⟨s1, t1', P, e1, e2, τ1, h1⟩ := h.step (content := content) (env := env) ha hp hpa c
    obtain ⟨rfl, hP⟩ := (e2 _ _).mp hc
    have hs := (e1 _ _).mpr ⟨rfl, hP⟩
    obtain ⟨s1', v1, P', ha1, e3, -⟩ := ha.step (content := content) (env := env) c
    obtain ⟨rfl, -⟩ := (e3 _ _).mp hs
    exact ⟨_, τ1, v1, .ended hs hne, h1, ha1⟩

/-- Whole sessions, from new addresses to the given addresses. -/
theorem SessSim.back (h : SessSim τ s t) (ha : Agrees kernel s v) (hp : pick.Honest) (hpa : pickAsm.Honest) {calls : List SessionCall}
    {s' : PySession} {rs : List (Ffi (PyValue T))} (hr : SessionRuns content kernel env s calls s' rs) :
    ∃ t', SessionRunsAt pick pickAsm content kernel env t calls t' rs := by
  induction hr generalizing t τ v with
  | nil s => exact ⟨t, .nil t⟩
  | @returned s s1 s2 c cs r rs hc hne _ ih =>
    obtain ⟨s1', t1, P, e1, e2, τ1, h1⟩ := h.step (content := content) (env := env) ha hp hpa c
    obtain ⟨s1'', v1, P', ha1, e3, -⟩ := ha.step (content := content) (env := env) c
    obtain ⟨rfl, -⟩ := (e3 _ _).mp hc
    obtain ⟨rfl, hP⟩ := (e1 _ _).mp hc
    obtain ⟨t', k⟩ := ih h1 ha1
    exact ⟨t', .returned ((e2 _ _).mpr ⟨rfl, hP⟩) hne k⟩
  | @ended s s1 c cs r hc hne =>
    obtain ⟨s1', t1, P, e1, e2, τ1, h1⟩ := h.step (content := content) (env := env) ha hp hpa c
    obtain ⟨rfl, hP⟩ := (e1 _ _).mp hc
    exact ⟨t1, .ended ((e2 _ _).mpr ⟨rfl, hP⟩) hne⟩
end

end Bempp
