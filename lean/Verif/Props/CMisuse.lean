import Verif.Spec.CMisuse
import Verif.Props.CInterface
/-
C97: what happens to a C program that is not disciplined.
-/
set_option linter.unusedVariables false
set_option linter.unusedSectionVars false
namespace Bempp

variable {Γ Φ R T : Type}

theorem CHeap.read_misuse {h : CHeap Γ Φ T} {k : CKind} {p : Nat} (hp : ¬ h.HasKind k p) : h.read k p = .undefined := by
  unfold CHeap.read
  split
  · rename_i o ho
    rw [if_neg fun hk => hp ⟨o, ho, hk⟩]
  · rfl

theorem CHeap.read_undefined_or (h : CHeap Γ Φ T) (k : CKind) (p : Nat) : h.read k p = .undefined ∨ ∃ o, h.read k p = .ok o := by
  unfold CHeap.read
  split
  · split
    · exact .inr ⟨_, rfl⟩
    · exact .inl rfl
  · exact .inl rfl

theorem CHeap.readOptions_misuse {h : CHeap Γ Φ T} {p : Nat} (hp : ¬ h.HasKind .options p) : h.readOptions p = .undefined := by
  unfold CHeap.readOptions
  split
  · rename_i o ho
    exact absurd ⟨_, ho, rfl⟩ hp
  · rfl

section
variable [Zero T] [Add T] [Sub T] [Mul T] [Div T] [Neg T] [Zero R] [Mul R] {newSpace : Γ → Φ → Option (Space R T)}
  {kernel : DType → Kernel R T} {env : DType → Env R T}

theorem CHeap.arguments_misuse {h : CHeap Γ Φ T} {a x y : Nat}
    (hp : ¬ (h.HasKind .assembler a ∧ h.HasKind .space x ∧ h.HasKind .space y)) :
    h.arguments newSpace kernel a x y = (.undefined : Ffi (DType × Assembler R T × Space R T × Space R T)) := by
  unfold CHeap.arguments
  by_cases ha : h.HasKind .assembler a
  · by_cases hx : h.HasKind .space x
    · have hy : ¬ h.HasKind .space y := fun hy => hp ⟨ha, hx, hy⟩
      rw [CHeap.read_misuse hy]
      rcases h.read_undefined_or .assembler a with e | ⟨o, e⟩ <;> rw [e]
      · rfl
      · rcases h.read_undefined_or .space x with e' | ⟨o', e'⟩ <;> rw [e'] <;> rfl
    · rw [CHeap.read_misuse hx]
      rcases h.read_undefined_or .assembler a with e | ⟨o, e⟩ <;> rw [e] <;> rfl
  · rw [CHeap.read_misuse ha]
    rfl

/-- **C97.** Every call with a pointer to an object that was freed, that never existed or that is of another kind has undefined behaviour,
whatever the state of the memory. The functions that make assemblers panic before they look at the pointer if they have no assembler for
the scalar type. -/
theorem C97_wrong_pointer {h h' : CHeap Γ Φ T} {c : CCall Γ Φ R T} {r : Ffi (CResult T)} {p : Nat} {k : CKind} (hw : (p, k) ∈ c.wants)
    (hp : ¬ h.HasKind k p) (hl : ∀ q op d, c = .laplaceNew q op d → d.IsReal) (hh : ∀ w q op d, c = .helmholtzNew w q op d → ¬ d.IsReal) :
    c.Step newSpace kernel env h h' r ↔ h' = h ∧ r = .undefined := by
  have pair : ∀ {x : CHeap Γ Φ T × Ffi (CResult T)}, x = (h, .undefined) → ((h', r) = x ↔ h' = h ∧ r = .undefined) := by
    rintro x rfl
    exact Prod.mk.injEq _ _ _ _ ▸ Iff.rfl
  cases c with
  | createGrid => cases hw
  | createFamily => cases hw
  | newOptions => cases hw
  | free k' q =>
    cases q with
    | none => cases hw
    | some q =>
      obtain ⟨rfl, rfl⟩ : p = q ∧ k = k' := by simpa [CCall.wants] using hw
      refine pair ?_
      simp [CHeap.call, CHeap.read_misuse hp]
  | functionSpace g f =>
    refine pair ?_
    have : (p = g ∧ k = .grid) ∨ (p = f ∧ k = .family) := by simpa [CCall.wants] using hw
    rcases this with ⟨rfl, rfl⟩ | ⟨rfl, rfl⟩
    · simp only [CHeap.call, CHeap.read_misuse hp]
      rfl
    · simp only [CHeap.call, CHeap.read_misuse hp]
      rcases h.read_undefined_or .grid g with e | ⟨o, e⟩ <;> rw [e] <;> rfl
  | localSpace s =>
    obtain ⟨rfl, rfl⟩ : p = s ∧ k = .space := by simpa [CCall.wants] using hw
    refine pair ?_
    simp only [CHeap.call, CHeap.read_misuse hp]
    rfl
  | space s q =>
    obtain ⟨rfl, rfl⟩ : p = s ∧ k = .space := by simpa [CCall.wants] using hw
    refine pair ?_
    simp only [CHeap.call, CHeap.read_misuse hp]
    rfl
  | setOptions q x =>
    obtain ⟨rfl, rfl⟩ : p = q ∧ k = .options := by simpa [CCall.wants] using hw
    refine pair ?_
    simp only [CHeap.call, CHeap.readOptions_misuse hp]
  | getOptions q x =>
    obtain ⟨rfl, rfl⟩ : p = q ∧ k = .options := by simpa [CCall.wants] using hw
    refine pair ?_
    simp only [CHeap.call, CHeap.readOptions_misuse hp]
    rfl
  | laplaceNew q op d =>
    obtain ⟨rfl, rfl⟩ : p = q ∧ k = .options := by simpa [CCall.wants] using hw
    refine pair ?_
    rcases hl _ _ _ rfl with rfl | rfl <;> simp only [CHeap.call, CHeap.laplaceNew, CHeap.readOptions_misuse hp] <;> rfl
  | helmholtzNew w q op d =>
    obtain ⟨rfl, rfl⟩ : p = q ∧ k = .options := by simpa [CCall.wants] using hw
    refine pair ?_
    have hd := hh _ _ _ _ rfl
    cases d with
    | f32 => exact absurd (.inl rfl) hd
    | f64 => exact absurd (.inr rfl) hd
    | _ =>
      simp only [CHeap.call, CHeap.helmholtzNew, CHeap.readOptions_misuse hp]
      split <;> rfl
  | assemblerDtype a =>
    obtain ⟨rfl, rfl⟩ : p = a ∧ k = .assembler := by simpa [CCall.wants] using hw
    refine pair ?_
    simp only [CHeap.call, CHeap.read_misuse hp]
    rfl
  | assemble a x y =>
    have hn : ¬ (h.HasKind .assembler a ∧ h.HasKind .space x ∧ h.HasKind .space y) := by
      rintro ⟨h1, h2, h3⟩
      have : (p = a ∧ k = .assembler) ∨ (p = x ∧ k = .space) ∨ (p = y ∧ k = .space) := by simpa [CCall.wants] using hw
      rcases this with ⟨rfl, rfl⟩ | ⟨rfl, rfl⟩ | ⟨rfl, rfl⟩ <;> contradiction
    simp only [CCall.Step, CHeap.arguments_misuse hn]
  | assembleSingular a x y =>
    have hn : ¬ (h.HasKind .assembler a ∧ h.HasKind .space x ∧ h.HasKind .space y) := by
      rintro ⟨h1, h2, h3⟩
      have : (p = a ∧ k = .assembler) ∨ (p = x ∧ k = .space) ∨ (p = y ∧ k = .space) := by simpa [CCall.wants] using hw
      rcases this with ⟨rfl, rfl⟩ | ⟨rfl, rfl⟩ | ⟨rfl, rfl⟩ <;> contradiction
    simp only [CCall.Step, CHeap.arguments_misuse hn]
  | assembleIntoMemory a x y data =>
    have hn : ¬ (h.HasKind .assembler a ∧ h.HasKind .space x ∧ h.HasKind .space y) := by
      rintro ⟨h1, h2, h3⟩
      have : (p = a ∧ k = .assembler) ∨ (p = x ∧ k = .space) ∨ (p = y ∧ k = .space) := by simpa [CCall.wants] using hw
      rcases this with ⟨rfl, rfl⟩ | ⟨rfl, rfl⟩ | ⟨rfl, rfl⟩ <;> contradiction
    simp only [CCall.Step, CHeap.arguments_misuse hn]
  | matrix m q =>
    obtain ⟨rfl, rfl⟩ : p = m ∧ k = .matrix := by simpa [CCall.wants] using hw
    refine pair ?_
    simp only [CHeap.call, CHeap.read_misuse hp]
    rfl
  | matrixPointer m part =>
    obtain ⟨rfl, rfl⟩ : p = m ∧ k = .matrix := by simpa [CCall.wants] using hw
    refine pair ?_
    simp only [CHeap.call, CHeap.read_misuse hp]
    rfl
  | load m part i =>
    obtain ⟨rfl, rfl⟩ : p = m ∧ k = .matrix := by simpa [CCall.wants] using hw
    refine pair ?_
    simp only [CHeap.call, CHeap.read_misuse hp]
    rfl

/-- **C97.** Reading a number of a dense matrix through its pointer returns the number with this index, and is undefined behaviour exactly
from the number of entries on. -/
theorem C97_outside {h h' : CHeap Γ Φ T} {r : Ffi (CResult T)} {m i : Nat} {d : DType} {s : Nat × Nat} {data : List T}
    (hm : h.live m = some (.dense d s data)) :
    (CCall.load m .dense i : CCall Γ Φ R T).Step newSpace kernel env h h' r ↔
      h' = h ∧ ((∃ x, data[i]? = some x ∧ r = .ok (.value x)) ∨ (data.length ≤ i ∧ r = .undefined)) := by
  have hr : h.read .matrix m = .ok (.dense d s data) := by simp [CHeap.read, hm, CObj.kind]
  show (h', r) = CHeap.call newSpace h (.load m .dense i : CCall Γ Φ R T) ↔ _
  simp only [CHeap.call, hr, Prod.mk.injEq]
  refine and_congr Iff.rfl ?_
  show r = Ffi.mem (data[i]?.map CResult.value) ↔ _
  rcases hi : data[i]? with _ | x
  · have := List.getElem?_eq_none_iff.mp hi
    simp [Ffi.mem, this]
  · have : ¬ data.length ≤ i := by
      have := (List.getElem?_eq_some_iff.mp hi).1
      omega
    simp [Ffi.mem, this]

/-- **C97.** Changing options is undefined behaviour exactly if an assembler that was made with them was not freed yet. -/
theorem C97_set_options {h h' : CHeap Γ Φ T} {r : Ffi (CResult T)} {p : Nat} {o : Options} {c : OptionChange}
    (hp : h.live p = some (.options o)) :
    (CCall.setOptions p c : CCall Γ Φ R T).Step newSpace kernel env h h' r ↔
      ((∃ q e op d, h.live q = some (.assembler e op d p)) ∧ h' = h ∧ r = .undefined) ∨
      ((¬ ∃ q e op d, h.live q = some (.assembler e op d p)) ∧ h'.next = h.next ∧ h'.live p = some (.options (c.means o)) ∧
        (∀ q, q ≠ p → h'.live q = h.live q) ∧ r = .ok .nothing) := by
  have hr : h.readOptions p = .ok o := by simp [CHeap.readOptions, hp]
  show (h', r) = CHeap.call newSpace h (.setOptions p c : CCall Γ Φ R T) ↔ _
  simp only [CHeap.call, hr]
  have hc : c.means o = c.apply o := by cases c <;> rfl
  by_cases hb : h.Borrowed p
  · rw [if_pos hb]
    have hb' : ∃ q e op d, h.live q = some (.assembler e op d p) := hb
    simp [hb']
  · rw [if_neg hb]
    have hb' : ¬ ∃ q e op d, h.live q = some (.assembler e op d p) := hb
    simp only [hb', Prod.mk.injEq, false_and, false_or, not_false_eq_true, true_and]
    constructor
    · rintro ⟨rfl, rfl⟩
      exact ⟨rfl, by simp [CHeap.store, hc], fun q hq => by simp [CHeap.store, hq], rfl⟩
    · rintro ⟨h1, h2, h3, rfl⟩
      refine ⟨?_, rfl⟩
      cases h' with
      | mk n l =>
        simp only at h1 h2 h3
        simp only [CHeap.store, CHeap.mk.injEq]
        refine ⟨h1, funext fun q => ?_⟩
        by_cases hq : q = p
        · subst hq; simp [h2, hc]
        · simp [hq, h3 q hq]

end

/-- A memory with options and a freed matrix. -/
example : ∃ h : CHeap Unit Unit Rat, h.HasKind .options 0 ∧ ¬ h.HasKind .matrix 0 ∧ ¬ h.HasKind .matrix 1 ∧ h.next = 2 :=
  ⟨(CHeap.start.alloc (.options Options.default) |>.alloc (.dense .f64 (1, 1) [2])).store 1 none,
    ⟨.options Options.default, rfl, rfl⟩, (by rintro ⟨o, ho, hk⟩; cases ho; cases hk), (by rintro ⟨o, ho, hk⟩; cases ho), rfl⟩

end Bempp
