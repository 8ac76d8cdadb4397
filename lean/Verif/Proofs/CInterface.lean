import Verif.Spec.CInterface
import Verif.Props.PythonData
/-
The objects of a disciplined C program are values.
-/
set_option linter.unusedVariables false
set_option linter.unusedSectionVars false
namespace Bempp

variable {Γ Φ R T : Type}

/-- The object at a pointer stands for the value. -/
inductive Stands (newSpace : Γ → Φ → Option (Space R T)) (h : CHeap Γ Φ T) :
    Option (CObj Γ Φ T) → Option (CValue Γ Φ R T) → List Nat → Prop
  | nothing m : Stands newSpace h none none m
  | options o : Stands newSpace h (some (.options o)) (some (.options o)) []
  | grid b r x : Stands newSpace h (some (.grid b r x)) (some (.grid b r x)) []
  | family k d x : Stands newSpace h (some (.family k d x)) (some (.family d x)) []
  | space d b {g f x k y s} (hg : h.live g = some (.grid b d.real x)) (hf : h.live f = some (.family k d y))
      (hs : newSpace x y = some s) : Stands newSpace h (some (.space d b d.real g f)) (some (.space d b s)) [g, f]
  | view d b r s (hs : h.live s ≠ none) : Stands newSpace h (some (.spaceRef d b r s)) (some .view) [s]
  | laplace {op d p o} (hop : op.IsLayer) (hd : d.IsReal) (ho : h.live p = some (.options o)) :
      Stands newSpace h (some (.assembler .laplace op d p)) (some (.assembler .laplace op d o)) [p]
  | helmholtz {op d p o} (hop : op.IsLayer) (hd : ¬ d.IsReal) (ho : h.live p = some (.options o)) :
      Stands newSpace h (some (.assembler .helmholtz op d p)) (some (.assembler .helmholtz op d o)) [p]
  | csr d m : Stands newSpace h (some (.csr d m)) (some (.csr d m)) []
  | dense d s x : Stands newSpace h (some (.dense d s x)) (some (.dense d s x)) []

/-- All objects stand for the values. -/
structure StandFor (newSpace : Γ → Φ → Option (Space R T)) (h : CHeap Γ Φ T) (v : CValues Γ Φ R T) : Prop where
  next : h.next = v.next
  fresh : ∀ p, h.next ≤ p → h.live p = none
  all : ∀ p, Stands newSpace h (h.live p) (v.value p) (v.madeFrom p)

theorem Stands.mono {newSpace : Γ → Φ → Option (Space R T)} {h h' : CHeap Γ Φ T} {o : Option (CObj Γ Φ T)}
    {x : Option (CValue Γ Φ R T)} {m : List Nat} (s : Stands newSpace h o x m) (he : o ≠ none → ∀ q ∈ m, h'.live q = h.live q) :
    Stands newSpace h' o x m := by
  cases s with
  | nothing m => exact .nothing m
  | options o => exact .options o
  | grid b r x => exact .grid b r x
  | family k d x => exact .family k d x
  | space d b hg hf hs =>
    exact .space d b ((he (by simp) _ (by simp)).trans hg) ((he (by simp) _ (by simp)).trans hf) hs
  | view d b r s hs => exact .view d b r s (by rw [he (by simp) _ (by simp)]; exact hs)
  | laplace hop hd ho => exact .laplace hop hd ((he (by simp) _ (by simp)).trans ho)
  | helmholtz hop hd ho => exact .helmholtz hop hd ((he (by simp) _ (by simp)).trans ho)
  | csr d m => exact .csr d m
  | dense d s x => exact .dense d s x

/-- What an object refers to is there. -/
theorem Stands.refers {newSpace : Γ → Φ → Option (Space R T)} {h : CHeap Γ Φ T} {o : Option (CObj Γ Φ T)}
    {x : Option (CValue Γ Φ R T)} {m : List Nat} (s : Stands newSpace h o x m) (ho : o ≠ none) : ∀ q ∈ m, h.live q ≠ none := by
  cases s with
  | nothing m => exact absurd rfl ho
  | space d b hg hf hs =>
    intro q hq
    simp only [List.mem_cons, List.not_mem_nil, or_false] at hq
    rcases hq with rfl | rfl
    · rw [hg]; simp
    · rw [hf]; simp
  | view d b r s hs => simpa using hs
  | laplace hop hd hp => intro q hq; simp at hq; subst hq; rw [hp]; simp
  | helmholtz hop hd hp => intro q hq; simp at hq; subst hq; rw [hp]; simp
  | _ => simp

theorem Stands.none_iff {newSpace : Γ → Φ → Option (Space R T)} {h : CHeap Γ Φ T} {o : Option (CObj Γ Φ T)}
    {x : Option (CValue Γ Φ R T)} {m : List Nat} (s : Stands newSpace h o x m) : o = none ↔ x = none := by
  cases s <;> simp

theorem Stands.kind {newSpace : Γ → Φ → Option (Space R T)} {h : CHeap Γ Φ T} {o : CObj Γ Φ T}
    {x : CValue Γ Φ R T} {m : List Nat} (s : Stands newSpace h (some o) (some x) m) : o.kind = x.kind := by
  cases s <;> rfl

section
variable {newSpace : Γ → Φ → Option (Space R T)} {h : CHeap Γ Φ T} {v : CValues Γ Φ R T}

theorem StandFor.start : StandFor newSpace (CHeap.start : CHeap Γ Φ T) (CValues.start : CValues Γ Φ R T) where
  next := rfl
  fresh _ _ := rfl
  all _ := .nothing _

/-- A new object. -/
theorem StandFor.alloc (s : StandFor newSpace h v) {o : CObj Γ Φ T} {x : CValue Γ Φ R T} {m : List Nat}
    (hs : Stands newSpace h (some o) (some x) m) : StandFor newSpace (h.alloc o) (v.add x m) := by
  have old : ∀ q, h.live q ≠ none → (h.alloc o).live q = h.live q := by
    intro q hq
    have : q ≠ h.next := fun e => hq (s.fresh q (by omega))
    simp [CHeap.alloc, this]
  refine ⟨by simp [CHeap.alloc, CValues.add, s.next], fun p hp => ?_, fun p => ?_⟩
  · have hp' : h.next + 1 ≤ p := hp
    have : p ≠ h.next := by omega
    simp only [CHeap.alloc, this, if_false]
    exact s.fresh p (by omega)
  · by_cases e : p = h.next
    · have e' : p = v.next := by rw [e, s.next]
      have h1 : (h.alloc o).live p = some o := by simp [CHeap.alloc, e]
      have h2 : (v.add x m).value p = some x := by simp [CValues.add, e']
      have h3 : (v.add x m).madeFrom p = m := by simp [CValues.add, e']
      rw [h1, h2, h3]
      exact hs.mono fun _ q hq => old q (hs.refers (by simp) q hq)
    · have e' : p ≠ v.next := by rw [← s.next]; exact e
      have h1 : (h.alloc o).live p = h.live p := by simp [CHeap.alloc, e]
      have h2 : (v.add x m).value p = v.value p := by simp [CValues.add, e']
      have h3 : (v.add x m).madeFrom p = v.madeFrom p := by simp [CValues.add, e']
      rw [h1, h2, h3]
      exact (s.all p).mono fun ho q hq => old q ((s.all p).refers ho q hq)

/-- A change of an object that nothing refers to. -/
theorem StandFor.store (s : StandFor newSpace h v) {p : Nat} {o : Option (CObj Γ Φ T)} {x : Option (CValue Γ Φ R T)}
    (hp : h.live p ≠ none) (hs : Stands newSpace h o x (v.madeFrom p)) (hm : p ∉ v.madeFrom p ∨ o = none) (hu : ¬ v.Used p) :
    StandFor newSpace (h.store p o) (v.put p x) := by
  refine ⟨s.next, fun q hq => ?_, fun q => ?_⟩
  · have hq' : h.next ≤ q := hq
    have : q ≠ p := fun e => hp (e ▸ s.fresh q hq')
    simp only [CHeap.store, this, if_false]
    exact s.fresh q hq'
  · by_cases e : q = p
    · subst e
      simp only [CHeap.store, CValues.put, if_true]
      refine hs.mono fun ho r hr => ?_
      have hne : r ≠ q := by
        rintro rfl
        rcases hm with hm | hm
        · exact hm hr
        · exact ho hm
      simp [hne]
    · simp only [CHeap.store, CValues.put, e, if_false]
      refine (s.all q).mono fun ho r hr => ?_
      have hne : r ≠ p := by
        rintro rfl
        exact hu ⟨q, fun h0 => ho ((s.all q).none_iff.mpr h0), hr⟩
      simp [hne]

theorem StandFor.read (s : StandFor newSpace h v) {k : CKind} {p : Nat} (hp : v.Has k p) :
    ∃ o x, h.live p = some o ∧ v.value p = some x ∧ h.read k p = .ok o ∧ x.kind = k ∧
      Stands newSpace h (some o) (some x) (v.madeFrom p) := by
  obtain ⟨x, hx, hk⟩ := hp
  have := s.all p
  rw [hx] at this
  cases ho : h.live p with
  | none => rw [ho] at this; cases this
  | some o =>
    rw [ho] at this
    exact ⟨o, x, rfl, hx, by simp [CHeap.read, ho, this.kind, hk], hk, this⟩

theorem StandFor.options (s : StandFor newSpace h v) {p : Nat} (hp : v.Has .options p) :
    ∃ o, h.live p = some (.options o) ∧ v.value p = some (.options o) ∧ h.readOptions p = .ok o ∧ v.madeFrom p = [] := by
  obtain ⟨o, x, h1, h2, -, h4, h5⟩ := s.read hp
  generalize hm : v.madeFrom p = m at h5
  cases h5 <;> simp only [CValue.kind, reduceCtorEq] at h4
  rename_i o
  exact ⟨o, h1, h2, by simp [CHeap.readOptions, h1], hm ▸ rfl⟩

theorem mem_functionSpaceTable {b : Bool} {r : RealType} {k : FamilyType} {d : DType} :
    [RustType.grid b r, .family k d] ∈ RustType.functionSpaceTable ↔ d.real = r := by
  cases b <;> cases r <;> cases k <;> cases d <;> decide

theorem mem_spaceTable {b : Bool} {r : RealType} {d : DType} : [RustType.space d b r] ∈ RustType.spaceTable ↔ d.real = r := by
  cases b <;> cases r <;> cases d <;> decide

theorem not_mem_spaceTable {b : Bool} {r : RealType} {d : DType} : [RustType.spaceRef d b r] ∉ RustType.spaceTable := by
  cases b <;> cases r <;> cases d <;> decide

theorem mem_assemblerTable {e : Equation} {op : PyOperator} {d : DType} :
    [RustType.assembler e op d] ∈ RustType.assemblerTable ↔
      op.IsLayer ∧ (e = .laplace ∧ d.IsReal ∨ e = .helmholtz ∧ ¬ d.IsReal) := by
  unfold PyOperator.IsLayer DType.IsReal
  cases e <;> cases op <;> cases d <;> decide

theorem mem_assembleTable {e : Equation} {op : PyOperator} {d d1 d2 : DType} {b1 b2 : Bool} {r1 r2 : RealType} :
    [RustType.assembler e op d, .space d1 b1 r1, .space d2 b2 r2] ∈ RustType.assembleTable ↔
      e = .laplace ∧ op.IsLayer ∧ d1 = d ∧ d2 = d ∧ b1 = b2 ∧ r1 = d.real ∧ r2 = d.real := by
  unfold RustType.assembleTable
  simp only [List.mem_flatMap, List.mem_map, List.cons.injEq, RustType.assembler.injEq, RustType.space.injEq, and_true]
  constructor
  · rintro ⟨d', -, b, -, op', hop, ⟨rfl, rfl, rfl⟩, ⟨rfl, rfl, rfl⟩, rfl, rfl, rfl⟩
    exact ⟨rfl, by revert hop; unfold PyOperator.IsLayer; cases op' <;> decide, rfl, rfl, rfl, rfl, rfl⟩
  · rintro ⟨rfl, hop, rfl, rfl, rfl, rfl, rfl⟩
    refine ⟨d2, by cases d2 <;> decide, b1, by cases b1 <;> decide, op, ?_, ⟨rfl, rfl, rfl⟩, ⟨rfl, rfl, rfl⟩, rfl, rfl, rfl⟩
    unfold PyOperator.IsLayer at hop
    rcases hop with rfl | rfl | rfl | rfl <;> decide

theorem not_mem_assembleTable {x y z : RustType} {d : DType} {b : Bool} {r : RealType}
    (h : y = .spaceRef d b r ∨ z = .spaceRef d b r) : [x, y, z] ∉ RustType.assembleTable := by
  unfold RustType.assembleTable
  simp only [List.mem_flatMap, List.mem_map, List.cons.injEq, and_true]
  rintro ⟨d', -, b, -, op', -, -, e1, e2⟩
  rcases h with rfl | rfl
  · cases e1
  · cases e2

theorem copy_filled {α : Type} {src : List α} {buf : NpBuffer α} (hl : src.length ≤ buf.length) :
    copyToBuffer src 0 buf = .ok (filled src buf) := by
  have key : ∀ (src : List α) (pre : NpBuffer α) (buf : NpBuffer α), src.length ≤ buf.length →
      copyToBuffer src pre.length (pre ++ buf) = .ok (pre ++ src.map some ++ buf.drop src.length) := by
    intro src
    induction src with
    | nil => intro pre buf _; simp [copyToBuffer]
    | cons x src ih =>
      intro pre buf hb
      match buf, hb with
      | y :: buf, hb =>
        have hb' : src.length ≤ buf.length := by simpa using hb
        have hw : NpBuffer.write (pre ++ y :: buf) pre.length x = .ok ((pre ++ [some x]) ++ buf) := by
          unfold NpBuffer.write
          simp [Ffi.mem]
        show (NpBuffer.write (pre ++ y :: buf) pre.length x).bind _ = _
        rw [hw]
        show copyToBuffer src (pre.length + 1) _ = _
        have := ih (pre ++ [some x]) buf hb'
        rw [List.length_append, List.length_singleton] at this
        rw [this]
        simp
  simpa [filled] using key src [] buf hl

/-- The questions. -/
theorem SpaceQuery.answer_eq {s : Space R T} {q : SpaceQuery} (d : DType) (hq : q.Fits s) : q.answer d s = orPanic (q.means d s) := by
  cases q with
  | dofNumbers dim e buf =>
    simp only [SpaceQuery.answer, SpaceQuery.means]
    cases hl : s.fs.getLocalDofNumbers dim e with
    | none => rfl
    | some l =>
      show (copyToBuffer l 0 buf).bind _ = _
      rw [copy_filled (hq l hl)]
      rfl
  | cellDofs c buf =>
    simp only [SpaceQuery.answer, SpaceQuery.means]
    cases hl : s.fs.cellDofs c with
    | none => rfl
    | some l =>
      show (copyToBuffer l 0 buf).bind _ = _
      rw [copy_filled (hq l hl)]
      rfl
  | dofNumbersSize dim e => simp only [SpaceQuery.answer, SpaceQuery.means]; cases s.fs.getLocalDofNumbers dim e <;> rfl
  | cellDofsSize c => simp only [SpaceQuery.answer, SpaceQuery.means]; cases s.fs.cellDofs c <;> rfl
  | globalDofIndex i => simp only [SpaceQuery.answer, SpaceQuery.means]; cases s.fs.globalDofIndex i <;> rfl
  | isOwned i => simp only [SpaceQuery.answer, SpaceQuery.means]; cases s.fs.ownership i <;> rfl
  | _ => rfl

theorem OptionQuery.answer_eq (o : Options) (q : OptionQuery) : q.answer (T := T) o = orPanic (q.means o) := by
  cases q with
  | regular t => simp only [OptionQuery.answer, OptionQuery.means]; cases o.getRegularQuadratureDegree t <;> rfl
  | singular t0 t1 => simp only [OptionQuery.answer, OptionQuery.means]; cases o.getSingularQuadratureDegree (t0, t1) <;> rfl
  | _ => rfl

theorem MatrixQuery.answer_eq {o : CObj Γ Φ T} {x : CValue Γ Φ R T} {m : List Nat} (hs : Stands newSpace h (some o) (some x) m)
    (hk : x.kind = .matrix) {q : MatrixQuery T} (hq : q.Fits x) : concretise q.table o.type (q.answer o) = orPanic (q.means x) := by
  cases hs <;> simp only [CValue.kind, reduceCtorEq] at hk
  · rename_i d m
    have h1 : [RustType.csr d] ∈ RustType.shapeTable := by cases d <;> decide
    have h2 : [RustType.csr d] ∉ RustType.denseTable := by cases d <;> decide
    have h3 : [RustType.csr d] ∈ RustType.csrTable := by cases d <;> decide
    cases q with
    | denseCopy buf => simp only [concretise, MatrixQuery.table, CObj.type, h2, if_false]; rfl
    | csrDataCopy buf =>
      simp only [concretise, MatrixQuery.table, CObj.type, h3, if_true]
      show (copyToBuffer m.data 0 buf).bind _ = _
      rw [copy_filled hq]; rfl
    | csrIndicesCopy buf =>
      simp only [concretise, MatrixQuery.table, CObj.type, h3, if_true]
      show (copyToBuffer m.indices 0 buf).bind _ = _
      rw [copy_filled hq]; rfl
    | csrIndptrCopy buf =>
      simp only [concretise, MatrixQuery.table, CObj.type, h3, if_true]
      show (copyToBuffer m.indptr 0 buf).bind _ = _
      rw [copy_filled hq]; rfl
    | shape => simp only [concretise, MatrixQuery.table, CObj.type, h1, if_true]; rfl
    | _ => simp only [concretise, MatrixQuery.table, CObj.type, h3, if_true]; rfl
  · rename_i d s x
    have h1 : [RustType.dense d] ∈ RustType.shapeTable := by cases d <;> decide
    have h2 : [RustType.dense d] ∈ RustType.denseTable := by cases d <;> decide
    have h3 : [RustType.dense d] ∉ RustType.csrTable := by cases d <;> decide
    cases q with
    | denseCopy buf =>
      simp only [concretise, MatrixQuery.table, CObj.type, h2, if_true]
      show (copyToBuffer x 0 buf).bind _ = _
      rw [copy_filled hq]; rfl
    | shape => simp only [concretise, MatrixQuery.table, CObj.type, h1, if_true]; rfl
    | _ => simp only [concretise, MatrixQuery.table, CObj.type, h3, if_false]; rfl

theorem MatrixPart.table_iff {o : CObj Γ Φ T} {x : CValue Γ Φ R T} {m : List Nat} (hs : Stands newSpace h (some o) (some x) m)
    (hk : x.kind = .matrix) (part : MatrixPart) : o.type ∈ part.table ↔ part.content x ≠ none := by
  cases hs <;> simp only [CValue.kind, reduceCtorEq] at hk
  · rename_i d m
    have h2 : [RustType.csr d] ∉ RustType.denseTable := by cases d <;> decide
    have h3 : [RustType.csr d] ∈ RustType.csrTable := by cases d <;> decide
    cases part <;> simp [MatrixPart.table, MatrixPart.content, CObj.type, h2, h3]
  · rename_i d s x
    have h2 : [RustType.dense d] ∈ RustType.denseTable := by cases d <;> decide
    have h3 : [RustType.dense d] ∉ RustType.csrTable := by cases d <;> decide
    cases part <;> simp [MatrixPart.table, MatrixPart.content, CObj.type, h2, h3]

theorem MatrixPart.item_eq {o : CObj Γ Φ T} {x : CValue Γ Φ R T} {m : List Nat} (hs : Stands newSpace h (some o) (some x) m)
    {part : MatrixPart} {l : List (CResult T)} (hc : part.content x = some l) (i : Nat) : part.item i o = l[i]? := by
  cases hs <;> cases part <;> simp only [MatrixPart.content, reduceCtorEq, Option.some.injEq] at hc <;> subst hc <;>
    simp [MatrixPart.item]

theorem StandFor.made_some (s : StandFor newSpace h v) {o : CObj Γ Φ T} {x : CValue Γ Φ R T} {m : List Nat}
    (hs : Stands newSpace h (some o) (some x) m) :
    StandFor newSpace (h.made (.ok o)).1 (v.made (some x) m).1 ∧ (h.made (.ok o)).2 = (v.made (some x) m).2 :=
  ⟨s.alloc hs, by simp [CHeap.made, CValues.made, s.next]⟩

theorem space_cases {p : Nat} {x : CValue Γ Φ R T} {o : CObj Γ Φ T} {m : List Nat} (hs : Stands newSpace h (some o) (some x) m)
    (hk : x.kind = .space) :
    (∃ d b g f y k w z, o = .space d b d.real g f ∧ x = .space d b z ∧ h.live g = some (.grid b d.real y) ∧
      h.live f = some (.family k d w) ∧ newSpace y w = some z) ∨ ∃ d b r q, o = .spaceRef d b r q ∧ x = .view := by
  cases hs <;> simp only [CValue.kind, reduceCtorEq] at hk
  · rename_i d b g f y k w z hg hf hs
    exact .inl ⟨d, b, g, f, y, k, w, z, rfl, rfl, hg, hf, hs⟩
  · exact .inr ⟨_, _, _, _, rfl, rfl⟩

theorem assembler_cases {x : CValue Γ Φ R T} {o : CObj Γ Φ T} {m : List Nat} (hs : Stands newSpace h (some o) (some x) m)
    (hk : x.kind = .assembler) :
    ∃ e op d p y, o = .assembler e op d p ∧ x = .assembler e op d y ∧ h.live p = some (.options y) ∧ op.IsLayer ∧
      (e = .laplace ∧ d.IsReal ∨ e = .helmholtz ∧ ¬ d.IsReal) := by
  cases hs <;> simp only [CValue.kind, reduceCtorEq] at hk
  · rename_i op d p o hop hd ho
    exact ⟨_, _, _, _, _, rfl, rfl, ho, hop, .inl ⟨rfl, hd⟩⟩
  · rename_i op d p o hop hd ho
    exact ⟨_, _, _, _, _, rfl, rfl, ho, hop, .inr ⟨rfl, hd⟩⟩

/-- The calls that do not assemble. -/
def CCall.Assembles : CCall Γ Φ R T → Prop
  | .assemble .. => True
  | .assembleSingular .. => True
  | .assembleIntoMemory .. => True
  | _ => False

theorem StandFor.call (s : StandFor newSpace h v) {c : CCall Γ Φ R T} (ha : c.Allowed v) (hc : ¬ c.Assembles) :
    ∃ e, c.Simple newSpace v e ∧ StandFor newSpace (h.call newSpace c).1 e.1 ∧ (h.call newSpace c).2 = e.2 := by
  cases c with
  | createGrid b r x => exact ⟨_, .createGrid b r x, s.made_some (.grid b r x)⟩
  | createFamily k d x => exact ⟨_, .createFamily k d x, s.made_some (.family k d x)⟩
  | newOptions => exact ⟨_, .newOptions, s.made_some (.options _)⟩
  | free k p =>
    cases p with
    | none => exact ⟨_, .freeNull k, s, rfl⟩
    | some p =>
      obtain ⟨h1, h2⟩ := ha
      obtain ⟨o, x, l1, l2, l3, -, -⟩ := s.read h1
      refine ⟨_, .free k p, ?_, ?_⟩
      · simp only [CHeap.call, l3]
        exact s.store (by rw [l1]; simp) (.nothing _) (.inr rfl) h2
      · simp only [CHeap.call, l3]
  | functionSpace g f =>
    obtain ⟨h1, h2⟩ := ha
    obtain ⟨o, x, l1, l2, l3, l4, l5⟩ := s.read h1
    obtain ⟨o', x', l1', l2', l3', l4', l5'⟩ := s.read h2
    generalize v.madeFrom g = m at l5
    cases l5 <;> simp only [CValue.kind, reduceCtorEq] at l4
    rename_i b r x
    generalize v.madeFrom f = m at l5'
    cases l5' <;> simp only [CValue.kind, reduceCtorEq] at l4'
    rename_i k d y
    have e : h.call newSpace (.functionSpace g f : CCall Γ Φ R T) = h.made (concretise RustType.functionSpaceTable
        [.grid b r, .family k d] (Ffi.bind (Ffi.rust (newSpace x y)) fun _ => .ok (.space d b r g f))) := by
      simp only [CHeap.call, l3, l3']
      rfl
    rw [e]
    by_cases hd : d.real = r
    · rw [concretise, if_pos (mem_functionSpaceTable.mpr hd)]
      refine ⟨_, .functionSpace l2 l2' hd, ?_⟩
      cases hn : newSpace x y with
      | none => exact ⟨s, rfl⟩
      | some z =>
        subst hd
        exact s.made_some (.space d b l1 l1' hn)
    · rw [concretise, if_neg fun hm => hd (mem_functionSpaceTable.mp hm)]
      exact ⟨_, .functionSpaceOther l2 l2' hd, s, rfl⟩
  | localSpace p =>
    obtain ⟨o, x, l1, l2, l3, l4, l5⟩ := s.read ha
    rcases space_cases (p := p) l5 l4 with ⟨d, b, g, f, y, k, w, z, rfl, rfl, hg, hf, hz⟩ | ⟨d, b, r, q, rfl, rfl⟩
    · have e : h.call newSpace (.localSpace p : CCall Γ Φ R T) = h.made (.ok (.spaceRef d b d.real p)) := by
        show h.made (Ffi.bind (h.read .space p) _) = _
        rw [l3]
        show h.made (concretise RustType.spaceTable [.space d b d.real] (Ffi.bind (h.spaceOf newSpace _) _)) = _
        rw [concretise, if_pos (mem_spaceTable.mpr rfl)]
        simp only [CHeap.spaceOf, hg, hf, hz, Ffi.mem]
        rfl
      rw [e]
      exact ⟨_, .localSpace l2, s.made_some (.view d b d.real p (by rw [l1]; simp))⟩
    · have e : h.call newSpace (.localSpace p : CCall Γ Φ R T) = h.made .panic := by
        show h.made (Ffi.bind (h.read .space p) _) = _
        rw [l3]
        show h.made (concretise RustType.spaceTable [.spaceRef d b r] _) = _
        rw [concretise, if_neg not_mem_spaceTable]
      rw [e]
      exact ⟨_, .localSpaceView l2, s, rfl⟩
  | space p q =>
    obtain ⟨o, x, l1, l2, l3, l4, l5⟩ := s.read ha.1
    rcases space_cases (p := p) l5 l4 with ⟨d, b, g, f, y, k, w, z, rfl, rfl, hg, hf, hz⟩ | ⟨d, b, r, q', rfl, rfl⟩
    · refine ⟨_, .space q l2, s, ?_⟩
      show Ffi.bind (h.read .space p) _ = _
      rw [l3]
      show concretise RustType.spaceTable [.space d b d.real] (Ffi.bind (h.spaceOf newSpace _) _) = _
      rw [concretise, if_pos (mem_spaceTable.mpr rfl)]
      simp only [CHeap.spaceOf, hg, hf, hz, Ffi.mem]
      exact q.answer_eq d (ha.2 _ _ _ l2)
    · refine ⟨_, .spaceView q l2, s, ?_⟩
      show Ffi.bind (h.read .space p) _ = _
      rw [l3]
      show concretise RustType.spaceTable [.spaceRef d b r] _ = _
      rw [concretise, if_neg not_mem_spaceTable]
  | setOptions p c =>
    obtain ⟨o, l1, l2, l3, l4⟩ := s.options ha.1
    have hb : ¬ h.Borrowed p := by
      rintro ⟨q, e, op, d, hq⟩
      refine ha.2 ⟨q, fun h0 => ?_, ?_⟩
      · have := (s.all q).none_iff.mpr h0
        rw [hq] at this
        cases this
      · have := s.all q
        rw [hq] at this
        generalize v.madeFrom q = m at this
        generalize v.value q = y at this
        cases this <;> simp
    refine ⟨_, .setOptions c l2, ?_⟩
    simp only [CHeap.call, l3, hb, if_false]
    refine ⟨s.store (by rw [l1]; simp) (by rw [l4]; exact .options _) (.inl (by rw [l4]; simp)) ha.2, trivial⟩
  | getOptions p q =>
    obtain ⟨o, l1, l2, l3, l4⟩ := s.options ha
    refine ⟨_, .getOptions q l2, s, ?_⟩
    show Ffi.bind (h.readOptions p) _ = _
    rw [l3]
    exact q.answer_eq o
  | laplaceNew p op d =>
    obtain ⟨o, l1, l2, l3, l4⟩ := s.options ha
    by_cases hc : op.IsLayer ∧ d.IsReal
    · refine ⟨_, .laplaceNew l2 hc.1 hc.2, ?_⟩
      have e : h.laplaceNew p op d = .ok (.assembler .laplace op d p) := by
        obtain ⟨h1, h2⟩ := hc
        unfold CHeap.laplaceNew
        rw [l3]
        rcases h1 with rfl | rfl | rfl | rfl <;> rcases h2 with rfl | rfl <;> rfl
      show StandFor newSpace (h.made (h.laplaceNew p op d)).1 _ ∧ (h.made (h.laplaceNew p op d)).2 = _
      rw [e]
      exact s.made_some (.laplace hc.1 hc.2 l1)
    · refine ⟨_, .laplaceOther hc, ?_⟩
      have e : h.laplaceNew p op d = .panic := by
        unfold CHeap.laplaceNew
        rw [l3]
        unfold PyOperator.IsLayer DType.IsReal at hc
        cases op <;> cases d <;> first | rfl | exact absurd (by decide) hc
      show StandFor newSpace (h.made (h.laplaceNew p op d)).1 _ ∧ (h.made (h.laplaceNew p op d)).2 = _
      rw [e]
      exact ⟨s, rfl⟩
  | helmholtzNew k p op d =>
    obtain ⟨o, l1, l2, l3, l4⟩ := s.options ha.1
    by_cases hc : op.IsLayer ∧ ¬ d.IsReal
    · refine ⟨_, .helmholtzNew l2 hc.1 hc.2, ?_⟩
      have e : h.helmholtzNew k p op d = .ok (.assembler .helmholtz op d p) := by
        obtain ⟨h1, h2⟩ := hc
        unfold CHeap.helmholtzNew
        rw [l3]
        have hk := ha.2 h2
        unfold DType.IsReal at h2
        rcases h1 with rfl | rfl | rfl | rfl <;> cases d <;>
          first
            | exact absurd (by decide) h2
            | (simp only [hk, ne_eq, not_true_eq_false, if_false]; rfl)
      show StandFor newSpace (h.made (h.helmholtzNew k p op d)).1 _ ∧ (h.made (h.helmholtzNew k p op d)).2 = _
      rw [e]
      exact s.made_some (.helmholtz hc.1 hc.2 l1)
    · refine ⟨_, .helmholtzOther hc, ?_⟩
      have e : h.helmholtzNew k p op d = .panic := by
        unfold CHeap.helmholtzNew
        rw [l3]
        have hk := ha.2
        unfold PyOperator.IsLayer at hc
        unfold DType.IsReal at hc hk
        cases op <;> cases d <;>
          first
            | rfl
            | exact absurd (by decide) hc
            | (simp only [hk (by decide), ne_eq, not_true_eq_false, if_false]; rfl)
      show StandFor newSpace (h.made (h.helmholtzNew k p op d)).1 _ ∧ (h.made (h.helmholtzNew k p op d)).2 = _
      rw [e]
      exact ⟨s, rfl⟩
  | assemblerDtype a =>
    obtain ⟨o, x, l1, l2, l3, l4, l5⟩ := s.read ha
    obtain ⟨e, op, d, p, y, rfl, rfl, -, hop, he⟩ := assembler_cases l5 l4
    refine ⟨_, .assemblerDtype l2, s, ?_⟩
    show Ffi.bind (h.read .assembler a) _ = _
    rw [l3]
    show concretise RustType.assemblerTable [.assembler e op d] _ = _
    rw [concretise, if_pos (mem_assemblerTable.mpr ⟨hop, he⟩)]
    rfl
  | matrix m q =>
    obtain ⟨o, x, l1, l2, l3, l4, l5⟩ := s.read ha.1
    refine ⟨_, .matrix q l2, s, ?_⟩
    show Ffi.bind (h.read .matrix m) _ = _
    rw [l3]
    exact MatrixQuery.answer_eq l5 l4 (ha.2 x l2)
  | matrixPointer m part =>
    obtain ⟨o, x, l1, l2, l3, l4, l5⟩ := s.read ha
    by_cases hp : part.content x = none
    · refine ⟨_, .matrixPointerOther l2 hp, s, ?_⟩
      show Ffi.bind (h.read .matrix m) _ = _
      rw [l3]
      show concretise part.table o.type _ = _
      rw [concretise, if_neg fun hm => (MatrixPart.table_iff l5 l4 part).mp hm hp]
    · refine ⟨_, .matrixPointer l2 hp, s, ?_⟩
      show Ffi.bind (h.read .matrix m) _ = _
      rw [l3]
      show concretise part.table o.type _ = _
      rw [concretise, if_pos ((MatrixPart.table_iff l5 l4 part).mpr hp)]
  | load m part i =>
    obtain ⟨hm, x', l, hx', hl, hi⟩ := ha
    obtain ⟨o, x, l1, l2, l3, l4, l5⟩ := s.read hm
    obtain rfl : x = x' := Option.some.inj (l2.symm.trans hx')
    refine ⟨_, .load l2 hl (List.getElem?_eq_getElem hi), s, ?_⟩
    show Ffi.bind (h.read .matrix m) _ = _
    rw [l3]
    show Ffi.mem (part.item i o) = _
    rw [MatrixPart.item_eq l5 hl, List.getElem?_eq_getElem hi]
    rfl
  | assemble => exact absurd trivial hc
  | assembleSingular => exact absurd trivial hc
  | assembleIntoMemory => exact absurd trivial hc

theorem CCall.Simple.unique {c : CCall Γ Φ R T} {e e' : CValues Γ Φ R T × Ffi (CResult T)} (h1 : c.Simple newSpace v e)
    (h2 : c.Simple newSpace v e') : e = e' := by
  cases h1 <;> cases h2 <;> simp_all

theorem CCall.Simple.not_assembles {c : CCall Γ Φ R T} {e : CValues Γ Φ R T × Ffi (CResult T)} (h : c.Simple newSpace v e) :
    ¬ c.Assembles := by
  cases h <;> exact id

theorem CCall.Simple.defined {c : CCall Γ Φ R T} {e : CValues Γ Φ R T × Ffi (CResult T)} (h : c.Simple newSpace v e) :
    e.2 ≠ .undefined ∧ e.2 ≠ .raised := by
  have ho : ∀ x : Option (CResult T), orPanic x ≠ .undefined ∧ orPanic x ≠ .raised := by
    intro x; cases x <;> simp [orPanic]
  have hm : ∀ (x : Option (CValue Γ Φ R T)) m, (v.made x m).2 ≠ .undefined ∧ (v.made x m).2 ≠ .raised := by
    intro x m; cases x <;> simp [CValues.made]
  cases h <;> first | exact ho _ | exact hm _ _ | simp

section
variable [Zero T] [Add T] [Sub T] [Mul T] [Div T] [Neg T] [Zero R] [Mul R] {kernel : DType → Kernel R T} {env : DType → Env R T}

/-- The arguments of the functions that assemble. -/
theorem StandFor.arguments (s : StandFor newSpace h v) {a trial test : Nat} (ha : v.Has .assembler a) (ht : v.Has .space trial)
    (hs : v.Has .space test) :
    (∃ d asm x y, CanAssemble kernel v a trial test d asm x y ∧ h.arguments newSpace kernel a trial test = .ok (d, asm, x, y) ∧
      (∃ b, v.value trial = some (.space d b x)) ∧ ∃ b, v.value test = some (.space d b y)) ∨
    ((∀ d asm x y, ¬ CanAssemble kernel v a trial test d asm x y) ∧ h.arguments newSpace kernel a trial test = .panic) := by
  obtain ⟨o, x, l1, l2, l3, l4, l5⟩ := s.read ha
  obtain ⟨o', x', l1', l2', l3', l4', l5'⟩ := s.read ht
  obtain ⟨o'', x'', l1'', l2'', l3'', l4'', l5''⟩ := s.read hs
  obtain ⟨e, op, d, p, y, rfl, rfl, hp, hop, he⟩ := assembler_cases l5 l4
  have hargs : h.arguments newSpace kernel a trial test = concretise RustType.assembleTable
      ([.assembler e op d] ++ o'.type ++ o''.type) (do
        let o ← h.readOptions p
        let asm ← createLaplaceAssembler (kernel d) op o d
        return (d, asm.asm, ← h.spaceOf newSpace o', ← h.spaceOf newSpace o'')) := by
    show Ffi.bind (h.read .assembler a) _ = _
    rw [l3]
    show Ffi.bind (h.read .space trial) _ = _
    rw [l3']
    show Ffi.bind (h.read .space test) _ = _
    rw [l3'']
    rfl
  rw [hargs]
  rcases space_cases (p := trial) l5' l4' with ⟨d1, b1, g1, f1, y1, k1, w1, z1, rfl, rfl, hg1, hf1, hz1⟩ | ⟨d1, b1, r1, q1, rfl, rfl⟩
  · rcases space_cases (p := test) l5'' l4'' with ⟨d2, b2, g2, f2, y2, k2, w2, z2, rfl, rfl, hg2, hf2, hz2⟩ | ⟨d2, b2, r2, q2, rfl, rfl⟩
    · show _ ∨ _ ∧ concretise RustType.assembleTable [.assembler e op d, .space d1 b1 d1.real, .space d2 b2 d2.real] _ = _
      by_cases hc : e = .laplace ∧ op.IsLayer ∧ d1 = d ∧ d2 = d ∧ b1 = b2 ∧ d1.real = d.real ∧ d2.real = d.real
      · obtain ⟨rfl, -, rfl, rfl, rfl, -, -⟩ := hc
        left
        obtain ⟨asm, hasm⟩ : ∃ asm, laplaceOperator (kernel d2) y op = some asm := by
          rcases hop with rfl | rfl | rfl | rfl <;> exact ⟨_, rfl⟩
        have hd : d2.IsReal := by
          rcases he with ⟨-, h⟩ | ⟨h, -⟩
          · exact h
          · cases h
        refine ⟨d2, asm, z1, z2, ⟨op, y, b1, l2, hasm, l2', l2''⟩, ?_, ⟨b1, l2'⟩, b1, l2''⟩
        show concretise RustType.assembleTable [.assembler .laplace op d2, .space d2 b1 d2.real, .space d2 b1 d2.real] _ = _
        rw [concretise, if_pos (mem_assembleTable.mpr ⟨rfl, hop, rfl, rfl, rfl, rfl, rfl⟩)]
        simp only [CHeap.readOptions, hp, CHeap.spaceOf, hg1, hf1, hz1, hg2, hf2, hz2, Ffi.mem]
        have hcr : createLaplaceAssembler (kernel d2) op y d2 = .ok ⟨asm, d2⟩ := by
          unfold createLaplaceAssembler
          rw [if_neg (by rintro ⟨n1, n2⟩; rcases hd with rfl | rfl; exacts [n1 rfl, n2 rfl])]
          rcases hop with rfl | rfl | rfl | rfl <;> cases hasm <;> rfl
        show Ffi.bind (createLaplaceAssembler (kernel d2) op y d2) _ = _
        rw [hcr]
        rfl
      · right
        refine ⟨?_, by rw [concretise, if_neg fun hm => hc (mem_assembleTable.mp hm)]⟩
        rintro d' asm x y' ⟨op', o', b', e1, -, e2, e3⟩
        rw [l2] at e1
        rw [l2'] at e2
        rw [l2''] at e3
        cases e1; cases e2; cases e3
        exact hc ⟨rfl, hop, rfl, rfl, rfl, rfl, rfl⟩
    · right
      refine ⟨?_, ?_⟩
      · rintro d' asm x y' ⟨op', o', b', e1, -, e2, e3⟩
        rw [l2''] at e3
        cases e3
      · show concretise RustType.assembleTable [.assembler e op d, .space d1 b1 d1.real, .spaceRef d2 b2 r2] _ = _
        rw [concretise, if_neg (not_mem_assembleTable (.inr rfl))]
  · right
    refine ⟨?_, ?_⟩
    · rintro d' asm x y' ⟨op', o', b', e1, -, e2, e3⟩
      rw [l2'] at e2
      cases e2
    · rcases space_cases (p := test) l5'' l4'' with ⟨d2, b2, g2, f2, y2, k2, w2, z2, rfl, rfl, -⟩ | ⟨d2, b2, r2, q2, rfl, rfl⟩
      · show concretise RustType.assembleTable [.assembler e op d, .spaceRef d1 b1 r1, .space d2 b2 d2.real] _ = _
        rw [concretise, if_neg (not_mem_assembleTable (.inl rfl))]
      · show concretise RustType.assembleTable [.assembler e op d, .spaceRef d1 b1 r1, .spaceRef d2 b2 r2] _ = _
        rw [concretise, if_neg (not_mem_assembleTable (.inl rfl))]

theorem CanAssemble.unique {a trial test : Nat} {d d' : DType} {asm asm' : Assembler R T} {x x' y y' : Space R T}
    (h1 : CanAssemble kernel v a trial test d asm x y) (h2 : CanAssemble kernel v a trial test d' asm' x' y') :
    d' = d ∧ asm' = asm ∧ x' = x ∧ y' = y := by
  obtain ⟨op, o, b, e1, e2, e3, e4⟩ := h1
  obtain ⟨op', o', b', f1, f2, f3, f4⟩ := h2
  rw [e1] at f1
  rw [e3] at f3
  rw [e4] at f4
  cases f1; cases f3; cases f4
  rw [e2] at f2
  cases f2
  exact ⟨rfl, rfl, rfl, rfl⟩

/-- A call that ends as in the other description. -/
def CallAgrees (newSpace : Γ → Φ → Option (Space R T)) (kernel : DType → Kernel R T) (env : DType → Env R T) (h : CHeap Γ Φ T)
    (v : CValues Γ Φ R T) (c : CCall Γ Φ R T) : Prop :=
  (∀ h' r, c.Step newSpace kernel env h h' r → (r ≠ .undefined ∧ r ≠ .raised) ∧
    ∃ v', c.Means newSpace kernel env v (v', r) ∧ StandFor newSpace h' v') ∧
  ∀ v' r, c.Means newSpace kernel env v (v', r) → ∃ h', c.Step newSpace kernel env h h' r ∧ StandFor newSpace h' v'

theorem StandFor.agrees_made (s : StandFor newSpace h v) {c : CCall Γ Φ R T} {α : Type} {P : Option α → Prop}
    {F : α → CObj Γ Φ T} {V : α → CValue Γ Φ R T} (hst : ∀ m, Stands newSpace h (some (F m)) (some (V m)) [])
    (hstep : ∀ h' r, c.Step newSpace kernel env h h' r ↔
      ∃ out, P out ∧ (h', r) = h.made (Ffi.bind (Ffi.rust out) fun m => .ok (F m)))
    (hmeans : ∀ e, c.Means newSpace kernel env v e ↔ ∃ out, P out ∧ e = v.made (out.map V) []) :
    CallAgrees newSpace kernel env h v c := by
  have key : ∀ out, StandFor newSpace (h.made (Ffi.bind (Ffi.rust out) fun m => .ok (F m))).1 (v.made (out.map V) []).1 ∧
      (h.made (Ffi.bind (Ffi.rust out) fun m => .ok (F m))).2 = (v.made (out.map V) []).2 ∧
      (v.made (out.map V) []).2 ≠ .undefined ∧ (v.made (out.map V) []).2 ≠ .raised := by
    intro out
    cases out with
    | none => exact ⟨s, rfl, by simp [CValues.made], by simp [CValues.made]⟩
    | some m => exact ⟨(s.made_some (hst m)).1, (s.made_some (hst m)).2, by simp [CValues.made], by simp [CValues.made]⟩
  constructor
  · intro h' r hs
    obtain ⟨out, ho, e⟩ := (hstep h' r).mp hs
    obtain ⟨k1, k2, k3⟩ := key out
    have e1 : h' = _ := congrArg Prod.fst e
    have e2 : r = (v.made (out.map V) []).2 := (congrArg Prod.snd e).trans k2
    exact ⟨e2 ▸ k3, (v.made (out.map V) []).1, (hmeans _).mpr ⟨out, ho, Prod.ext rfl e2⟩, e1 ▸ k1⟩
  · intro v' r hm
    obtain ⟨out, ho, e⟩ := (hmeans _).mp hm
    obtain ⟨k1, k2, k3⟩ := key out
    have e1 : v' = _ := congrArg Prod.fst e
    have e2 : r = (v.made (out.map V) []).2 := congrArg Prod.snd e
    exact ⟨_, (hstep _ r).mpr ⟨out, ho, Prod.ext rfl (e2.trans k2.symm)⟩, e1 ▸ k1⟩

theorem StandFor.agrees_same (s : StandFor newSpace h v) {c : CCall Γ Φ R T} {P : Ffi (CResult T) → Prop}
    (hstep : ∀ h' r, c.Step newSpace kernel env h h' r ↔ h' = h ∧ P r)
    (hmeans : ∀ e, c.Means newSpace kernel env v e ↔ e.1 = v ∧ P e.2)
    (hP : ∀ r, P r → r ≠ .undefined ∧ r ≠ .raised) : CallAgrees newSpace kernel env h v c := by
  constructor
  · intro h' r hs
    obtain ⟨rfl, hr⟩ := (hstep h' r).mp hs
    exact ⟨hP r hr, v, (hmeans _).mpr ⟨rfl, hr⟩, s⟩
  · intro v' r hm
    obtain ⟨rfl, hr⟩ := (hmeans _).mp hm
    exact ⟨h, (hstep _ _).mpr ⟨rfl, hr⟩, s⟩

/-- One call of a disciplined program. -/
theorem StandFor.step (s : StandFor newSpace h v) {c : CCall Γ Φ R T} (ha : c.Allowed v) :
    CallAgrees newSpace kernel env h v c := by
  by_cases hc : c.Assembles
  · cases c with
    | assemble a trial test =>
      obtain ⟨a1, a2, a3⟩ := ha
      rcases s.arguments (kernel := kernel) a1 a2 a3 with ⟨d, asm, x, y, hcan, hargs, -⟩ | ⟨hcan, hargs⟩
      · refine s.agrees_made (F := fun m => .dense d (y.fs.globalSize, x.fs.globalSize) m)
          (V := .dense d (y.fs.globalSize, x.fs.globalSize)) (P := Assemble (env d) asm x y) (fun m => .dense _ _ _) ?_ ?_
        · intro h' r
          simp only [CCall.Step, hargs]
          exact Iff.rfl
        · intro e
          constructor
          · intro hm
            cases hm with
            | simple hsimple => exact absurd trivial hsimple.not_assembles
            | assembleOther hno => exact absurd hcan (hno _ _ _ _)
            | assemble hcan' ho =>
              obtain ⟨rfl, rfl, rfl, rfl⟩ := hcan.unique hcan'
              exact ⟨_, ho, rfl⟩
          · rintro ⟨out, ho, rfl⟩
            exact .assemble hcan ho
      · refine s.agrees_same (P := fun r => r = .panic) ?_ ?_ (by rintro r rfl; simp)
        · intro h' r
          simp only [CCall.Step, hargs]
        · intro e
          constructor
          · intro hm
            cases hm with
            | simple hsimple => exact absurd trivial hsimple.not_assembles
            | assembleOther hno => exact ⟨rfl, rfl⟩
            | assemble hcan' ho => exact absurd hcan' (hcan _ _ _ _)
          · obtain ⟨v', r⟩ := e
            rintro ⟨rfl, rfl⟩
            exact .assembleOther hcan
    | assembleSingular a trial test =>
      obtain ⟨a1, a2, a3⟩ := ha
      rcases s.arguments (kernel := kernel) a1 a2 a3 with ⟨d, asm, x, y, hcan, hargs, -⟩ | ⟨hcan, hargs⟩
      · refine s.agrees_made (F := fun m => .csr d m) (V := .csr d) (P := AssembleSingular (env d) asm x y) (fun m => .csr _ _) ?_ ?_
        · intro h' r
          simp only [CCall.Step, hargs]
          exact Iff.rfl
        · intro e
          constructor
          · intro hm
            cases hm with
            | simple hsimple => exact absurd trivial hsimple.not_assembles
            | assembleSingularOther hno => exact absurd hcan (hno _ _ _ _)
            | assembleSingular hcan' ho =>
              obtain ⟨rfl, rfl, rfl, rfl⟩ := hcan.unique hcan'
              exact ⟨_, ho, rfl⟩
          · rintro ⟨out, ho, rfl⟩
            exact .assembleSingular hcan ho
      · refine s.agrees_same (P := fun r => r = .panic) ?_ ?_ (by rintro r rfl; simp)
        · intro h' r
          simp only [CCall.Step, hargs]
        · intro e
          constructor
          · intro hm
            cases hm with
            | simple hsimple => exact absurd trivial hsimple.not_assembles
            | assembleSingularOther hno => exact ⟨rfl, rfl⟩
            | assembleSingular hcan' ho => exact absurd hcan' (hcan _ _ _ _)
          · obtain ⟨v', r⟩ := e
            rintro ⟨rfl, rfl⟩
            exact .assembleSingularOther hcan
    | assembleIntoMemory a trial test data =>
      obtain ⟨a1, a2, a3, a4⟩ := ha
      rcases s.arguments (kernel := kernel) a1 a2 a3 with ⟨d, asm, x, y, hcan, hargs, ⟨b, hx⟩, b', hy⟩ | ⟨hcan, hargs⟩
      · have hlen := a4 _ _ _ _ _ _ hx hy
        refine s.agrees_same (P := fun r => ∃ out, AssembleIntoMemory (env d) asm x y
            (data.take (y.fs.globalSize * x.fs.globalSize)) out ∧
          r = match out with
            | .panicked _ => .panic
            | .ok mem => .ok (.memory (mem ++ data.drop (y.fs.globalSize * x.fs.globalSize)))) ?_ ?_ ?_
        · intro h' r
          simp only [CCall.Step, hargs, if_neg (show ¬ data.length < y.fs.globalSize * x.fs.globalSize by omega)]
          exact Iff.rfl
        · intro e
          constructor
          · intro hm
            cases hm with
            | simple hsimple => exact absurd trivial hsimple.not_assembles
            | assembleIntoMemoryOther hno => exact absurd hcan (hno _ _ _ _)
            | assembleIntoMemory hcan' ho =>
              obtain ⟨rfl, rfl, rfl, rfl⟩ := hcan.unique hcan'
              exact ⟨rfl, _, ho, rfl⟩
            | assembleIntoMemoryPanic hcan' ho =>
              obtain ⟨rfl, rfl, rfl, rfl⟩ := hcan.unique hcan'
              exact ⟨rfl, _, ho, rfl⟩
          · obtain ⟨v', r⟩ := e
            rintro ⟨rfl, out, ho, rfl⟩
            cases out with
            | ok mem => exact .assembleIntoMemory hcan ho
            | panicked mem => exact .assembleIntoMemoryPanic hcan ho
        · rintro r ⟨out, -, rfl⟩
          cases out <;> simp
      · refine s.agrees_same (P := fun r => r = .panic) ?_ ?_ (by rintro r rfl; simp)
        · intro h' r
          simp only [CCall.Step, hargs]
        · intro e
          constructor
          · intro hm
            cases hm with
            | simple hsimple => exact absurd trivial hsimple.not_assembles
            | assembleIntoMemoryOther hno => exact ⟨rfl, rfl⟩
            | assembleIntoMemory hcan' ho => exact absurd hcan' (hcan _ _ _ _)
            | assembleIntoMemoryPanic hcan' ho => exact absurd hcan' (hcan _ _ _ _)
          · obtain ⟨v', r⟩ := e
            rintro ⟨rfl, rfl⟩
            exact .assembleIntoMemoryOther hcan
    | _ => exact absurd hc id
  · obtain ⟨e, h1, h2, h3⟩ := s.call ha hc
    have hstep : ∀ h' r, c.Step newSpace kernel env h h' r ↔ (h', r) = h.call newSpace c := by
      intro h' r
      cases c <;> first | exact absurd trivial hc | exact Iff.rfl
    constructor
    · intro h' r hs
      have e1 : (h', r) = _ := (hstep h' r).mp hs
      have e2 : h' = (h.call newSpace c).1 := congrArg Prod.fst e1
      have e3 : r = (h.call newSpace c).2 := congrArg Prod.snd e1
      rw [e2, e3, h3]
      exact ⟨h1.defined, e.1, .simple h1, h2⟩
    · intro v' r hm
      generalize he : (v', r) = e' at hm
      cases hm with
      | simple hsimple =>
        have := hsimple.unique h1
        rw [← he] at this
        refine ⟨(h.call newSpace c).1, (hstep _ _).mpr (Prod.ext rfl ?_), ?_⟩
        · rw [h3, ← this]
        · rw [← this] at h2; exact h2
      | _ => exact absurd trivial hc

end
end
end Bempp
