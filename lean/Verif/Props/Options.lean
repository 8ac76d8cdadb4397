import Verif.Model.Options
/-
C23: the options object.
-/
namespace Bempp

/-- A call of one of the setters. -/
inductive OptionCall where
  | regular (t : CellType) (n : Nat)
  | singular (t : CellType × CellType) (n : Nat)
  | batch (n : Nat)

/-- The effect of a call. -/
def OptionCall.run (o : Options) : OptionCall → Options
  | .regular t n => o.setRegularQuadratureDegree t n
  | .singular t n => o.setSingularQuadratureDegree t n
  | .batch n => o.setBatchSize n

/-- The options after a history of calls on default options. -/
def Options.after (calls : List OptionCall) : Options := calls.foldl OptionCall.run Options.default

/-- The value of the last call for a regular key, if there is one. -/
def lastRegular (t : CellType) : List OptionCall → Option Nat
  | [] => none
  | c :: l => (lastRegular t l).or (match c with
    | .regular t' n => if t' = t then some n else none
    | _ => none)

/-- The value of the last call for a singular key, if there is one. -/
def lastSingular (t : CellType × CellType) : List OptionCall → Option Nat
  | [] => none
  | c :: l => (lastSingular t l).or (match c with
    | .singular t' n => if t' = t then some n else none
    | _ => none)

/-- The value of the last `set_batch_size`, if there is one. -/
def lastBatch : List OptionCall → Option Nat
  | [] => none
  | c :: l => (lastBatch l).or (match c with
    | .batch n => some n
    | _ => none)

theorem get_andModify {K V : Type} [DecidableEq K] (m : Map K V) (k k' : K) (v : V) :
    (m.andModify k' v).get? k = if k' = k then (m.get? k).map fun _ => v else m.get? k := by
  unfold Map.get? Map.andModify
  induction m with
  | nil => simp
  | cons e m ih =>
    obtain ⟨a, b⟩ := e
    by_cases hka : k = a
    · subst hka
      by_cases hk : k' = k
      · subst hk; simp [List.lookup]
      · have : ¬ k = k' := fun h => hk h.symm
        simp [List.lookup, hk, this]
    · have hb : (k == a) = false := by simpa using hka
      rw [List.map_cons]
      have e1 : ((if (a, b).1 = k' then ((a, b).1, v) else (a, b)) : K × V).1 = a := by split <;> rfl
      generalize hp : ((if (a, b).1 = k' then ((a, b).1, v) else (a, b)) : K × V) = p at e1 ⊢
      obtain ⟨p1, p2⟩ := p
      simp only at e1
      subst e1
      simp only [List.lookup, hb, ih]

/-- The state after some calls, from any start. -/
theorem options_foldl (calls : List OptionCall) (o : Options) :
    (∀ t, (calls.foldl OptionCall.run o).getRegularQuadratureDegree t =
      (o.getRegularQuadratureDegree t).map fun v => (lastRegular t calls).getD v) ∧
    (∀ t, (calls.foldl OptionCall.run o).getSingularQuadratureDegree t =
      (o.getSingularQuadratureDegree t).map fun v => (lastSingular t calls).getD v) ∧
    (calls.foldl OptionCall.run o).getBatchSize = (lastBatch calls).getD o.getBatchSize := by
  induction calls generalizing o with
  | nil => refine ⟨fun t => ?_, fun t => ?_, rfl⟩ <;> simp [lastRegular, lastSingular]
  | cons c l ih =>
    obtain ⟨h1, h2, h3⟩ := ih (c.run o)
    simp only [List.foldl_cons]
    refine ⟨fun t => ?_, fun t => ?_, ?_⟩
    · rw [h1]
      cases c with
      | regular t' n =>
        simp only [OptionCall.run, Options.getRegularQuadratureDegree,
          Options.setRegularQuadratureDegree, get_andModify, lastRegular]
        by_cases ht : t' = t
        · subst ht; cases o.quadratureDegrees.get? t' <;> cases lastRegular t' l <;> simp
        · simp [ht]
      | _ => simp [OptionCall.run, Options.getRegularQuadratureDegree,
          Options.setSingularQuadratureDegree, Options.setBatchSize, lastRegular]
    · rw [h2]
      cases c with
      | singular t' n =>
        simp only [OptionCall.run, Options.getSingularQuadratureDegree,
          Options.setSingularQuadratureDegree, get_andModify, lastSingular]
        by_cases ht : t' = t
        · subst ht; cases o.singularQuadratureDegrees.get? t' <;> cases lastSingular t' l <;> simp
        · simp [ht]
      | _ => simp [OptionCall.run, Options.getSingularQuadratureDegree,
          Options.setRegularQuadratureDegree, Options.setBatchSize, lastSingular]
    · rw [h3]
      cases c with
      | batch n => cases hl : lastBatch l <;> simp [OptionCall.run, Options.getBatchSize,
          Options.setBatchSize, lastBatch, hl]
      | _ => simp [OptionCall.run, Options.getBatchSize, Options.setRegularQuadratureDegree,
          Options.setSingularQuadratureDegree, lastBatch]

/-- Triangles and quadrilaterals. -/
def CellType.Supported (t : CellType) : Prop := t = .triangle ∨ t = .quadrilateral

instance (t : CellType) : Decidable t.Supported := inferInstanceAs (Decidable (_ ∨ _))

/-- **C23.** After any history of setter calls on default options, a getter returns the last value set
for a supported key, the default value (37, 4, 128) if there was none, and `None` for any other key. -/
theorem C23_options_map (calls : List OptionCall) :
    (∀ t, (Options.after calls).getRegularQuadratureDegree t =
      if t.Supported then some ((lastRegular t calls).getD 37) else none) ∧
    (∀ t, (Options.after calls).getSingularQuadratureDegree t =
      if t.1.Supported ∧ t.2.Supported then some ((lastSingular t calls).getD 4) else none) ∧
    (Options.after calls).getBatchSize = (lastBatch calls).getD 128 := by
  obtain ⟨h1, h2, h3⟩ := options_foldl calls Options.default
  refine ⟨fun t => ?_, fun t => ?_, h3⟩
  · rw [Options.after, h1]
    have : Options.default.getRegularQuadratureDegree t = if t.Supported then some 37 else none := by
      cases t <;> decide
    rw [this]
    split <;> rfl
  · rw [Options.after, h2]
    have : Options.default.getSingularQuadratureDegree t =
        if t.1.Supported ∧ t.2.Supported then some 4 else none := by
      obtain ⟨a, b⟩ := t
      cases a <;> cases b <;> decide
    rw [this]
    split <;> rfl

/-- A history with a repeated key, an unknown key and an untouched key. -/
example : (Options.after [.regular .triangle 5, .regular .prism 7, .regular .triangle 9,
      .batch 3]).getRegularQuadratureDegree .triangle = some 9 ∧
    (Options.after [.regular .prism 7]).getRegularQuadratureDegree .prism = none ∧
    (Options.after [.regular .triangle 5]).getRegularQuadratureDegree .quadrilateral = some 37 := by
  decide

end Bempp
