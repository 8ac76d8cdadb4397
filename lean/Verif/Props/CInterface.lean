import Verif.Proofs.CInterface
import Verif.Proofs.ExampleSettings
/-
C97: programs that use the C interface.
-/
set_option linter.unusedVariables false
namespace Bempp

variable {Γ Φ R T : Type}

section
variable [Zero T] [Add T] [Sub T] [Mul T] [Div T] [Neg T] [Zero R] [Mul R] {newSpace : Γ → Φ → Option (Space R T)}
  {kernel : DType → Kernel R T} {env : DType → Env R T}

theorem StandFor.runs {h h' : CHeap Γ Φ T} {v : CValues Γ Φ R T} {calls : List (CCall Γ Φ R T)} {rs : List (Ffi (CResult T))}
    (s : StandFor newSpace h v) (hd : Disciplined newSpace kernel env v calls) (r : CRuns newSpace kernel env h calls h' rs) :
    ∃ v', CMeans newSpace kernel env v calls v' rs ∧ ∀ r ∈ rs, r ≠ .undefined ∧ r ≠ .raised := by
  induction r generalizing v with
  | nil h => exact ⟨v, .nil v, by simp⟩
  | returned st t ih =>
    obtain ⟨-, v', hm, s'⟩ := (s.step hd.1).1 _ _ st
    obtain ⟨v'', hm', hr⟩ := ih s' (hd.2 _ _ hm)
    refine ⟨v'', .returned hm hm', ?_⟩
    intro r hr'
    rcases List.mem_cons.mp hr' with rfl | hr'
    · simp
    · exact hr r hr'
  | ended st hr =>
    obtain ⟨h1, v', hm, s'⟩ := (s.step hd.1).1 _ _ st
    exact ⟨v', .ended hm hr, by simpa using h1⟩

theorem StandFor.means {h : CHeap Γ Φ T} {v v' : CValues Γ Φ R T} {calls : List (CCall Γ Φ R T)} {rs : List (Ffi (CResult T))}
    (s : StandFor newSpace h v) (hd : Disciplined newSpace kernel env v calls) (r : CMeans newSpace kernel env v calls v' rs) :
    ∃ h', CRuns newSpace kernel env h calls h' rs := by
  induction r generalizing h with
  | nil v => exact ⟨h, .nil h⟩
  | returned st t ih =>
    obtain ⟨h', hs, s'⟩ := (s.step hd.1).2 _ _ st
    obtain ⟨h'', hr⟩ := ih s' (hd.2 _ _ st)
    exact ⟨h'', .returned hs hr⟩
  | ended st hr =>
    obtain ⟨h', hs, s'⟩ := (s.step hd.1).2 _ _ st
    exact ⟨h', .ended hs hr⟩

/-- **C97.** A disciplined C program gets exactly the results that it would get if everything behind its pointers were a value. -/
theorem C97_values {calls : List (CCall Γ Φ R T)} (hd : Disciplined newSpace kernel env CValues.start calls)
    (rs : List (Ffi (CResult T))) :
    (∃ h, CRuns newSpace kernel env CHeap.start calls h rs) ↔ ∃ v, CMeans newSpace kernel env CValues.start calls v rs := by
  constructor
  · rintro ⟨h, hr⟩
    obtain ⟨v, hv, -⟩ := StandFor.start.runs hd hr
    exact ⟨v, hv⟩
  · rintro ⟨v, hv⟩
    exact StandFor.start.means hd hv

/-- **C97.** No call of a disciplined program has undefined behaviour: each one returns or panics. -/
theorem C97_defined {calls : List (CCall Γ Φ R T)} (hd : Disciplined newSpace kernel env CValues.start calls)
    {h : CHeap Γ Φ T} {rs : List (Ffi (CResult T))} (hr : CRuns newSpace kernel env CHeap.start calls h rs) :
    ∀ r ∈ rs, r = .panic ∨ ∃ x, r = .ok x := by
  obtain ⟨v, -, hv⟩ := StandFor.start.runs hd hr
  intro r hr'
  have := hv r hr'
  cases r with
  | ok x => exact .inr ⟨x, rfl⟩
  | panic => exact .inl rfl
  | raised => exact absurd rfl this.2
  | undefined => exact absurd rfl this.1

/-- What a call changes. -/
theorem CCall.Step.effect {h h' : CHeap Γ Φ T} {c : CCall Γ Φ R T} {r : Ffi (CResult T)} (s : c.Step newSpace kernel env h h' r) :
    h' = h ∨ (∃ o, h' = h.alloc o) ∨ (∃ p, h' = h.store p none) ∨
      ∃ p o o', h.live p = some (.options o) ∧ h' = h.store p (some (.options o')) := by
  have made : ∀ (o : Ffi (CObj Γ Φ T)) h' r, (h', r) = h.made o → h' = h ∨ ∃ o, h' = h.alloc o := by
    intro o h' r e
    have e1 : h' = (h.made o).1 := congrArg Prod.fst e
    cases o with
    | ok o => exact .inr ⟨o, e1⟩
    | _ => exact .inl e1
  have made' : ∀ (o : Ffi (CObj Γ Φ T)) h' r, (h', r) = h.made o → h' = h ∨ (∃ o, h' = h.alloc o) ∨ (∃ p, h' = h.store p none) ∨
      ∃ p o o', h.live p = some (.options o) ∧ h' = h.store p (some (.options o')) := fun o h' r e =>
    (made o h' r e).elim .inl fun x => .inr (.inl x)
  cases c with
  | assemble a trial test =>
    simp only [CCall.Step] at s
    split at s
    · obtain ⟨out, -, e⟩ := s
      exact made' _ _ _ e
    all_goals exact .inl s.1
  | assembleSingular a trial test =>
    simp only [CCall.Step] at s
    split at s
    · obtain ⟨out, -, e⟩ := s
      exact made' _ _ _ e
    all_goals exact .inl s.1
  | assembleIntoMemory a trial test data => exact .inl s.1
  | free k p =>
    cases p with
    | none => exact .inl (congrArg Prod.fst s)
    | some p =>
      simp only [CCall.Step, CHeap.call] at s
      split at s
      · exact .inr (.inr (.inl ⟨p, congrArg Prod.fst s⟩))
      · exact .inl (congrArg Prod.fst s)
  | setOptions p c =>
    have s' : (h', r) = h.call newSpace (.setOptions p c : CCall Γ Φ R T) := s
    cases hp : h.live p with
    | none =>
      left
      have : h.readOptions p = .undefined := by simp [CHeap.readOptions, hp]
      simp only [CHeap.call, this] at s'
      exact congrArg Prod.fst s'
    | some o =>
      by_cases ho : ∃ x, o = .options x
      · obtain ⟨x, rfl⟩ := ho
        have : h.readOptions p = .ok x := by simp [CHeap.readOptions, hp]
        simp only [CHeap.call, this] at s'
        split at s'
        · exact .inl (congrArg Prod.fst s')
        · exact .inr (.inr (.inr ⟨p, x, _, hp, congrArg Prod.fst s'⟩))
      · left
        have : h.readOptions p = .undefined := by
          cases o with
          | options x => exact absurd ⟨x, rfl⟩ ho
          | _ => simp [CHeap.readOptions, hp]
        simp only [CHeap.call, this] at s'
        exact congrArg Prod.fst s'
  | space p q => exact .inl (congrArg Prod.fst s)
  | getOptions p q => exact .inl (congrArg Prod.fst s)
  | assemblerDtype a => exact .inl (congrArg Prod.fst s)
  | matrix m q => exact .inl (congrArg Prod.fst s)
  | matrixPointer m part => exact .inl (congrArg Prod.fst s)
  | load m part i => exact .inl (congrArg Prod.fst s)
  | createGrid b r x => exact .inr (.inl ⟨_, congrArg Prod.fst s⟩)
  | createFamily k d x => exact .inr (.inl ⟨_, congrArg Prod.fst s⟩)
  | newOptions => exact .inr (.inl ⟨_, congrArg Prod.fst s⟩)
  | functionSpace g f => exact made' _ _ _ s
  | localSpace p => exact made' _ _ _ s
  | laplaceNew p op d => exact made' _ _ _ s
  | helmholtzNew k p op d => exact made' _ _ _ s

/-- A pointer never becomes a pointer to an assembler of another operator or precision. -/
theorem CRuns.assembler {h h' : CHeap Γ Φ T} {calls : List (CCall Γ Φ R T)} {rs : List (Ffi (CResult T))}
    (r : CRuns newSpace kernel env h calls h' rs) {a : Nat} (ha : a < h.next)
    (he : ∀ e op d p, h.live a = some (.assembler e op d p) → e = .helmholtz) :
    ∀ e op d p, h'.live a = some (.assembler e op d p) → e = .helmholtz := by
  have key : ∀ {h h' : CHeap Γ Φ T} {c : CCall Γ Φ R T} {r : Ffi (CResult T)}, c.Step newSpace kernel env h h' r → a < h.next →
      (∀ e op d p, h.live a = some (.assembler e op d p) → e = .helmholtz) →
      a < h'.next ∧ ∀ e op d p, h'.live a = some (.assembler e op d p) → e = .helmholtz := by
    intro h h' c r s ha he
    rcases s.effect with rfl | ⟨o, rfl⟩ | ⟨p, rfl⟩ | ⟨p, o, o', -, rfl⟩
    · exact ⟨ha, he⟩
    · refine ⟨Nat.lt_succ_of_lt ha, ?_⟩
      have : a ≠ h.next := by omega
      simpa [CHeap.alloc, this] using he
    · refine ⟨ha, fun e op d q hq => ?_⟩
      by_cases hp : a = p
      · simp [CHeap.store, hp] at hq
      · simp only [CHeap.store, hp, if_false] at hq
        exact he e op d q hq
    · refine ⟨ha, fun e op d q hq => ?_⟩
      by_cases hp : a = p
      · simp [CHeap.store, hp] at hq
      · simp only [CHeap.store, hp, if_false] at hq
        exact he e op d q hq
  induction r with
  | nil h => exact he
  | returned s t ih =>
    obtain ⟨h1, h2⟩ := key s ha he
    exact ih h1 h2
  | ended s hr => exact (key s ha he).2

/-- **C97.** A Helmholtz assembler cannot be used: in any program, disciplined or not, a pointer that `helmholtz_boundary_assembler_new`
returned is never one with which a call to assemble returns. -/
theorem C97_helmholtz {h₀ h₁ h₂ h₃ : CHeap Γ Φ T} {k : RealType × R} {p a : Nat} {op : PyOperator} {d : DType}
    {calls : List (CCall Γ Φ R T)} {rs : List (Ffi (CResult T))} {r : Ffi (CResult T)}
    (hnew : (CCall.helmholtzNew k p op d : CCall Γ Φ R T).Step newSpace kernel env h₀ h₁ (.ok (.handle a)))
    (hruns : CRuns newSpace kernel env h₁ calls h₂ rs) (c : CCall Γ Φ R T)
    (hc : ∃ trial test, c = .assemble a trial test ∨ c = .assembleSingular a trial test ∨
      ∃ data, c = .assembleIntoMemory a trial test data)
    (hstep : c.Step newSpace kernel env h₂ h₃ r) : (∀ x, r ≠ .ok x) ∧ h₃ = h₂ := by
  obtain ⟨hlt, hlive⟩ : a < h₁.next ∧ ∀ e op d p, h₁.live a = some (.assembler e op d p) → e = .helmholtz := by
    have e : (h₁, Ffi.ok (CResult.handle a)) = h₀.made (h₀.helmholtzNew k p op d) := hnew
    cases ho : h₀.helmholtzNew k p op d with
    | ok o =>
      rw [ho] at e
      have e1 : h₁ = h₀.alloc o := congrArg Prod.fst e
      have e2 : a = h₀.next := by
        have e3 := congrArg Prod.snd e
        injection e3 with e4
        injection e4
      have ho' : ∃ op d p, o = .assembler .helmholtz op d p := by
        cases hr : h₀.readOptions p with
        | ok x =>
          by_cases hk : k.1 = d.real <;> cases d <;> cases op <;>
            simp [CHeap.helmholtzNew, hk, hr, Bind.bind, Ffi.bind] at ho <;> exact ⟨_, _, _, ho.symm⟩
        | _ =>
          by_cases hk : k.1 = d.real <;> cases d <;> simp [CHeap.helmholtzNew, hk, hr, Bind.bind, Ffi.bind] at ho
      subst e1 e2
      refine ⟨Nat.lt_succ_self _, fun e op d p hl => ?_⟩
      obtain ⟨op', d', p', rfl⟩ := ho'
      simp only [CHeap.alloc, if_true, Option.some.injEq, CObj.assembler.injEq] at hl
      exact hl.1.symm
    | raised => rw [ho] at e; cases congrArg Prod.snd e
    | panic => rw [ho] at e; cases congrArg Prod.snd e
    | undefined => rw [ho] at e; cases congrArg Prod.snd e
  have hl := hruns.assembler hlt hlive
  have hargs : ∀ trial test, ∀ x, h₂.arguments newSpace kernel a trial test ≠ .ok x := by
    intro trial test x hx
    have hx' : Ffi.bind (h₂.read .assembler a) _ = .ok x := hx
    cases ha : h₂.read .assembler a with
    | ok o =>
      rw [ha] at hx'
      have hx'' : Ffi.bind (h₂.read .space trial) _ = .ok x := hx'
      cases hb : h₂.read .space trial with
      | ok y =>
        rw [hb] at hx''
        have hx3 : Ffi.bind (h₂.read .space test) _ = .ok x := hx''
        cases hc : h₂.read .space test with
        | ok z =>
          rw [hc] at hx3
          have hx4 : concretise RustType.assembleTable (o.type ++ y.type ++ z.type) _ = .ok x := hx3
          unfold concretise at hx4
          split at hx4
          · rename_i hm
            unfold CHeap.read at ha
            split at ha
            · rename_i o' ho'
              split at ha
              · cases ha
                rename_i hk
                cases o with
                | assembler e op d p =>
                  have := hl e op d p ho'
                  subst this
                  unfold RustType.assembleTable at hm
                  simp only [List.mem_flatMap, List.mem_map, CObj.type] at hm
                  obtain ⟨d', -, b', -, op', -, e⟩ := hm
                  simp at e
                | _ => cases hk
              · cases ha
            · cases ha
          · cases hx4
        | _ => rw [hc] at hx3; cases hx3
      | _ => rw [hb] at hx''; cases hx''
    | _ => rw [ha] at hx'; cases hx'
  obtain ⟨trial, test, rfl | rfl | ⟨data, rfl⟩⟩ := hc
  · simp only [CCall.Step] at hstep
    split at hstep
    · rename_i hx; exact absurd hx (hargs trial test _)
    all_goals exact ⟨fun x hx => (by rw [hstep.2] at hx; cases hx), hstep.1⟩
  · simp only [CCall.Step] at hstep
    split at hstep
    · rename_i hx; exact absurd hx (hargs trial test _)
    all_goals exact ⟨fun x hx => (by rw [hstep.2] at hx; cases hx), hstep.1⟩
  · refine ⟨?_, hstep.1⟩
    have := hstep.2
    split at this
    · rename_i hx; exact absurd hx (hargs trial test _)
    all_goals exact fun x hx => by rw [this] at hx; cases hx

end

/-- **C97.** From start to end: with an assembler of a Laplace operator and two spaces of its scalar type on grids of the same kind, the
call makes a dense matrix with as many rows as the test space and as many columns as the trial space has DOFs, whose entries are the
sums over all pairs of cells of the quadrature values of the pair. -/
theorem C97_laplace [Zero R] [Mul R] [Neg R] [AddCommMonoid T] [Mul T] [Sub T] [Div T] [Neg T]
    {newSpace : Γ → Φ → Option (Space R T)} {kernel : DType → Kernel R T} {env : DType → Env R T} {v : CValues Γ Φ R T}
    {a trial test : Nat} {op : PyOperator} {d : DType} {o : Options} {b : Bool} {x y : Space R T}
    (ha : v.value a = some (.assembler .laplace op d o)) (ht : v.value trial = some (.space d b x))
    (hs : v.value test = some (.space d b y))
    {famT famR : CellType → ElementDofs} {K : MathKernel R T} {GT GR : Geometry R} {BT BR : Basis R T} {Q : Quadrature R} {t : CellType}
    (h : SpacePair (env d) o x y famT famR GT GR BT BR Q t) (hb : 0 < o.batchSize)
    (h1 : (kernel d).Computes .value K) (h2 : (kernel d).Computes .valueDeriv K) {F : MathIntegrand T}
    (hF : laplaceIntegrand op = some F) :
    ∃ M : List T, (∀ e, (CCall.assemble a trial test : CCall Γ Φ R T).Means newSpace kernel env v e ↔
        e = (v.add (.dense d (y.fs.globalSize, x.fs.globalSize) M) [], .ok (.handle v.next))) ∧
      M.length = y.fs.globalSize * x.fs.globalSize ∧
      ∀ i j, i < y.fs.globalSize → j < x.fs.globalSize → M[i + y.fs.globalSize * j]? =
        some (doubleSum y.fs x.fs (cellPairValue (env d).cast F K GT GR BT BR Q y.fs x.fs) i j) := by
  obtain ⟨asm, hasm, hw⟩ : ∃ asm, laplaceOperator (kernel d) o op = some asm ∧ OperatorWith (env d).cast o K asm F := by
    cases op <;> simp only [laplaceIntegrand, Option.some.injEq, reduceCtorEq] at hF <;> subst hF
    · exact ⟨_, rfl, .laplaceSingleLayer h1⟩
    · exact ⟨_, rfl, .laplaceDoubleLayer h2⟩
    · exact ⟨_, rfl, .laplaceAdjoint h2⟩
    · exact ⟨_, rfl, .laplaceHypersingular h2⟩
  obtain ⟨M, hM, hl, hv⟩ := C14_operators h hw hb
  have hcan : CanAssemble kernel v a trial test d asm x y := ⟨op, o, b, ha, hasm, ht, hs⟩
  refine ⟨M, fun e => ?_, hl, hv⟩
  constructor
  · intro hm
    cases hm with
    | simple hsimple => exact absurd trivial hsimple.not_assembles
    | assembleOther hno => exact absurd hcan (hno _ _ _ _)
    | assemble hcan' ho =>
      obtain ⟨rfl, rfl, rfl, rfl⟩ := hcan.unique hcan'
      rw [(hM _).mp ho]
      rfl
  · rintro rfl
    have := CCall.Means.assemble (newSpace := newSpace) hcan ((hM _).mpr rfl)
    exact this

/-! ### The hypotheses can be met -/

section
variable [Zero T] [Add T] [Sub T] [Mul T] [Div T] [Neg T] [Zero R] [Mul R] {newSpace : Γ → Φ → Option (Space R T)}
  {kernel : DType → Kernel R T} {env : DType → Env R T}

theorem CCall.Simple.only {v : CValues Γ Φ R T} {c : CCall Γ Φ R T} {e e' : CValues Γ Φ R T × Ffi (CResult T)}
    (hs : c.Simple newSpace v e) (hm : c.Means newSpace kernel env v e') : e' = e := by
  have hn := hs.not_assembles
  cases hm with
  | simple h => exact h.unique hs
  | _ => exact absurd trivial hn

/-- A program whose first call has one possible result. -/
theorem Disciplined.only {v v' : CValues Γ Φ R T} {c : CCall Γ Φ R T} {cs : List (CCall Γ Φ R T)} {x : CResult T}
    (ha : c.Allowed v) (hm : ∀ e, c.Means newSpace kernel env v e ↔ e = (v', .ok x)) (hd : Disciplined newSpace kernel env v' cs) :
    Disciplined newSpace kernel env v (c :: cs) := by
  refine ⟨ha, fun v'' y h => ?_⟩
  cases (hm _).mp h
  exact hd

theorem CMeans.only {v v' : CValues Γ Φ R T} {c : CCall Γ Φ R T} {cs : List (CCall Γ Φ R T)} {x : CResult T}
    {rs' : List (Ffi (CResult T))} (hm : ∀ e, c.Means newSpace kernel env v e ↔ e = (v', .ok x))
    (h : ∀ rs, (∃ w, CMeans newSpace kernel env v' cs w rs) ↔ rs = rs') (rs : List (Ffi (CResult T))) :
    (∃ w, CMeans newSpace kernel env v (c :: cs) w rs) ↔ rs = .ok x :: rs' := by
  constructor
  · rintro ⟨w, hw⟩
    cases hw with
    | returned s t =>
      cases (hm _).mp s
      rw [(h _).mp ⟨_, t⟩]
    | ended s hr =>
      cases (hm _).mp s
      exact absurd rfl (hr x)
  · rintro rfl
    obtain ⟨w, hw⟩ := (h _).mpr rfl
    exact ⟨w, .returned ((hm _).mpr rfl) hw⟩

theorem CCall.Simple.iff {v : CValues Γ Φ R T} {c : CCall Γ Φ R T} {e : CValues Γ Φ R T × Ffi (CResult T)}
    (hs : c.Simple newSpace v e) (e' : CValues Γ Φ R T × Ffi (CResult T)) : c.Means newSpace kernel env v e' ↔ e' = e :=
  ⟨fun h => hs.only h, fun h => h ▸ .simple hs⟩

theorem CMeans.end_only {v : CValues Γ Φ R T} (rs : List (Ffi (CResult T))) :
    (∃ w, CMeans newSpace kernel env v [] w rs) ↔ rs = [] := by
  constructor
  · rintro ⟨w, hw⟩
    cases hw
    rfl
  · rintro rfl
    exact ⟨v, .nil v⟩

end

namespace Examples

/-- `SerialFunctionSpace::new` on the octahedron, the only grid of the example. -/
def octNewSpace : Unit → Unit → Option (Space Rat Rat) := fun _ _ => some (Examples.spaceOf octFs p1 octGeometry p1Basis)

/-- A C program: the single layer matrix on the octahedron; everything but the matrix is freed before the matrix is used. -/
def octProgram : List (CCall Unit Unit Rat Rat) :=
  [.createGrid false .f64 (), .createFamily .lagrange .f64 (), .functionSpace 0 1, .newOptions,
    .setOptions 3 (.regular .triangle 2), .laplaceNew 3 .singleLayer .f64, .assemble 4 2 2,
    .free .assembler (some 4), .free .options (some 3), .free .space (some 2), .free .grid (some 0), .matrix 5 .shape,
    .matrixPointer 5 .dense, .load 5 .dense 7]

/-- The values before the call to assemble. -/
def octValues : CValues Unit Unit Rat Rat :=
  ((((((CValues.start.add (.grid false .f64 ()) []).add (.family .f64 ()) []).add
    (.space .f64 false (Examples.spaceOf octFs p1 octGeometry p1Basis)) [0, 1]).add (.options Options.default) []).put 3
    (some (.options smallOptions))).add (.assembler .laplace .singleLayer .f64 smallOptions) [3])

end Examples

open Examples

theorem octProgram_assembles : ∃ M : List Rat, M.length = octFs.globalSize * octFs.globalSize ∧ ∀ e,
    (CCall.assemble 4 2 2 : CCall Unit Unit Rat Rat).Means octNewSpace (fun _ => kernelOf squareKernel) (fun _ => exEnv) octValues e ↔
      e = (octValues.add (.dense .f64 (octFs.globalSize, octFs.globalSize) M) [], .ok (.handle 5)) := by
  obtain ⟨M, h, hl, -⟩ := C97_laplace (Γ := Unit) (Φ := Unit) (newSpace := octNewSpace) (kernel := fun _ => kernelOf squareKernel)
    (env := fun _ => exEnv) (v := octValues) (a := 4) (trial := 2) (test := 2) (op := .singleLayer) (d := .f64) (b := false) rfl rfl rfl
    (octSpacePair octFs_space.1 octFs_space.2) (by decide) (kernelOf_computes squareKernel _) (kernelOf_computes squareKernel _) rfl
  exact ⟨M, hl, h⟩

/-- The octahedron program is disciplined, and this is what it gets. -/
theorem octProgram_results : Disciplined octNewSpace (fun _ => kernelOf squareKernel) (fun _ => exEnv) CValues.start octProgram ∧
    ∃ x, ∀ rs, (∃ h, CRuns octNewSpace (fun _ => kernelOf squareKernel) (fun _ => exEnv) CHeap.start octProgram h rs) ↔
      rs = [.ok (.handle 0), .ok (.handle 1), .ok (.handle 2), .ok (.handle 3), .ok .nothing, .ok (.handle 4), .ok (.handle 5),
        .ok .nothing, .ok .nothing, .ok .nothing, .ok .nothing, .ok (.shape (6, 6)),
        .ok (.pointer 5 .dense), .ok (.value x)] := by
  obtain ⟨M, hlen, hM⟩ := octProgram_assembles
  have h6 : octFs.globalSize = 6 := by decide +kernel
  have h7 : 7 < M.length := by rw [hlen, h6]; decide
  have hload : (List.map CResult.value M)[7]? = some (.value M[7]) := by rw [List.getElem?_map, List.getElem?_eq_getElem h7]; rfl
  have hd : Disciplined octNewSpace (fun _ => kernelOf squareKernel) (fun _ => exEnv) CValues.start octProgram := by
    refine .only trivial (CCall.Simple.createGrid _ _ _).iff ?_
    refine .only trivial (CCall.Simple.createFamily _ _ _).iff ?_
    refine .only ⟨⟨_, rfl, rfl⟩, ⟨_, rfl, rfl⟩⟩ (CCall.Simple.functionSpace rfl rfl rfl).iff ?_
    refine .only trivial CCall.Simple.newOptions.iff ?_
    refine .only ⟨⟨_, rfl, rfl⟩, ?_⟩ (CCall.Simple.setOptions _ rfl).iff ?_
    · rintro ⟨q, h1, h2⟩
      rcases q with _ | _ | _ | _ | _ | _ | q <;>
        simp [CValues.add, CValues.start] at h1 h2
    refine .only ⟨_, rfl, rfl⟩ (CCall.Simple.laplaceNew rfl (.inl rfl) (.inr rfl)).iff ?_
    refine .only ⟨⟨_, rfl, rfl⟩, ⟨_, rfl, rfl⟩, ⟨_, rfl, rfl⟩⟩ hM ?_
    refine .only ⟨⟨_, rfl, rfl⟩, ?_⟩ (CCall.Simple.free _ _).iff ?_
    · rintro ⟨q, h1, h2⟩
      rcases q with _ | _ | _ | _ | _ | _ | q <;>
        simp [octValues, CValues.add, CValues.put, CValues.start] at h1 h2
    refine .only ⟨⟨_, rfl, rfl⟩, ?_⟩ (CCall.Simple.free _ _).iff ?_
    · rintro ⟨q, h1, h2⟩
      rcases q with _ | _ | _ | _ | _ | _ | q <;>
        simp [octValues, CValues.add, CValues.put, CValues.start] at h1 h2
    refine .only ⟨⟨_, rfl, rfl⟩, ?_⟩ (CCall.Simple.free _ _).iff ?_
    · rintro ⟨q, h1, h2⟩
      rcases q with _ | _ | _ | _ | _ | _ | q <;>
        simp [octValues, CValues.add, CValues.put, CValues.start] at h1 h2
    refine .only ⟨⟨_, rfl, rfl⟩, ?_⟩ (CCall.Simple.free _ _).iff ?_
    · rintro ⟨q, h1, h2⟩
      rcases q with _ | _ | _ | _ | _ | _ | q <;>
        simp [octValues, CValues.add, CValues.put, CValues.start] at h1 h2
    refine .only ⟨⟨_, rfl, rfl⟩, fun x hx => ?_⟩ (CCall.Simple.matrix (x := .dense .f64 (octFs.globalSize, octFs.globalSize) M) .shape rfl).iff ?_
    · cases hx
      trivial
    refine .only ⟨_, rfl, rfl⟩ (CCall.Simple.matrixPointer (x := .dense .f64 (octFs.globalSize, octFs.globalSize) M) rfl
      (by simp [MatrixPart.content])).iff ?_
    refine .only ⟨⟨_, rfl, rfl⟩, _, _, rfl, rfl, by rw [List.length_map]; exact h7⟩
      (CCall.Simple.load (x := .dense .f64 (octFs.globalSize, octFs.globalSize) M) rfl rfl hload).iff ?_
    trivial
  refine ⟨hd, M[7], fun rs => (C97_values hd rs).trans ?_⟩
  rw [← h6]
  revert rs
  refine CMeans.only (CCall.Simple.createGrid _ _ _).iff ?_
  refine CMeans.only (CCall.Simple.createFamily _ _ _).iff ?_
  refine CMeans.only (CCall.Simple.functionSpace rfl rfl rfl).iff ?_
  refine CMeans.only CCall.Simple.newOptions.iff ?_
  refine CMeans.only (CCall.Simple.setOptions _ rfl).iff ?_
  refine CMeans.only (CCall.Simple.laplaceNew rfl (.inl rfl) (.inr rfl)).iff ?_
  refine CMeans.only hM ?_
  refine CMeans.only (CCall.Simple.free _ _).iff ?_
  refine CMeans.only (CCall.Simple.free _ _).iff ?_
  refine CMeans.only (CCall.Simple.free _ _).iff ?_
  refine CMeans.only (CCall.Simple.free _ _).iff ?_
  refine CMeans.only (CCall.Simple.matrix (x := .dense .f64 (octFs.globalSize, octFs.globalSize) M) .shape rfl).iff ?_
  refine CMeans.only (CCall.Simple.matrixPointer (x := .dense .f64 (octFs.globalSize, octFs.globalSize) M) rfl
    (by simp [MatrixPart.content])).iff ?_
  refine CMeans.only (CCall.Simple.load (x := .dense .f64 (octFs.globalSize, octFs.globalSize) M) rfl rfl hload).iff ?_
  exact CMeans.end_only

section
variable [Zero T] [Add T] [Sub T] [Mul T] [Div T] [Neg T] [Zero R] [Mul R] {newSpace : Γ → Φ → Option (Space R T)}
  {kernel : DType → Kernel R T} {env : DType → Env R T}

/-- **C97.** The discipline is needed: a space does not keep its grid. A program that frees the grid and then uses the space has
undefined behaviour, whatever the grid and the space are. -/
theorem C97_freed_grid {x : Γ} {y : Φ} {s : Space R T} (hs : newSpace x y = some s) {k : FamilyType} {d : DType} {b : Bool}
    (q : SpaceQuery) : ∃ h, CRuns newSpace kernel env CHeap.start
      [.createGrid b d.real x, .createFamily k d y, .functionSpace 0 1, .free .grid (some 0), .space 2 q] h
      [.ok (.handle 0), .ok (.handle 1), .ok (.handle 2), .ok .nothing, .undefined] := by
  have hm : [RustType.grid b d.real, RustType.family k d] ∈ RustType.functionSpaceTable := mem_functionSpaceTable.mpr rfl
  have hm2 : [RustType.space d b d.real] ∈ RustType.spaceTable := mem_spaceTable.mpr rfl
  refine ⟨_, .returned (h' := CHeap.start.alloc (.grid b d.real x)) rfl (.returned
    (h' := (CHeap.start.alloc (.grid b d.real x)).alloc (.family k d y)) rfl (.returned
    (h' := ((CHeap.start.alloc (.grid b d.real x)).alloc (.family k d y)).alloc (.space d b d.real 0 1)) ?_ (.returned
    (h' := (((CHeap.start.alloc (.grid b d.real x)).alloc (.family k d y)).alloc (.space d b d.real 0 1)).store 0 none) ?_
    (.ended (h' := (((CHeap.start.alloc (.grid b d.real x)).alloc (.family k d y)).alloc (.space d b d.real 0 1)).store 0 none) ?_
      (by simp)))))⟩
  · simp [CCall.Step, CHeap.call, CHeap.read, CHeap.alloc, CHeap.start, CObj.kind, CObj.type, Bind.bind, Ffi.bind, concretise, hm, hs,
      Ffi.rust, CHeap.made, pure]
  · simp [CCall.Step, CHeap.call, CHeap.read, CHeap.alloc, CHeap.start, CObj.kind]
  · simp [CCall.Step, CHeap.call, CHeap.read, CHeap.alloc, CHeap.start, CHeap.store, CObj.kind, CObj.type, Bind.bind, Ffi.bind,
      concretise, hm2, CHeap.spaceOf]

/-- **C97.** The same for the options: an assembler does not keep a copy. -/
theorem C97_freed_options {x : Γ} {y : Φ} {s : Space R T} (hs : newSpace x y = some s) {k : FamilyType} {d : DType} {b : Bool}
    {op : PyOperator} (hop : op.IsLayer) (hd : d.IsReal) : ∃ h, CRuns newSpace kernel env CHeap.start
      [.createGrid b d.real x, .createFamily k d y, .functionSpace 0 1, .newOptions, .laplaceNew 3 op d, .free .options (some 3),
        .assemble 4 2 2] h
      [.ok (.handle 0), .ok (.handle 1), .ok (.handle 2), .ok (.handle 3), .ok (.handle 4), .ok .nothing, .undefined] := by
  have hm : [RustType.grid b d.real, RustType.family k d] ∈ RustType.functionSpaceTable := mem_functionSpaceTable.mpr rfl
  have hm2 : [RustType.assembler .laplace op d, .space d b d.real, .space d b d.real] ∈ RustType.assembleTable :=
    mem_assembleTable.mpr ⟨rfl, hop, rfl, rfl, rfl, rfl, rfl⟩
  let h3 : CHeap Γ Φ T := ((CHeap.start.alloc (.grid b d.real x)).alloc (.family k d y)).alloc (.space d b d.real 0 1)
  let h4 : CHeap Γ Φ T := h3.alloc (.options Options.default)
  let h5 : CHeap Γ Φ T := h4.alloc (.assembler .laplace op d 3)
  refine ⟨_, .returned (h' := CHeap.start.alloc (.grid b d.real x)) rfl (.returned
    (h' := (CHeap.start.alloc (.grid b d.real x)).alloc (.family k d y)) rfl (.returned (h' := h3) ?_ (.returned (h' := h4) rfl
    (.returned (h' := h5) ?_ (.returned (h' := h5.store 3 none) ?_ (.ended (h' := h5.store 3 none) ?_ (by simp)))))))⟩
  · simp [h3, CCall.Step, CHeap.call, CHeap.read, CHeap.alloc, CHeap.start, CObj.kind, CObj.type, Bind.bind, Ffi.bind, concretise, hm, hs,
      Ffi.rust, CHeap.made, pure]
  · have : h4.laplaceNew 3 op d = .ok (.assembler .laplace op d 3) := by
      have hr : h4.readOptions 3 = .ok Options.default := rfl
      unfold CHeap.laplaceNew
      rw [hr]
      rcases hop with rfl | rfl | rfl | rfl <;> rcases hd with rfl | rfl <;> rfl
    show (h5, _) = h4.made _
    rw [this]
    rfl
  · simp [h5, h4, h3, CCall.Step, CHeap.call, CHeap.read, CHeap.alloc, CHeap.start, CObj.kind]
  · have : (h5.store 3 none).arguments newSpace kernel 4 2 2 = .undefined := by
      simp [h5, h4, h3, CHeap.arguments, CHeap.read, CHeap.alloc, CHeap.start, CHeap.store, CObj.kind, CObj.type, Bind.bind, Ffi.bind,
        concretise, hm2, CHeap.readOptions]
    simp [CCall.Step, this]

/-- **C97.** The memory for the matrix must be large enough: with less memory a call that assembles into it has undefined behaviour (the
function makes a slice with as many numbers as the matrix has). -/
theorem C97_small_memory {x : Γ} {y : Φ} {s : Space R T} (hs : newSpace x y = some s) {k : FamilyType} {d : DType} {b : Bool}
    {op : PyOperator} (hop : op.IsLayer) (hd : d.IsReal) {data : List T} (hl : data.length < s.fs.globalSize * s.fs.globalSize) :
    ∃ h, CRuns newSpace kernel env CHeap.start
      [.createGrid b d.real x, .createFamily k d y, .functionSpace 0 1, .newOptions, .laplaceNew 3 op d,
        .assembleIntoMemory 4 2 2 data] h
      [.ok (.handle 0), .ok (.handle 1), .ok (.handle 2), .ok (.handle 3), .ok (.handle 4), .undefined] := by
  have hm : [RustType.grid b d.real, RustType.family k d] ∈ RustType.functionSpaceTable := mem_functionSpaceTable.mpr rfl
  have hm2 : [RustType.assembler .laplace op d, .space d b d.real, .space d b d.real] ∈ RustType.assembleTable :=
    mem_assembleTable.mpr ⟨rfl, hop, rfl, rfl, rfl, rfl, rfl⟩
  let h3 : CHeap Γ Φ T := ((CHeap.start.alloc (.grid b d.real x)).alloc (.family k d y)).alloc (.space d b d.real 0 1)
  let h4 : CHeap Γ Φ T := h3.alloc (.options Options.default)
  let h5 : CHeap Γ Φ T := h4.alloc (.assembler .laplace op d 3)
  refine ⟨_, .returned (h' := CHeap.start.alloc (.grid b d.real x)) rfl (.returned
    (h' := (CHeap.start.alloc (.grid b d.real x)).alloc (.family k d y)) rfl (.returned (h' := h3) ?_ (.returned (h' := h4) rfl
    (.returned (h' := h5) ?_ (.ended (h' := h5) ?_ (by simp))))))⟩
  · simp [h3, CCall.Step, CHeap.call, CHeap.read, CHeap.alloc, CHeap.start, CObj.kind, CObj.type, Bind.bind, Ffi.bind, concretise, hm, hs,
      Ffi.rust, CHeap.made, pure]
  · have : h4.laplaceNew 3 op d = .ok (.assembler .laplace op d 3) := by
      have hr : h4.readOptions 3 = .ok Options.default := rfl
      unfold CHeap.laplaceNew
      rw [hr]
      rcases hop with rfl | rfl | rfl | rfl <;> rcases hd with rfl | rfl <;> rfl
    show (h5, _) = h4.made _
    rw [this]
    rfl
  · have : ∃ asm, h5.arguments newSpace kernel 4 2 2 = .ok (d, asm, s, s) := by
      obtain ⟨asm, ha⟩ : ∃ asm, createLaplaceAssembler (kernel d) op Options.default d = .ok asm := by
        rcases hop with rfl | rfl | rfl | rfl <;> rcases hd with rfl | rfl <;> exact ⟨_, rfl⟩
      refine ⟨asm.asm, ?_⟩
      simp [h5, h4, h3, CHeap.arguments, CHeap.read, CHeap.alloc, CHeap.start, CObj.kind, CObj.type, Bind.bind, Ffi.bind,
        concretise, hm2, CHeap.readOptions, CHeap.spaceOf, hs, Ffi.mem, ha, pure]
    obtain ⟨asm, ha⟩ := this
    refine ⟨rfl, ?_⟩
    rw [ha]
    show if data.length < s.fs.globalSize * s.fs.globalSize then Ffi.undefined = Ffi.undefined else _
    rw [if_pos hl]

/-- On the octahedron the matrix has 36 numbers. -/
example : ∃ h, CRuns Examples.octNewSpace (fun _ => kernelOf Examples.squareKernel) (fun _ => Examples.exEnv) CHeap.start
    [.createGrid false .f64 (), .createFamily .lagrange .f64 (), .functionSpace 0 1, .newOptions, .laplaceNew 3 .singleLayer .f64,
      .assembleIntoMemory 4 2 2 (List.replicate 35 0)] h
    [.ok (.handle 0), .ok (.handle 1), .ok (.handle 2), .ok (.handle 3), .ok (.handle 4), .undefined] :=
  C97_small_memory (d := .f64) (x := ()) (y := ()) rfl (.inl rfl) (.inr rfl) (by
    have : (Examples.spaceOf octFs p1 octGeometry p1Basis).fs.globalSize = 6 := by decide +kernel
    rw [this]
    decide)

/-- **C97.** Options must not be changed while there is an assembler with them. -/
theorem C97_changed_options {op : PyOperator} (hop : op.IsLayer) {d : DType} (hd : d.IsReal) (c : OptionChange) :
    ∃ h, CRuns newSpace kernel env CHeap.start [.newOptions, .laplaceNew 0 op d, .setOptions 0 c] h
      [.ok (.handle 0), .ok (.handle 1), .undefined] := by
  let h1 : CHeap Γ Φ T := CHeap.start.alloc (.options Options.default)
  let h2 : CHeap Γ Φ T := h1.alloc (.assembler .laplace op d 0)
  refine ⟨_, .returned (h' := h1) rfl (.returned (h' := h2) ?_ (.ended (h' := h2) ?_ (by simp)))⟩
  · have : h1.laplaceNew 0 op d = .ok (.assembler .laplace op d 0) := by
      have hr : h1.readOptions 0 = .ok Options.default := rfl
      unfold CHeap.laplaceNew
      rw [hr]
      rcases hop with rfl | rfl | rfl | rfl <;> rcases hd with rfl | rfl <;> rfl
    show (h2, _) = h1.made _
    rw [this]
    rfl
  · have hb : h2.Borrowed 0 := ⟨1, .laplace, op, d, rfl⟩
    have hr : h2.readOptions 0 = .ok Options.default := rfl
    simp [CCall.Step, CHeap.call, hr, hb]

/-- **C97.** A pointer to the numbers of a matrix is of no use after the matrix was freed: in any program to read through it is then
undefined behaviour. -/
theorem C97_freed_matrix {h h' h'' : CHeap Γ Φ T} {m : Nat} (hm : m < h.next)
    {x : CResult T} (hf : (CCall.free .matrix (some m) : CCall Γ Φ R T).Step newSpace kernel env h h' (.ok x))
    {calls : List (CCall Γ Φ R T)} {rs : List (Ffi (CResult T))} (hr : CRuns newSpace kernel env h' calls h'' rs) (part : MatrixPart)
    (i : Nat) {h₃ : CHeap Γ Φ T} {r : Ffi (CResult T)}
    (hl : (CCall.load m part i : CCall Γ Φ R T).Step newSpace kernel env h'' h₃ r) : r = .undefined := by
  have dead : ∀ {h h'' : CHeap Γ Φ T} {calls : List (CCall Γ Φ R T)} {rs : List (Ffi (CResult T))},
      CRuns newSpace kernel env h calls h'' rs → m < h.next → h.live m = none → h''.live m = none := by
    have one : ∀ {h h' : CHeap Γ Φ T} {c : CCall Γ Φ R T} {r : Ffi (CResult T)}, c.Step newSpace kernel env h h' r →
        m < h.next → h.live m = none → m < h'.next ∧ h'.live m = none := by
      intro h h' c r s hn hz
      rcases s.effect with rfl | ⟨o, rfl⟩ | ⟨p, rfl⟩ | ⟨p, o, o', hp, rfl⟩
      · exact ⟨hn, hz⟩
      · exact ⟨Nat.lt_succ_of_lt hn, by simp [CHeap.alloc, Nat.ne_of_lt hn, hz]⟩
      · refine ⟨hn, ?_⟩
        simp only [CHeap.store]
        split
        · rfl
        · exact hz
      · refine ⟨hn, ?_⟩
        have : m ≠ p := by rintro rfl; rw [hz] at hp; cases hp
        simp [CHeap.store, this, hz]
    intro h h'' calls rs hr
    induction hr with
    | nil => exact fun _ hz => hz
    | returned s _ ih => exact fun hn hz => ih (one s hn hz).1 (one s hn hz).2
    | ended s _ => exact fun hn hz => (one s hn hz).2
  have hz : h'.live m = none ∧ h'.next = h.next := by
    have hf' : (h', Ffi.ok x) = h.call newSpace (.free .matrix (some m) : CCall Γ Φ R T) := hf
    simp only [CHeap.call] at hf'
    split at hf'
    · have : h' = _ := congrArg Prod.fst hf'
      subst this
      simp [CHeap.store]
    · cases congrArg Prod.snd hf'
  have hd := dead hr (by rw [hz.2]; exact hm) hz.1
  have hl' : (h₃, r) = h''.call newSpace (.load m part i : CCall Γ Φ R T) := hl
  have : r = _ := congrArg Prod.snd hl'
  rw [this]
  simp [CHeap.call, CHeap.read, hd, Bind.bind, Ffi.bind]

example (d : DType) (a b : T) : ∃ h h' : CHeap Γ Φ T, 0 < h.next ∧
    (CCall.load 0 .dense 1 : CCall Γ Φ R T).Step newSpace kernel env h h (.ok (.value b)) ∧
    (CCall.free .matrix (some 0) : CCall Γ Φ R T).Step newSpace kernel env h h' (.ok .nothing) ∧
    ∀ h₃ r, (CCall.load 0 .dense 1 : CCall Γ Φ R T).Step newSpace kernel env h' h₃ r → r = .undefined :=
  have hf : (CCall.free .matrix (some 0) : CCall Γ Φ R T).Step newSpace kernel env (CHeap.start.alloc (.dense d (1, 2) [a, b]))
      ((CHeap.start.alloc (.dense d (1, 2) [a, b])).store 0 none) (.ok .nothing) := by
    simp [CCall.Step, CHeap.call, CHeap.read, CHeap.alloc, CHeap.start, CObj.kind]
  ⟨CHeap.start.alloc (.dense d (1, 2) [a, b]), _, Nat.one_pos, rfl, hf,
    fun _ _ hl => C97_freed_matrix Nat.one_pos hf (.nil _) .dense 1 hl⟩

/-- A Helmholtz assembler: it can be made and asked for its scalar type, but after that no call to assemble returns. -/
example (k : R) : ∃ h₁ h₂ : CHeap Γ Φ T,
    CRuns newSpace kernel env CHeap.start [.newOptions, .helmholtzNew (.f64, k) 0 .singleLayer .c64] h₁ [.ok (.handle 0), .ok (.handle 1)] ∧
    CRuns newSpace kernel env h₁ [.assemblerDtype 1] h₂ [.ok (.dtype .c64)] ∧
    ∀ trial test h₃ r, (CCall.assemble 1 trial test : CCall Γ Φ R T).Step newSpace kernel env h₂ h₃ r → ∀ x, r ≠ .ok x := by
  have hn : (CCall.helmholtzNew (.f64, k) 0 .singleLayer .c64 : CCall Γ Φ R T).Step newSpace kernel env
      (CHeap.start.alloc (.options Options.default)) ((CHeap.start.alloc (.options Options.default)).alloc
        (.assembler .helmholtz .singleLayer .c64 0)) (.ok (.handle 1)) := rfl
  have hd : CRuns newSpace kernel env ((CHeap.start.alloc (.options Options.default)).alloc
        (.assembler .helmholtz .singleLayer .c64 0)) [(.assemblerDtype 1 : CCall Γ Φ R T)]
        ((CHeap.start.alloc (.options Options.default)).alloc (.assembler .helmholtz .singleLayer .c64 0)) [.ok (.dtype .c64)] := by
    refine .returned ?_ (.nil _)
    have hm : [RustType.assembler .helmholtz .singleLayer .c64] ∈ RustType.assemblerTable := by decide
    simp [CCall.Step, CHeap.call, CHeap.read, CHeap.alloc, CHeap.start, CObj.kind, CObj.type, Bind.bind, Ffi.bind, concretise, hm, pure]
  exact ⟨_, _, .returned (h' := CHeap.start.alloc (.options Options.default)) rfl (.returned hn (.nil _)), hd,
    fun trial test h₃ r hr => (C97_helmholtz hn hd _ ⟨trial, test, .inl rfl⟩ hr).1⟩

end

end Bempp
