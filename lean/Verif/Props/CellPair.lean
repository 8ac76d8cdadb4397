import Verif.Proofs.CellPair
import Verif.Proofs.Operators
import Verif.Spec.ExamplesAssembly
import Mathlib.Data.List.Induction
/-
C25: the cell-pair assemblers have no memory.
-/
namespace Bempp
open Examples

variable {R T : Type}

/-- A call on a cell-pair assembler; `assemble` gets a local matrix with some old contents. -/
inductive PairCall (T : Type) where
  | setTest (c : Nat)
  | setTrial (c : Nat)
  | assemble (buf : List (List T))

/-- The test cell that a call sets. -/
def PairCall.test? : PairCall T → Option Nat
  | .setTest c => some c
  | _ => none

/-- The trial cell that a call sets. -/
def PairCall.trial? : PairCall T → Option Nat
  | .setTrial c => some c
  | _ => none

/-- The test cell set last. -/
def lastTest : List (PairCall T) → Option Nat
  | [] => none
  | c :: l => (lastTest l).or c.test?

/-- The trial cell set last. -/
def lastTrial : List (PairCall T) → Option Nat
  | [] => none
  | c :: l => (lastTrial l).or c.trial?

/-- A history in which only the given cells are set, local matrices have `dt` rows and `dr` columns and
nothing is assembled before both cells have been set. -/
def ValidCalls (tcells rcells : List Nat) (dt dr : Nat) (calls : List (PairCall T)) : Prop :=
  ∀ pre call post, calls = pre ++ call :: post →
    match call with
    | .setTest c => c ∈ tcells
    | .setTrial c => c ∈ rcells
    | .assemble buf => Shape2 dt dr buf ∧ (lastTest pre).isSome ∧ (lastTrial pre).isSome

theorem lastTest_snoc (l : List (PairCall T)) (c : PairCall T) :
    lastTest (l ++ [c]) = c.test?.or (lastTest l) := by
  induction l with
  | nil => cases c <;> simp [lastTest, PairCall.test?]
  | cons a l ih => simp only [List.cons_append, lastTest, ih, Option.or_assoc]

theorem lastTrial_snoc (l : List (PairCall T)) (c : PairCall T) :
    lastTrial (l ++ [c]) = c.trial?.or (lastTrial l) := by
  induction l with
  | nil => cases c <;> simp [lastTrial, PairCall.trial?]
  | cons a l ih => simp only [List.cons_append, lastTrial, ih, Option.or_assoc]

theorem ValidCalls.init {tcells rcells : List Nat} {dt dr : Nat} {l : List (PairCall T)} {c : PairCall T}
    (h : ValidCalls tcells rcells dt dr (l ++ [c])) : ValidCalls tcells rcells dt dr l := by
  intro pre call post e
  exact h pre call (post ++ [c]) (by rw [e]; simp)

section
variable [Zero T] [Add T] [Mul T] [Mul R]

/-- The effect of a call on the singular assembler. -/
def SingPair.call (cast : R → T) (a : SingPair R T) : PairCall T → Option (SingPair R T)
  | .setTest c => a.setTestCell c
  | .setTrial c => a.setTrialCell c
  | .assemble buf => (a.assemble cast buf).map Prod.fst

/-- The effect of a call on the regular assembler. -/
def NonsingPair.call (cast : R → T) (a : NonsingPair R T) : PairCall T → Option (NonsingPair R T)
  | .setTest c => a.setTestCell c
  | .setTrial c => a.setTrialCell c
  | .assemble buf => (a.assemble cast buf).map Prod.fst

variable {cast : R → T} {asm : Assembler R T} {F : MathIntegrand T} {G : MathKernel R T}
  {testG trialG : Geometry R} {testB trialB : Basis R T} {Q : Quadrature R} {tt rt : CellType}
  {con : Connectivity} {dt dr : Nat} {tev rev : GeoMap R} {tcells rcells : List Nat}

/-- **C25** (singular pairs). Let a singular cell-pair assembler be made for some rule, with evaluators
and tables that meet their contracts. After every valid history of calls, without any panic on the way,
`assemble` on a local matrix with any contents returns the matrix of singular quadrature values of the
two cells set last; nothing else of the history has an influence. -/
theorem C25_singular_memoryless [Zero R] (hasm : asm.Computes F G)
    (htev : ∀ c ∈ tcells, tev.Evaluates testG ((Q.singular tt rt con).map fun p => p.1) c)
    (hrev : ∀ c ∈ rcells, rev.Evaluates trialG ((Q.singular tt rt con).map fun p => p.2.1) c)
    (calls : List (PairCall T)) (hv : ValidCalls tcells rcells dt dr calls) :
    ∃ a, calls.foldlM (SingPair.call cast) (SingPair.new (Q.singular tt rt con).length asm.derivSize
        asm.integrand asm.kernel tev rev
        (testB.table tt dt (numDerivs asm.tableDerivs) ((Q.singular tt rt con).map fun p => p.1))
        (trialB.table rt dr (numDerivs asm.tableDerivs) ((Q.singular tt rt con).map fun p => p.2.1))
        ((Q.singular tt rt con).map fun p => p.2.2)) = some a ∧
      ∀ c c' buf, lastTest calls = some c → lastTrial calls = some c' → Shape2 dt dr buf →
        (a.assemble cast buf).map Prod.snd = some ((List.range dr).map fun b => (List.range dt).map
          fun i => singularValue cast F G testG trialG testB trialB Q tt rt con c c' i b) := by
  suffices H : ∃ a, calls.foldlM (SingPair.call cast) (SingPair.new (Q.singular tt rt con).length
        asm.derivSize asm.integrand asm.kernel tev rev
        (testB.table tt dt (numDerivs asm.tableDerivs) ((Q.singular tt rt con).map fun p => p.1))
        (trialB.table rt dr (numDerivs asm.tableDerivs) ((Q.singular tt rt con).map fun p => p.2.1))
        ((Q.singular tt rt con).map fun p => p.2.2)) = some a ∧
      a.Ready asm testB trialB (Q.singular tt rt con) tt rt dt dr ∧
      a.testEvaluator = tev ∧ a.trialEvaluator = rev ∧
      (∀ c, lastTest calls = some c →
        a.test = testG.atPoints ((Q.singular tt rt con).map fun p => p.1) c) ∧
      (∀ c, lastTrial calls = some c →
        a.trial = trialG.atPoints ((Q.singular tt rt con).map fun p => p.2.1) c) by
    obtain ⟨a, h1, h2, _, _, h3, h4⟩ := H
    refine ⟨a, h1, ?_⟩
    intro c c' buf hc hc' hbuf
    obtain ⟨k, _, hk⟩ := SingPair.assemble_eq cast hasm h2 (h3 c hc) (h4 c' hc') buf hbuf
    rw [hk]
    rfl
  induction calls using List.reverseRecOn with
  | nil =>
    exact ⟨_, rfl, SingPair.new_ready _ _ _, rfl, rfl, by simp [lastTest], by simp [lastTrial]⟩
  | append_singleton l call ih =>
    obtain ⟨a, h1, h2, h3, h4, h5, h6⟩ := ih hv.init
    have hcall := hv l call [] rfl
    rw [List.foldlM_append, h1]
    simp only [Option.bind_eq_bind, Option.bind_some, List.foldlM_cons, List.foldlM_nil]
    cases call with
    | setTest c =>
      obtain ⟨e1, e2⟩ := SingPair.setTest (testG := testG) h2 (h3 ▸ htev c hcall)
      refine ⟨_, by simp only [SingPair.call, e1]; rfl, e2, h3, h4, ?_, ?_⟩
      · intro d hd
        rw [lastTest_snoc] at hd
        simp only [PairCall.test?, Option.some_or, Option.some.injEq] at hd
        rw [← hd]
      · intro d hd
        rw [lastTrial_snoc] at hd
        exact h6 d (by simpa [PairCall.test?, PairCall.trial?] using hd)
    | setTrial c =>
      obtain ⟨e1, e2⟩ := SingPair.setTrial (trialG := trialG) h2 (h4 ▸ hrev c hcall)
      refine ⟨_, by simp only [SingPair.call, e1]; rfl, e2, h3, h4, ?_, ?_⟩
      · intro d hd
        rw [lastTest_snoc] at hd
        exact h5 d (by simpa [PairCall.test?, PairCall.trial?] using hd)
      · intro d hd
        rw [lastTrial_snoc] at hd
        simp only [PairCall.trial?, Option.some_or, Option.some.injEq] at hd
        rw [← hd]
    | assemble buf =>
      obtain ⟨hb, hlt, hlr⟩ := hcall
      obtain ⟨c, hc⟩ := Option.isSome_iff_exists.mp hlt
      obtain ⟨c', hc'⟩ := Option.isSome_iff_exists.mp hlr
      obtain ⟨k, hk, e1⟩ := SingPair.assemble_eq cast hasm h2 (h5 c hc) (h6 c' hc') buf hb
      refine ⟨{ a with k := k }, by simp only [SingPair.call, e1]; rfl, ?_, h3, h4, ?_, ?_⟩
      · exact ⟨h2.integrand, h2.kernel, h2.testTable, h2.trialTable, h2.weights, hk, h2.test, h2.trial⟩
      · intro d hd
        rw [lastTest_snoc] at hd
        exact h5 d (by simpa [PairCall.test?, PairCall.trial?] using hd)
      · intro d hd
        rw [lastTrial_snoc] at hd
        exact h6 d (by simpa [PairCall.test?, PairCall.trial?] using hd)

/-- **C25** (regular pairs, with cached test cells). -/
theorem C25_regular_memoryless [Zero R] (hasm : asm.Computes F G)
    (htev : ∀ c ∈ tcells, tev.Evaluates testG ((Q.regular tt).map fun p => p.1) c)
    (hrev : ∀ c ∈ rcells, rev.Evaluates trialG ((Q.regular rt).map fun p => p.1) c)
    (calls : List (PairCall T)) (hv : ValidCalls tcells rcells dt dr calls) :
    ∃ a0 a, NonsingPair.new (Q.regular tt).length (Q.regular rt).length asm.derivSize tcells
        asm.integrand asm.kernel tev rev
        (testB.table tt dt (numDerivs asm.tableDerivs) ((Q.regular tt).map fun p => p.1))
        (trialB.table rt dr (numDerivs asm.tableDerivs) ((Q.regular rt).map fun p => p.1))
        ((Q.regular tt).map fun p => p.2) ((Q.regular rt).map fun p => p.2) = some a0 ∧
      calls.foldlM (NonsingPair.call cast) a0 = some a ∧
      ∀ c c' buf, lastTest calls = some c → lastTrial calls = some c' → Shape2 dt dr buf →
        (a.assemble cast buf).map Prod.snd = some ((List.range dr).map fun b => (List.range dt).map
          fun i => regularValue cast F G testG trialG testB trialB Q tt rt c c' i b) := by
  obtain ⟨a0, h0, hr0, he0⟩ := NonsingPair.new_ready (asm := asm) (testG := testG) (testB := testB)
    (trialB := trialB) (tt := tt) (rt := rt) (dt := dt) (dr := dr) (cells := tcells)
    (ms := Q.regular tt) (ns := Q.regular rt) tev rev htev
  refine ⟨a0, ?_⟩
  suffices H : ∃ a, calls.foldlM (NonsingPair.call cast) a0 = some a ∧
      a.Ready asm testG testB trialB (Q.regular tt) (Q.regular rt) tcells tt rt dt dr ∧
      a.trialEvaluator = rev ∧
      (∀ c, lastTest calls = some c → tcells[a.testCell]? = some c) ∧
      (∀ c, lastTrial calls = some c →
        a.trial = trialG.atPoints ((Q.regular rt).map fun p => p.1) c) by
    obtain ⟨a, h1, h2, _, h3, h4⟩ := H
    refine ⟨a, h0, h1, ?_⟩
    intro c c' buf hc hc' hbuf
    obtain ⟨k, _, hk⟩ := NonsingPair.assemble_eq cast hasm h2 (h3 c hc) (h4 c' hc') buf hbuf
    rw [hk]
    rfl
  induction calls using List.reverseRecOn with
  | nil => exact ⟨a0, rfl, hr0, he0, by simp [lastTest], by simp [lastTrial]⟩
  | append_singleton l call ih =>
    obtain ⟨a, h1, h2, h4, h5, h6⟩ := ih hv.init
    have hcall := hv l call [] rfl
    rw [List.foldlM_append, h1]
    simp only [Option.bind_eq_bind, Option.bind_some, List.foldlM_cons, List.foldlM_nil]
    cases call with
    | setTest c =>
      obtain ⟨i, e1, e2⟩ := NonsingPair.setTest h2 hcall
      refine ⟨{ a with testCell := i }, by simp only [NonsingPair.call, e1]; rfl, ?_, h4, ?_, ?_⟩
      · exact ⟨h2.integrand, h2.kernel, h2.testTable, h2.trialTable, h2.testWeights, h2.trialWeights,
          h2.k, h2.test, h2.testIndices, h2.trial⟩
      · intro d hd
        rw [lastTest_snoc] at hd
        simp only [PairCall.test?, Option.some_or, Option.some.injEq] at hd
        rw [← hd]; exact e2
      · intro d hd
        rw [lastTrial_snoc] at hd
        exact h6 d (by simpa [PairCall.test?, PairCall.trial?] using hd)
    | setTrial c =>
      obtain ⟨e1, e2⟩ := NonsingPair.setTrial (trialG := trialG) h2 (h4 ▸ hrev c hcall)
      refine ⟨_, by simp only [NonsingPair.call, e1]; rfl, e2, h4, ?_, ?_⟩
      · intro d hd
        rw [lastTest_snoc] at hd
        exact h5 d (by simpa [PairCall.test?, PairCall.trial?] using hd)
      · intro d hd
        rw [lastTrial_snoc] at hd
        simp only [PairCall.trial?, Option.some_or, Option.some.injEq] at hd
        rw [← hd]
    | assemble buf =>
      obtain ⟨hb, hlt, hlr⟩ := hcall
      obtain ⟨c, hc⟩ := Option.isSome_iff_exists.mp hlt
      obtain ⟨c', hc'⟩ := Option.isSome_iff_exists.mp hlr
      obtain ⟨k, hk, e1⟩ := NonsingPair.assemble_eq cast hasm h2 (h5 c hc) (h6 c' hc') buf hb
      refine ⟨{ a with k := k }, by simp only [NonsingPair.call, e1]; rfl, ?_, h4, ?_, ?_⟩
      · exact ⟨h2.integrand, h2.kernel, h2.testTable, h2.trialTable, h2.testWeights, h2.trialWeights,
          hk, h2.test, h2.testIndices, h2.trial⟩
      · intro d hd
        rw [lastTest_snoc] at hd
        exact h5 d (by simpa [PairCall.test?, PairCall.trial?] using hd)
      · intro d hd
        rw [lastTrial_snoc] at hd
        exact h6 d (by simpa [PairCall.test?, PairCall.trial?] using hd)

end

/-! ### The hypotheses can be met -/

/-- The Laplace double layer operator with the example kernel. -/
theorem exDouble_computes :
    (Laplace.doubleLayer (kernelOf squareKernel) smallOptions).Computes dlF squareKernel :=
  ⟨laplace_doubleLayer_integrand _ _, kernelOf_computes _ _, rfl⟩

/-- A history that visits three pairs of cells of the octahedron and leaves garbage in the buffers. -/
def exCalls : List (PairCall Rat) :=
  [.setTest 1, .setTrial 2, .assemble (zeros2 3 3), .setTrial 0, .setTest 5, .setTest 3,
    .assemble [[1, 2, 3], [4, 5, 6], [7, 8, 9]], .setTrial 7]

theorem exCalls_valid : ValidCalls [1, 3, 5] [0, 2, 7] 3 3 exCalls := by
  intro pre call post e
  unfold exCalls at e
  match pre, e with
  | [], e => cases e; decide
  | [_], e => cases e; decide
  | [_, _], e => cases e; exact ⟨shape2_zeros 3 3, rfl, rfl⟩
  | [_, _, _], e => cases e; decide
  | [_, _, _, _], e => cases e; decide
  | [_, _, _, _, _], e => cases e; decide
  | [_, _, _, _, _, _], e =>
    cases e
    refine ⟨⟨rfl, ?_⟩, rfl, rfl⟩
    intro c hc
    simp only [List.mem_cons, List.not_mem_nil, or_false] at hc
    rcases hc with rfl | rfl | rfl <;> rfl
  | [_, _, _, _, _, _, _], e => cases e; decide
  | _ :: _ :: _ :: _ :: _ :: _ :: _ :: _ :: l, e =>
    simp only [List.cons_append, List.cons.injEq] at e
    have := e.2.2.2.2.2.2.2.2
    simp at this

example : ∃ a, exCalls.foldlM (SingPair.call id) (SingPair.new 2 4 doubleLayer
      ⟨kernelOf squareKernel, .valueDeriv⟩ (geoMapOf octGeometry [[1/3, 1/3], [1/4, 1/2]])
      (geoMapOf octGeometry [[1/4, 1/2], [1/3, 1/3]])
      (p1Basis.table .triangle 3 1 [[1/3, 1/3], [1/4, 1/2]])
      (p1Basis.table .triangle 3 1 [[1/4, 1/2], [1/3, 1/3]]) [1, 1]) = some a := by
  obtain ⟨a, h, _⟩ := C25_singular_memoryless (cast := id) (Q := smallRules) (tt := .triangle)
    (rt := .triangle) (con := ⟨0, [(0, 0)]⟩) (dt := 3) (dr := 3) (testB := p1Basis) (trialB := p1Basis)
    exDouble_computes
    (fun c (_ : c ∈ [1, 3, 5]) => geoMapOf_evaluates octGeometry _ c)
    (fun c (_ : c ∈ [0, 2, 7]) => geoMapOf_evaluates octGeometry _ c) exCalls exCalls_valid
  have e : (((0 : Nat) : Rat) + 1) = 1 := by simp
  simp only [smallRules, e, List.map_cons, List.map_nil, List.length_cons, List.length_nil] at h
  exact ⟨a, h⟩

end Bempp
