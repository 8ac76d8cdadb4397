import Verif.Model.Memory
import Verif.Spec.Memory
import Verif.Proofs.Mixed
import Verif.Proofs.Singular
import Verif.Proofs.Regular
/-
Undefined behaviour and panics: the two models agree, and what the unchecked reads need.
-/
set_option linter.unusedSectionVars false

namespace Bempp

namespace Res
variable {W α β : Type}

/-! ### The two models agree -/

theorem toOption_bind (x : Res W α) (f : α → Res W β) :
    (x >>= f).toOption = x.toOption.bind fun a => (f a).toOption := by
  cases x <;> rfl

theorem toOption_orPanic (w : W) (x : Option α) : (orPanic w x).toOption = x := by cases x <;> rfl

theorem toOption_orUb (x : Option α) : (orUb x : Res W α).toOption = x := by cases x <;> rfl

theorem toOption_foldlM {f : β → α → Res W β} {g : β → α → Option β} (h : ∀ b a, (f b a).toOption = g b a)
    (l : List α) (b : β) : (l.foldlM f b).toOption = l.foldlM g b := by
  induction l generalizing b with
  | nil => rfl
  | cons a l ih =>
    rw [List.foldlM_cons, List.foldlM_cons, toOption_bind, h]
    simp only [ih]
    rfl

/-! ### Postconditions -/

/-- No undefined behaviour; `P` holds if the code completes and `Q` for the log if it panics. -/
def Post (P : α → Prop) (Q : W → Prop) : Res W α → Prop
  | ok a => P a
  | panic w => Q w
  | ub => False

theorem Post.bind {P : α → Prop} {P' : β → Prop} {Q : W → Prop} {x : Res W α} {f : α → Res W β}
    (h : x.Post P Q) (hf : ∀ a, P a → (f a).Post P' Q) : (x >>= f).Post P' Q := by
  cases x with
  | ok a => exact hf a h
  | panic w => exact h
  | ub => exact h.elim

theorem Post.orPanic {P : α → Prop} {Q : W → Prop} {w : W} {x : Option α} (h : ∀ a, x = some a → P a) (hw : Q w) :
    (orPanic w x).Post P Q := by
  cases x with
  | some a => exact h a rfl
  | none => exact hw

theorem Post.orUb {P : α → Prop} {Q : W → Prop} {x : Option α} (h : ∃ a, x = some a ∧ P a) :
    (orUb x : Res W α).Post P Q := by
  obtain ⟨a, rfl, ha⟩ := h
  exact ha

theorem Post.foldlM {f : β → α → Res W β} {Q : W → Prop} (P : List α → β → Prop) (l : List α) (b : β)
    (hb : P [] b) (h : ∀ pre x post s, l = pre ++ x :: post → P pre s → (f s x).Post (P (pre ++ [x])) Q) :
    (l.foldlM f b).Post (P l) Q := by
  have key : ∀ (rest pre : List α) (s : β), pre ++ rest = l → P pre s → (rest.foldlM f s).Post (P l) Q := by
    intro rest
    induction rest with
    | nil =>
      intro pre s e hp
      rw [List.append_nil] at e
      subst e
      exact hp
    | cons x rest ih =>
      intro pre s e hp
      rw [List.foldlM_cons]
      refine (h pre x rest s e.symm hp).bind fun s' hs' => ih (pre ++ [x]) s' (by simpa using e) hs'
  exact key l [] b rfl hb

theorem Post.ne_ub {P : α → Prop} {Q : W → Prop} {x : Res W α} (h : x.Post P Q) : x ≠ ub := by
  rintro rfl
  exact h

end Res

theorem mapM_isSome {α β : Type} {f : α → Option β} {l : List α} (h : ∀ x ∈ l, ∃ y, f x = some y) :
    ∃ m, l.mapM f = some m := by
  induction l with
  | nil => exact ⟨[], rfl⟩
  | cons a l ih =>
    obtain ⟨y, hy⟩ := h a List.mem_cons_self
    obtain ⟨m, hm⟩ := ih fun x hx => h x (List.mem_cons_of_mem _ hx)
    exact ⟨y :: m, by rw [List.mapM_cons, hy]; simp [hm]⟩

/-- A matrix all of whose entries can be computed. -/
theorem mapM_entries {T : Type} {m : List (List T)} {d0 d1 : Nat} (hm : Shape2 d0 d1 m) {e : Nat → Nat → Option T}
    (h : ∀ i j, i < d0 → j < d1 → ∃ x, e i j = some x) :
    ∃ m', (m.zipIdx.mapM fun (col : List T × Nat) => col.1.zipIdx.mapM fun (x : T × Nat) => e x.2 col.2) = some m' ∧
      Shape2 d0 d1 m' := by
  have hex := mapM_isSome (l := m.zipIdx)
    (f := fun (col : List T × Nat) => col.1.zipIdx.mapM fun (x : T × Nat) => e x.2 col.2) (by
      rintro ⟨col, j⟩ hcol
      have hj := List.mk_mem_zipIdx_iff_getElem?.mp hcol
      refine mapM_isSome ?_
      rintro ⟨x, i⟩ hx
      have hi := List.mk_mem_zipIdx_iff_getElem?.mp hx
      have h1 := (List.getElem?_eq_some_iff.mp hj).1
      have h2 := (List.getElem?_eq_some_iff.mp hi).1
      rw [hm.2 col (List.mem_of_getElem? hj)] at h2
      rw [hm.1] at h1
      exact h i j h2 h1)
  obtain ⟨m', hm'⟩ := hex
  refine ⟨m', hm', ?_, ?_⟩
  · rw [mapM_length hm', List.length_zipIdx]
    exact hm.1
  · intro col hcol
    obtain ⟨x, hx, e⟩ := (mapM_mem hm').2 col hcol
    rw [mapM_length e, List.length_zipIdx]
    exact hm.2 _ (List.fst_mem_of_mem_zipIdx hx)

theorem foldlM_isSome {α β : Type} {f : β → α → Option β} {l : List α} (h : ∀ x ∈ l, ∀ b, ∃ b', f b x = some b')
    (b : β) : ∃ b', l.foldlM f b = some b' := by
  induction l generalizing b with
  | nil => exact ⟨b, rfl⟩
  | cons a l ih =>
    obtain ⟨b', hb⟩ := h a List.mem_cons_self b
    obtain ⟨b'', hb'⟩ := ih (fun x hx => h x (List.mem_cons_of_mem _ hx)) b'
    exact ⟨b'', by rw [List.foldlM_cons, hb]; exact hb'⟩

variable {R T W : Type}

section
variable [Zero T] [Add T] [Mul T] [Mul R]

theorem SingPair.assembleR_toOption (w : W) (cast : R → T) (a : SingPair R T) (m : List (List T)) :
    (a.assembleR w cast m).toOption = a.assemble cast m := by
  unfold SingPair.assembleR SingPair.assemble
  simp only [Res.toOption_bind, Res.toOption_orPanic, Res.toOption_orUb]
  rfl

theorem NonsingPair.assembleR_toOption (w : W) (cast : R → T) (a : NonsingPair R T) (m : List (List T)) :
    (a.assembleR w cast m).toOption = a.assemble cast m := by
  unfold NonsingPair.assembleR NonsingPair.assemble
  simp only [Res.toOption_bind, Res.toOption_orPanic, Res.toOption_orUb]
  rfl

theorem singularPairStepR_toOption (env : Env R T) (trial test : Space R T)
    (st : SingPair R T × List (List T) × Sparse T) (p : Nat × Nat) :
    (singularPairStepR env trial test st p).toOption = singularPairStep env trial test st p := by
  unfold singularPairStepR singularPairStep
  simp only [Res.toOption_bind, Res.toOption_orPanic, Res.toOption_orUb, SingPair.assembleR_toOption]
  rfl

theorem nonadjacentTestR_toOption (env : Env R T) (shape : Nat × Nat) (trial test : Space R T) (rd : List Nat)
    (rc : Nat) (st : NonsingPair R T × List (List T) × List (AddOp T)) (tc : Nat) :
    (nonadjacentTestR env shape trial test rd rc st tc).toOption = nonadjacentTest env shape trial test rd rc st tc := by
  unfold nonadjacentTestR nonadjacentTest
  simp only [Res.toOption_bind, Res.toOption_orPanic]
  congr 1
  funext nb
  split
  · rfl
  · simp only [Res.toOption_bind, Res.toOption_orPanic, Res.toOption_orUb, NonsingPair.assembleR_toOption]
    rfl

theorem nonadjacentTrialR_toOption (env : Env R T) (shape : Nat × Nat) (trial test : Space R T) (tcs : List Nat)
    (st : NonsingPair R T × List (List T) × List (AddOp T)) (rc : Nat) :
    (nonadjacentTrialR env shape trial test tcs st rc).toOption = nonadjacentTrial env shape trial test tcs st rc := by
  unfold nonadjacentTrialR nonadjacentTrial
  simp only [Res.toOption_bind, Res.toOption_orPanic, Res.toOption_orUb,
    Res.toOption_foldlM (nonadjacentTestR_toOption env shape trial test _ rc)]
  rfl

variable [Zero R]

/-- The two models of `assemble_batch_singular` agree. -/
theorem batchSingularR_toOption (env : Env R T) (asm : Assembler R T) (shape : Nat × Nat) (trial test : Space R T)
    (pairs : List (Nat × Nat)) (rule : SingRule R T) : (batchSingularR env asm shape trial test pairs rule).toOption =
    assembleBatchSingular env asm shape trial test pairs rule := by
  unfold batchSingularR assembleBatchSingular
  simp only [Res.toOption_bind, Res.toOption_orPanic]
  congr 1
  funext rel
  congr 1
  funext tel
  split
  · simp only [Res.toOption_bind, Res.toOption_orPanic,
      Res.toOption_foldlM (singularPairStepR_toOption env trial test)]
    rfl
  · rfl

/-- The two models of `assemble_batch_nonadjacent` agree. -/
theorem batchNonadjacentR_toOption (env : Env R T) (asm : Assembler R T) (shape : Nat × Nat) (ty ty' : CellType)
    (trial : Space R T) (rcs : List Nat) (test : Space R T) (tcs : List Nat) (q : RegRule R T) :
    (batchNonadjacentR env asm shape ty ty' trial rcs test tcs q).toOption =
    assembleBatchNonadjacent env asm shape ty ty' trial rcs test tcs q := by
  unfold batchNonadjacentR assembleBatchNonadjacent
  dsimp only
  split
  · simp only [Res.toOption_bind, Res.toOption_orPanic,
      Res.toOption_foldlM (nonadjacentTrialR_toOption env shape trial test tcs)]
    rfl
  · rfl

/-! ### Reads -/

/-- All reads of the integrand are inside arrays of the sizes that the assembler chooses (see `C24_reads_in_bounds`). -/
def Assembler.Reads (cast : R → T) (asm : Assembler R T) : Prop :=
  (∀ (npts testDim trialDim pt a b : Nat) (k : List (List T))
    (testTable trialTable : List (List (List (List T)))) (testGeom trialGeom : CellGeom R),
    Shape2 asm.derivSize npts k →
    Shape4 (numDerivs asm.tableDerivs) npts testDim 1 testTable →
    Shape4 (numDerivs asm.tableDerivs) npts trialDim 1 trialTable →
    testGeom.Shaped npts → trialGeom.Shaped npts → pt < npts → a < testDim → b < trialDim →
    (evaluateSingular cast asm.integrand testTable trialTable pt a b k testGeom trialGeom).isSome) ∧
  (∀ (nptsTest nptsTrial testDim trialDim pt qt a b : Nat) (k : List (List (List T)))
    (testTable trialTable : List (List (List (List T)))) (testGeom trialGeom : CellGeom R),
    Shape3 asm.derivSize nptsTest nptsTrial k →
    Shape4 (numDerivs asm.tableDerivs) nptsTest testDim 1 testTable →
    Shape4 (numDerivs asm.tableDerivs) nptsTrial trialDim 1 trialTable →
    testGeom.Shaped nptsTest → trialGeom.Shaped nptsTrial → pt < nptsTest → qt < nptsTrial →
    a < testDim → b < trialDim →
    (evaluateNonsingular cast asm.integrand testTable trialTable pt qt a b k testGeom
      trialGeom).isSome)

theorem GeoMap.Sized.fill {ev : GeoMap R} (h : ev.Sized) {c n : Nat} {g g' : CellGeom R} (hg : g.Shaped n)
    (he : ev.fill c g = some g') : g'.Shaped n := by
  unfold GeoMap.fill at he
  simp only [Option.bind_eq_bind, Option.bind_eq_some_iff, Option.some.injEq] at he
  obtain ⟨p, h1, x, h2, rfl⟩ := he
  obtain ⟨h3, h4, h5⟩ := h.other c n _ _ _ x hg.jacobians hg.jdets hg.normals h2
  exact ⟨h.points c n _ _ hg.points h1, h5, h3, h4⟩

/-- The arrays of a singular cell-pair assembler have the right shapes for `n` points, `dt` test and `dr` trial basis
functions. -/
structure SingPair.Sized (asm : Assembler R T) (n dt dr : Nat) (a : SingPair R T) : Prop where
  integrand : a.integrand = asm.integrand
  kernel : a.kernel = asm.kernel
  testEv : a.testEvaluator.Sized
  trialEv : a.trialEvaluator.Sized
  testTable : Shape4 (numDerivs asm.tableDerivs) n dt 1 a.testTable
  trialTable : Shape4 (numDerivs asm.tableDerivs) n dr 1 a.trialTable
  k : Shape2 asm.derivSize n a.k
  test : a.test.Shaped n
  trial : a.trial.Shaped n
  weights : a.weights.length = n

theorem SingPair.Sized.setTest {asm : Assembler R T} {n dt dr c : Nat} {a a' : SingPair R T} (h : a.Sized asm n dt dr)
    (he : a.setTestCell c = some a') : a'.Sized asm n dt dr := by
  unfold SingPair.setTestCell at he
  simp only [Option.bind_eq_bind, Option.bind_eq_some_iff, Option.some.injEq] at he
  obtain ⟨g, h1, rfl⟩ := he
  exact { h with test := h.testEv.fill h.test h1 }

theorem SingPair.Sized.setTrial {asm : Assembler R T} {n dt dr c : Nat} {a a' : SingPair R T} (h : a.Sized asm n dt dr)
    (he : a.setTrialCell c = some a') : a'.Sized asm n dt dr := by
  unfold SingPair.setTrialCell at he
  simp only [Option.bind_eq_bind, Option.bind_eq_some_iff, Option.some.injEq] at he
  obtain ⟨g, h1, rfl⟩ := he
  exact { h with trial := h.trialEv.fill h.trial h1 }

theorem SingPair.Sized.entry {cast : R → T} {asm : Assembler R T} (hread : asm.Reads cast) {n dt dr : Nat}
    {a : SingPair R T} (h : a.Sized asm n dt dr) {k : List (List T)} (hk : Shape2 asm.derivSize n k) {i j : Nat}
    (hi : i < dt) (hj : j < dr) : ∃ x, a.entry cast k i j = some x := by
  unfold SingPair.entry
  refine foldlM_isSome ?_ _
  rintro ⟨w, p⟩ hw b
  have hp := (List.getElem?_eq_some_iff.mp (List.mk_mem_zipIdx_iff_getElem?.mp hw)).1
  rw [h.weights] at hp
  obtain ⟨v, hv⟩ := Option.isSome_iff_exists.mp (hread.1 n dt dr p i j k a.testTable a.trialTable a.test a.trial hk
    h.testTable h.trialTable h.test h.trial hp hi hj)
  rw [h.integrand, hv, List.getElem?_eq_getElem (by rw [h.test.jdets]; exact hp),
    List.getElem?_eq_getElem (by rw [h.trial.jdets]; exact hp)]
  exact ⟨_, rfl⟩

theorem SingPair.Sized.assemble {cast : R → T} {asm : Assembler R T} (hread : asm.Reads cast)
    (hker : asm.kernel.kernel.Sized) {n dt dr d0 d1 : Nat} {a : SingPair R T} (h : a.Sized asm n dt dr) (h0 : d0 ≤ dt)
    (h1 : d1 ≤ dr) {m : List (List T)} (hm : Shape2 d0 d1 m) (w : W) {Q : W → Prop} (hw : Q w) :
    (a.assembleR w cast m).Post (fun r => r.1.Sized asm n dt dr ∧ Shape2 d0 d1 r.2) Q := by
  unfold SingPair.assembleR
  refine Res.Post.bind (P := fun k => Shape2 asm.derivSize n k) (.orPanic ?_ hw) fun k hk => ?_
  · intro k hk
    rw [h.kernel] at hk
    exact hker.pairwise _ _ _ _ _ _ _ h.k hk
  · refine Res.Post.bind (P := fun m' => Shape2 d0 d1 m') (.orUb ?_) fun m' hm' => ?_
    · exact mapM_entries (e := fun i j => a.entry cast k i j) hm
        fun i j hi hj => h.entry hread hk (by omega) (by omega)
    · exact ⟨{ h with k := hk }, hm'⟩

/-- The same for the assembler of pairs that are not adjacent. -/
structure NonsingPair.Sized (asm : Assembler R T) (nt nr dt dr : Nat) (a : NonsingPair R T) : Prop where
  integrand : a.integrand = asm.integrand
  kernel : a.kernel = asm.kernel
  trialEv : a.trialEvaluator.Sized
  testTable : Shape4 (numDerivs asm.tableDerivs) nt dt 1 a.testTable
  trialTable : Shape4 (numDerivs asm.tableDerivs) nr dr 1 a.trialTable
  k : Shape3 asm.derivSize nt nr a.k
  test : ∀ g ∈ a.test, g.Shaped nt
  trial : a.trial.Shaped nr
  testWeights : a.testWeights.length = nt
  trialWeights : a.trialWeights.length = nr
  indices : ∀ c i, a.testIndices.get? c = some i → i < a.test.length

theorem NonsingPair.Sized.setTest {asm : Assembler R T} {nt nr dt dr c : Nat} {a a' : NonsingPair R T}
    (h : a.Sized asm nt nr dt dr) (he : a.setTestCell c = some a') :
    a'.Sized asm nt nr dt dr ∧ a'.testCell < a'.test.length := by
  unfold NonsingPair.setTestCell at he
  simp only [Option.bind_eq_bind, Option.bind_eq_some_iff, Option.some.injEq] at he
  obtain ⟨i, h1, rfl⟩ := he
  exact ⟨{ h with }, h.indices c i h1⟩

theorem NonsingPair.Sized.setTrial {asm : Assembler R T} {nt nr dt dr c : Nat} {a a' : NonsingPair R T}
    (h : a.Sized asm nt nr dt dr) (he : a.setTrialCell c = some a') : a'.Sized asm nt nr dt dr := by
  unfold NonsingPair.setTrialCell at he
  simp only [Option.bind_eq_bind, Option.bind_eq_some_iff, Option.some.injEq] at he
  obtain ⟨g, h1, rfl⟩ := he
  exact { h with trial := h.trialEv.fill h.trial h1 }

theorem NonsingPair.Sized.entry {cast : R → T} {asm : Assembler R T} (hread : asm.Reads cast) {nt nr dt dr : Nat}
    {a : NonsingPair R T} (h : a.Sized asm nt nr dt dr) {k : List (List (List T))} (hk : Shape3 asm.derivSize nt nr k)
    {tg : CellGeom R} (htg : tg.Shaped nt) {i j : Nat} (hi : i < dt) (hj : j < dr) :
    ∃ x, a.entry cast k tg i j = some x := by
  unfold NonsingPair.entry
  refine foldlM_isSome ?_ _
  rintro ⟨w, p⟩ hw b
  have hp := (List.getElem?_eq_some_iff.mp (List.mk_mem_zipIdx_iff_getElem?.mp hw)).1
  rw [h.testWeights] at hp
  rw [List.getElem?_eq_getElem (by rw [htg.jdets]; exact hp)]
  refine foldlM_isSome ?_ _
  rintro ⟨w', p'⟩ hw' b
  have hp' := (List.getElem?_eq_some_iff.mp (List.mk_mem_zipIdx_iff_getElem?.mp hw')).1
  rw [h.trialWeights] at hp'
  obtain ⟨v, hv⟩ := Option.isSome_iff_exists.mp (hread.2 nt nr dt dr p p' i j k a.testTable a.trialTable tg a.trial hk
    h.testTable h.trialTable htg h.trial hp hp' hi hj)
  rw [h.integrand, hv, List.getElem?_eq_getElem (by rw [h.trial.jdets]; exact hp')]
  exact ⟨_, rfl⟩

theorem NonsingPair.Sized.assemble {cast : R → T} {asm : Assembler R T} (hread : asm.Reads cast)
    (hker : asm.kernel.kernel.Sized) {nt nr dt dr d0 d1 : Nat} {a : NonsingPair R T} (h : a.Sized asm nt nr dt dr)
    (hc : a.testCell < a.test.length) (h0 : d0 ≤ dt) (h1 : d1 ≤ dr) {m : List (List T)} (hm : Shape2 d0 d1 m) (w : W)
    {Q : W → Prop} (hw : Q w) :
    (a.assembleR w cast m).Post (fun r => r.1.Sized asm nt nr dt dr ∧ Shape2 d0 d1 r.2) Q := by
  unfold NonsingPair.assembleR
  refine Res.Post.bind (P := fun tg => tg.Shaped nt)
    (.orUb ⟨_, List.getElem?_eq_getElem hc, h.test _ (List.getElem_mem hc)⟩) fun tg htg => ?_
  refine Res.Post.bind (P := fun k => Shape3 asm.derivSize nt nr k) (.orPanic ?_ hw) fun k hk => ?_
  · intro k hk
    rw [h.kernel] at hk
    exact hker.all _ _ _ _ _ _ _ _ h.k hk
  · refine Res.Post.bind (P := fun m' => Shape2 d0 d1 m') (.orUb ?_) fun m' hm' => ?_
    · exact mapM_entries (e := fun i j => a.entry cast k tg i j) hm
        fun i j hi hj => h.entry hread hk htg (by omega) (by omega)
    · exact ⟨{ h with k := hk }, hm'⟩

/-! ### Tasks -/

/-- A task of the singular part. -/
theorem batchSingular_safe {env : Env R T} {asm : Assembler R T} (hread : asm.Reads env.cast)
    (hker : asm.kernel.kernel.Sized) {shape : Nat × Nat} {trial test : Space R T} (hgt : test.Sized)
    {pairs : List (Nat × Nat)} {rule : SingRule R T} {dt dr : Nat}
    (htt : Shape4 (numDerivs asm.tableDerivs) rule.weights.length dt 1 rule.testTable)
    (hrt : Shape4 (numDerivs asm.tableDerivs) rule.weights.length dr 1 rule.trialTable)
    (hdt : ∀ el, test.fs.element rule.testType = some el → el.dim ≤ dt)
    (hdr : ∀ el, trial.fs.element rule.trialType = some el → el.dim ≤ dr)
    (hp : ∀ p ∈ pairs, (∃ l, test.fs.cellDofsUnchecked p.1 = some l) ∧ ∃ l, trial.fs.cellDofsUnchecked p.2 = some l) :
    batchSingularR env asm shape trial test pairs rule ≠ .ub := by
  apply Res.Post.ne_ub (P := fun _ => True) (Q := fun _ => True)
  unfold batchSingularR
  refine Res.Post.bind (P := fun rel => rel.dim ≤ dr) (.orPanic hdr trivial) fun rel hrel => ?_
  refine Res.Post.bind (P := fun tel => tel.dim ≤ dt) (.orPanic hdt trivial) fun tel htel => ?_
  dsimp only
  split
  · refine Res.Post.bind (P := GeoMap.Sized) (.orPanic (hgt.geometry _ _) trivial) fun tev h1 => ?_
    refine Res.Post.bind (P := GeoMap.Sized) (.orPanic (hgt.geometry _ _) trivial) fun rev h2 => ?_
    refine Res.Post.bind (P := fun _ => True) ?_ fun _ _ => trivial
    have inv := Res.Post.foldlM (f := singularPairStepR env trial test) (Q := fun _ => True)
      (fun _ s => s.1.Sized asm rule.weights.length dt dr ∧ Shape2 tel.dim rel.dim s.2.1) pairs
      (SingPair.new rule.weights.length asm.derivSize asm.integrand asm.kernel tev rev rule.testTable
        rule.trialTable rule.weights, zeros2 tel.dim rel.dim, Sparse.new shape)
      ⟨⟨rfl, rfl, h1, h2, htt, hrt, shape2_zeros _ _, CellGeom.zeros_shaped _, CellGeom.zeros_shaped _, rfl⟩,
        shape2_zeros _ _⟩ (by
        rintro pre p post s hmem ⟨hs1, hs2⟩
        replace hmem : p ∈ pairs := by rw [hmem]; simp
        unfold singularPairStepR
        refine Res.Post.bind (P := fun a => a.Sized asm rule.weights.length dt dr)
          (.orPanic (fun a ha => hs1.setTest ha) trivial) fun a ha => ?_
        refine Res.Post.bind (P := fun a => a.Sized asm rule.weights.length dt dr)
          (.orPanic (fun a' ha' => ha.setTrial ha') trivial) fun a ha => ?_
        refine Res.Post.bind (ha.assemble hread hker htel hrel hs2 () trivial) fun am ham => ?_
        obtain ⟨⟨l, hl⟩, ⟨l', hl'⟩⟩ := hp p hmem
        refine Res.Post.bind (P := fun _ => True) (.orUb ⟨l, hl, trivial⟩) fun td _ => ?_
        refine Res.Post.bind (P := fun _ => True) (.orUb ⟨l', hl', trivial⟩) fun rd _ => ?_
        exact Res.Post.bind (P := fun _ => True) (.orPanic (fun _ _ => trivial) trivial) fun out _ => ham)
    revert inv
    generalize List.foldlM (singularPairStepR env trial test) _ pairs = r
    intro inv
    cases r with
    | ok a => trivial
    | panic w => trivial
    | ub => exact inv
  · trivial

theorem mem_get?_zipIdx {tcs : List Nat} {c i : Nat} (h : Map.get? (tcs.zipIdx.reverse : Map Nat Nat) c = some i) :
    i < tcs.length := by
  unfold Map.get? at h
  have hm : ∃ k, (k, i) ∈ tcs.zipIdx.reverse := by
    generalize tcs.zipIdx.reverse = l at h
    induction l with
    | nil => cases h
    | cons x l ih =>
      obtain ⟨a, b⟩ := x
      rw [List.lookup_cons] at h
      split at h
      · cases h
        exact ⟨a, List.mem_cons_self⟩
      · obtain ⟨k, hk⟩ := ih h
        exact ⟨k, List.mem_cons_of_mem _ hk⟩
  obtain ⟨k, hk⟩ := hm
  rw [List.mem_reverse] at hk
  exact (List.getElem?_eq_some_iff.mp (List.mk_mem_zipIdx_iff_getElem?.mp hk)).1

theorem NonsingPair.sized_new {asm : Assembler R T} {tev rev : GeoMap R} (h1 : tev.Sized) (h2 : rev.Sized)
    {q : RegRule R T} {tcs : List Nat} {dt dr : Nat}
    (htt : Shape4 (numDerivs asm.tableDerivs) q.testWeights.length dt 1 q.testTable)
    (hrt : Shape4 (numDerivs asm.tableDerivs) q.trialWeights.length dr 1 q.trialTable) {a : NonsingPair R T}
    (h : NonsingPair.new q.testWeights.length q.trialWeights.length asm.derivSize tcs asm.integrand asm.kernel tev rev
      q.testTable q.trialTable q.testWeights q.trialWeights = some a) :
    a.Sized asm q.testWeights.length q.trialWeights.length dt dr := by
  unfold NonsingPair.new at h
  simp only [Option.bind_eq_bind, Option.bind_eq_some_iff, Option.some.injEq] at h
  obtain ⟨cached, hc, rfl⟩ := h
  refine ⟨rfl, rfl, h2, htt, hrt, shape3_zeros _ _ _, ?_, CellGeom.zeros_shaped _, rfl, rfl, ?_⟩
  · intro g hg
    obtain ⟨c, _, he⟩ := (mapM_mem hc).2 g hg
    exact h1.fill (CellGeom.zeros_shaped _) he
  · intro c i hi
    show i < cached.length
    rw [mapM_length hc]
    exact mem_get?_zipIdx hi

/-- A task of the regular part: no undefined behaviour, and whatever has been written by the end or until a panic is at
positions that belong to the cells of the task. -/
theorem batchNonadjacent_safe {env : Env R T} {asm : Assembler R T} (hread : asm.Reads env.cast)
    (hker : asm.kernel.kernel.Sized) {shape : Nat × Nat} {trial test : Space R T} (hgt : test.Sized) (hgr : trial.Sized)
    {ty ty' : CellType} {rcs tcs : List Nat} {q : RegRule R T} {dt dr : Nat}
    (htt : Shape4 (numDerivs asm.tableDerivs) q.testWeights.length dt 1 q.testTable)
    (hrt : Shape4 (numDerivs asm.tableDerivs) q.trialWeights.length dr 1 q.trialTable)
    (hdt : ∀ a b, test.fs.element ty' = some a → trial.fs.element ty = some b → a.dim ≤ dt ∧ b.dim ≤ dr)
    (hct : ∀ c ∈ tcs, ∃ l, test.fs.cellDofsUnchecked c = some l)
    (hcr : ∀ c ∈ rcs, ∃ l, trial.fs.cellDofsUnchecked c = some l) :
    let r := batchNonadjacentR env asm shape ty ty' trial rcs test tcs q
    r ≠ .ub ∧ (r.writes.map AddOp.addr).Sublist (rcs.flatMap fun rc => tcs.flatMap fun tc =>
      addrs shape.1 (test.fs.dofs tc) (trial.fs.dofs rc)) := by
  intro r
  have key : r.Post
      (fun l => (l.map AddOp.addr).Sublist (rcs.flatMap fun rc => tcs.flatMap fun tc =>
        addrs shape.1 (test.fs.dofs tc) (trial.fs.dofs rc)))
      (fun l => (l.map AddOp.addr).Sublist (rcs.flatMap fun rc => tcs.flatMap fun tc =>
        addrs shape.1 (test.fs.dofs tc) (trial.fs.dofs rc))) := by
    show Res.Post _ _ (batchNonadjacentR env asm shape ty ty' trial rcs test tcs q)
    unfold batchNonadjacentR
    dsimp only
    split
    · refine Res.Post.bind (P := GeoMap.Sized) (.orPanic (hgt.geometry _ _) (by simp)) fun tev h1 => ?_
      refine Res.Post.bind (P := GeoMap.Sized) (.orPanic (hgr.geometry _ _) (by simp)) fun rev h2 => ?_
      refine Res.Post.bind (P := fun a => a.Sized asm q.testWeights.length q.trialWeights.length dt dr)
        (.orPanic (fun a ha => NonsingPair.sized_new h1 h2 htt hrt ha) (by simp)) fun a ha => ?_
      refine Res.Post.bind (P := fun tel => test.fs.element ty' = some tel) (.orPanic (fun _ h => h) (by simp))
        fun tel htel => ?_
      refine Res.Post.bind (P := fun rel => trial.fs.element ty = some rel) (.orPanic (fun _ h => h) (by simp))
        fun rel hrel => ?_
      obtain ⟨d1, d2⟩ := hdt tel rel htel hrel
      refine Res.Post.bind (Res.Post.foldlM (fun pre s => s.1.Sized asm q.testWeights.length q.trialWeights.length dt dr ∧
        Shape2 tel.dim rel.dim s.2.1 ∧ (s.2.2.map AddOp.addr).Sublist (pre.flatMap fun rc => tcs.flatMap fun tc =>
          addrs shape.1 (test.fs.dofs tc) (trial.fs.dofs rc))) rcs _ ⟨ha, shape2_zeros _ _, by simp⟩ ?_)
        fun st hst => hst.2.2
      rintro pre rc post s hl ⟨i1, i2, i3⟩
      have hrc : rc ∈ rcs := by rw [hl]; simp
      have hsub : ((rcs.flatMap fun rc => tcs.flatMap fun tc =>
          addrs shape.1 (test.fs.dofs tc) (trial.fs.dofs rc))) = (pre.flatMap fun rc => tcs.flatMap fun tc =>
          addrs shape.1 (test.fs.dofs tc) (trial.fs.dofs rc)) ++ ((tcs.flatMap fun tc =>
          addrs shape.1 (test.fs.dofs tc) (trial.fs.dofs rc)) ++ (post.flatMap fun rc => tcs.flatMap fun tc =>
          addrs shape.1 (test.fs.dofs tc) (trial.fs.dofs rc))) := by
        conv_lhs => rw [hl]
        simp only [List.flatMap_append, List.flatMap_cons]
      rw [hsub]
      unfold nonadjacentTrialR
      refine Res.Post.bind (P := fun a => a.Sized asm q.testWeights.length q.trialWeights.length dt dr)
        (.orPanic (fun a ha => i1.setTrial ha) (i3.trans (List.sublist_append_left _ _))) fun a ha => ?_
      obtain ⟨rd, hrd⟩ := hcr rc hrc
      refine Res.Post.bind (P := fun l => l = trial.fs.dofs rc) (.orUb ⟨rd, hrd, by simp [FunctionSpace.dofs, hrd]⟩)
        fun l hl' => ?_
      subst hl'
      have inner := Res.Post.foldlM (f := nonadjacentTestR env shape trial test (trial.fs.dofs rc) rc)
        (Q := fun l => (l.map AddOp.addr).Sublist ((pre.flatMap fun rc => tcs.flatMap fun tc =>
          addrs shape.1 (test.fs.dofs tc) (trial.fs.dofs rc)) ++ ((tcs.flatMap fun tc =>
          addrs shape.1 (test.fs.dofs tc) (trial.fs.dofs rc)) ++ (post.flatMap fun rc => tcs.flatMap fun tc =>
          addrs shape.1 (test.fs.dofs tc) (trial.fs.dofs rc)))))
        (fun pre' s' => s'.1.Sized asm q.testWeights.length q.trialWeights.length dt dr ∧
          Shape2 tel.dim rel.dim s'.2.1 ∧ (s'.2.2.map AddOp.addr).Sublist ((pre.flatMap fun rc => tcs.flatMap fun tc =>
          addrs shape.1 (test.fs.dofs tc) (trial.fs.dofs rc)) ++ pre'.flatMap fun tc =>
          addrs shape.1 (test.fs.dofs tc) (trial.fs.dofs rc))) tcs (a, s.2.1, s.2.2) ⟨ha, i2, by simpa using i3⟩ ?_
      · simpa only [List.flatMap_append, List.flatMap_cons, List.flatMap_nil, List.append_nil] using inner
      · rintro pre' tc post' s' ht ⟨j1, j2, j3⟩
        have htc : tc ∈ tcs := by rw [ht]; simp
        have hw : (s'.2.2.map AddOp.addr).Sublist ((pre.flatMap fun rc => tcs.flatMap fun tc =>
          addrs shape.1 (test.fs.dofs tc) (trial.fs.dofs rc)) ++ ((tcs.flatMap fun tc =>
          addrs shape.1 (test.fs.dofs tc) (trial.fs.dofs rc)) ++ (post.flatMap fun rc => tcs.flatMap fun tc =>
          addrs shape.1 (test.fs.dofs tc) (trial.fs.dofs rc)))) := by
          refine j3.trans (List.Sublist.append (List.Sublist.refl _) ?_)
          refine List.Sublist.trans ?_ (List.sublist_append_left _ _)
          conv_rhs => rw [ht]
          rw [List.flatMap_append]
          exact List.sublist_append_left _ _
        unfold nonadjacentTestR
        refine Res.Post.bind (P := fun _ => True) (.orPanic (fun _ _ => trivial) hw) fun nb _ => ?_
        split
        · refine ⟨j1, j2, j3.trans (List.Sublist.append (List.Sublist.refl _) ?_)⟩
          rw [List.flatMap_append]
          exact List.sublist_append_left _ _
        · refine Res.Post.bind (P := fun a => a.Sized asm q.testWeights.length q.trialWeights.length dt dr ∧
            a.testCell < a.test.length) (.orPanic (fun a ha => j1.setTest ha) hw) fun a ha => ?_
          refine Res.Post.bind (ha.1.assemble hread hker ha.2 d1 d2 j2 _ hw) fun am ham => ?_
          obtain ⟨td, htd⟩ := hct tc htc
          refine Res.Post.bind (P := fun l => l = test.fs.dofs tc) (.orUb ⟨td, htd, by simp [FunctionSpace.dofs, htd]⟩)
            fun l hl' => ?_
          subst hl'
          refine ⟨ham.1, ham.2, ?_⟩
          show (List.map _ (s'.2.2 ++ localOps shape (test.fs.dofs tc) (trial.fs.dofs rc) am.2)).Sublist _
          rw [List.map_append, List.flatMap_append, ← List.append_assoc]
          refine j3.append ?_
          simpa using localOps_addrs shape (test.fs.dofs tc) (trial.fs.dofs rc) am.2
    · simp [Res.Post]
  revert key
  cases r with
  | ok l => exact fun h => ⟨by simp, h⟩
  | panic l => exact fun h => ⟨by simp, h⟩
  | ub => exact fun h => h.elim

/-! ### Tasks that do not panic -/

namespace Res
variable {α β : Type}

/-- No panic; `P` holds if the code completes. -/
def Quiet (P : α → Prop) : Res W α → Prop
  | ok a => P a
  | panic _ => False
  | ub => True

theorem Quiet.bind {P : α → Prop} {P' : β → Prop} {x : Res W α} {f : α → Res W β} (h : x.Quiet P)
    (hf : ∀ a, P a → (f a).Quiet P') : (x >>= f).Quiet P' := by
  cases x with
  | ok a => exact hf a h
  | panic w => exact h.elim
  | ub => trivial

theorem Quiet.orPanic {P : α → Prop} {w : W} {x : Option α} (h : ∃ a, x = some a ∧ P a) : (orPanic w x).Quiet P := by
  obtain ⟨a, rfl, ha⟩ := h
  exact ha

theorem Quiet.orUb {P : α → Prop} {x : Option α} (h : ∀ a, x = some a → P a) : (orUb x : Res W α).Quiet P := by
  cases x with
  | some a => exact h a rfl
  | none => trivial

theorem Quiet.foldlM {f : β → α → Res W β} (P : β → Prop) (l : List α) (b : β) (hb : P b)
    (h : ∀ x ∈ l, ∀ s, P s → (f s x).Quiet P) : (l.foldlM f b).Quiet P := by
  induction l generalizing b with
  | nil => exact hb
  | cons x l ih =>
    rw [List.foldlM_cons]
    exact (h x List.mem_cons_self b hb).bind fun s hs => ih s hs fun y hy => h y (List.mem_cons_of_mem _ hy)

end Res

/-- The state of a task in which nothing panics. -/
structure NonsingPair.Works (asm : Assembler R T) (rev : GeoMap R) (nt nr dt dr : Nat) (tcs : List Nat)
    (a : NonsingPair R T) : Prop where
  sized : a.Sized asm nt nr dt dr
  ev : a.trialEvaluator = rev
  cells : ∀ c ∈ tcs, ∃ i, a.testIndices.get? c = some i

theorem get?_zipIdx_mem {tcs : List Nat} {c : Nat} (h : c ∈ tcs) :
    ∃ i, Map.get? (tcs.zipIdx.reverse : Map Nat Nat) c = some i := by
  obtain ⟨i, hi⟩ := List.getElem?_of_mem h
  have hm : (c, i) ∈ tcs.zipIdx.reverse := by
    rw [List.mem_reverse]
    exact List.mk_mem_zipIdx_iff_getElem?.mpr hi
  unfold Map.get?
  cases he : List.lookup c tcs.zipIdx.reverse with
  | some j => exact ⟨j, rfl⟩
  | none =>
    rw [List.lookup_eq_none_iff] at he
    have := he _ hm
    simp at this

theorem fill_works {ev : GeoMap R} {c n : Nat} {g : CellGeom R} (hg : g.Shaped n)
    (h1 : ∀ b, Shape2 3 n b → ∃ b', ev.points c b = some b')
    (h2 : ∀ bj bd bn, Shape2 6 n bj → bd.length = n → Shape2 3 n bn →
      ∃ x, ev.jacobiansDetsNormals c bj bd bn = some x) : ∃ g', ev.fill c g = some g' := by
  obtain ⟨b, hb⟩ := h1 _ hg.points
  obtain ⟨x, hx⟩ := h2 _ _ _ hg.jacobians hg.jdets hg.normals
  unfold GeoMap.fill
  rw [hb, hx]
  exact ⟨_, rfl⟩

/-- If the external functions do not panic, a task of the regular part does not. -/
theorem batchNonadjacent_quiet {env : Env R T} {asm : Assembler R T} (hker : asm.kernel.kernel.Sized)
    (hk : asm.kernel.kernel.Works asm.kernel.evalType)
    (hcomps : asm.kernel.evalType.comps = asm.derivSize) {shape : Nat × Nat} {trial test : Space R T}
    (hgt : test.Sized) (hgr : trial.Sized) (hmt : test.MapsWork) (hmr : trial.MapsWork) (st : Surface test.fs.grid)
    (sr : Surface trial.fs.grid) {ty ty' : CellType} (hty' : ty' ∈ test.fs.grid.entityTypes 2)
    (hty : ty ∈ trial.fs.grid.entityTypes 2) (hel : ∃ el, test.fs.element ty' = some el)
    (hel' : ∃ el, trial.fs.element ty = some el) {rcs tcs : List Nat} {q : RegRule R T}
    (hp : RefPoints q.testPoints) (hp' : RefPoints q.trialPoints)
    (hw : q.testPoints.length = q.testWeights.length) (hw' : q.trialPoints.length = q.trialWeights.length) {dt dr : Nat}
    (htt : Shape4 (numDerivs asm.tableDerivs) q.testWeights.length dt 1 q.testTable)
    (hrt : Shape4 (numDerivs asm.tableDerivs) q.trialWeights.length dr 1 q.trialTable)
    (hct : ∀ i ∈ tcs, ∃ c ∈ test.fs.grid.entityIter 2, c.localIndex = i)
    (hcr : ∀ i ∈ rcs, ∃ c ∈ trial.fs.grid.entityIter 2, c.localIndex = i)
    (hn : ∀ i ∈ tcs, ∀ j ∈ rcs, ∃ b, neighbours test.fs.grid trial.fs.grid i j = some b) :
    ∀ w, batchNonadjacentR env asm shape ty ty' trial rcs test tcs q ≠ .panic w := by
  have key : (batchNonadjacentR env asm shape ty ty' trial rcs test tcs q).Quiet fun _ => True := by
    obtain ⟨tev, g1, g2⟩ := hmt ty' hty' _ hp
    obtain ⟨rev, g3, g4⟩ := hmr ty hty _ hp'
    rw [hw] at g2
    rw [hw'] at g4
    have s1 := hgt.geometry _ _ _ g1
    have s2 := hgr.geometry _ _ _ g3
    unfold batchNonadjacentR
    dsimp only
    rw [if_pos ⟨st.1, st.2, sr.1, sr.2⟩]
    refine Res.Quiet.bind (P := fun ev => ev = tev) (.orPanic ⟨tev, g1, rfl⟩) ?_
    intro x hx
    subst x
    refine Res.Quiet.bind (P := fun ev => ev = rev) (.orPanic ⟨rev, g3, rfl⟩) ?_
    intro x hx
    subst x
    refine Res.Quiet.bind (P := fun a => a.Works asm rev q.testWeights.length q.trialWeights.length dt dr tcs)
      (.orPanic ?_) fun a ha => ?_
    · have : ∃ cached, (tcs.mapM fun cell => tev.fill cell (CellGeom.zeros q.testWeights.length)) = some cached := by
        refine mapM_isSome fun i hi => ?_
        obtain ⟨c, hc, rfl⟩ := hct i hi
        exact fill_works (CellGeom.zeros_shaped _) (g2 c hc).1 (g2 c hc).2
      obtain ⟨cached, hcached⟩ := this
      have hnew : ∃ a, NonsingPair.new q.testWeights.length q.trialWeights.length asm.derivSize tcs asm.integrand
          asm.kernel tev rev q.testTable q.trialTable q.testWeights q.trialWeights = some a ∧ a.trialEvaluator = rev ∧
          a.testIndices = tcs.zipIdx.reverse := by
        unfold NonsingPair.new
        rw [hcached]
        exact ⟨_, rfl, rfl, rfl⟩
      obtain ⟨a, ha, e1, e2⟩ := hnew
      refine ⟨a, ha, NonsingPair.sized_new s1 s2 htt hrt ha, e1, fun c hc => ?_⟩
      rw [e2]
      exact get?_zipIdx_mem hc
    · obtain ⟨tel, htel⟩ := hel
      obtain ⟨rel, hrel⟩ := hel'
      refine Res.Quiet.bind (P := fun _ => True) (.orPanic ⟨tel, htel, trivial⟩) fun tel _ => ?_
      refine Res.Quiet.bind (P := fun _ => True) (.orPanic ⟨rel, hrel, trivial⟩) fun rel _ => ?_
      refine Res.Quiet.bind (Res.Quiet.foldlM (fun s : NonsingPair R T × List (List T) × List (AddOp T) => s.1.Works asm rev q.testWeights.length q.trialWeights.length dt dr
        tcs) rcs _ ha ?_) fun _ _ => trivial
      intro rc hrc s hs
      unfold nonadjacentTrialR
      obtain ⟨c', hc', rfl⟩ := hcr rc hrc
      refine Res.Quiet.bind (P := fun a => a.Works asm rev q.testWeights.length q.trialWeights.length dt dr tcs)
        (.orPanic ?_) fun a ha => ?_
      · have hf : ∃ g', rev.fill c'.localIndex s.1.trial = some g' :=
          fill_works hs.sized.trial (g4 c' hc').1 (g4 c' hc').2
        obtain ⟨g', hg'⟩ := hf
        have hset : ∃ a, s.1.setTrialCell c'.localIndex = some a ∧ a.trialEvaluator = rev ∧
            a.testIndices = s.1.testIndices := by
          unfold NonsingPair.setTrialCell
          rw [hs.ev, hg']
          exact ⟨_, rfl, rfl, rfl⟩
        obtain ⟨a, ha, e1, e2⟩ := hset
        exact ⟨a, ha, hs.sized.setTrial ha, e1, by rw [e2]; exact hs.cells⟩
      · refine Res.Quiet.bind (P := fun _ => True) (.orUb fun _ _ => trivial) fun rd _ => ?_
        refine Res.Quiet.foldlM (fun s : NonsingPair R T × List (List T) × List (AddOp T) => s.1.Works asm rev q.testWeights.length q.trialWeights.length dt dr tcs) tcs _ ha ?_
        intro tc htc s hs
        unfold nonadjacentTestR
        obtain ⟨b, hb⟩ := hn tc htc _ hrc
        refine Res.Quiet.bind (P := fun _ => True) (.orPanic ⟨b, hb, trivial⟩) fun nb _ => ?_
        split
        · exact hs
        · refine Res.Quiet.bind (P := fun a => a.Works asm rev q.testWeights.length q.trialWeights.length dt dr tcs)
            (.orPanic ?_) fun a ha => ?_
          · obtain ⟨i, hi⟩ := hs.cells tc htc
            have hset : ∃ a, s.1.setTestCell tc = some a ∧ a.trialEvaluator = s.1.trialEvaluator ∧
                a.testIndices = s.1.testIndices := by
              unfold NonsingPair.setTestCell
              rw [hi]
              exact ⟨_, rfl, rfl, rfl⟩
            obtain ⟨a, ha, e1, e2⟩ := hset
            exact ⟨a, ha, (hs.sized.setTest ha).1, e1.trans hs.ev, by rw [e2]; exact hs.cells⟩
          · refine Res.Quiet.bind (P := fun am => am.1.Works asm rev q.testWeights.length q.trialWeights.length dt dr
              tcs) ?_ fun am ham => ?_
            · unfold NonsingPair.assembleR
              refine Res.Quiet.bind (P := fun tg => tg.Shaped q.testWeights.length)
                (.orUb fun tg htg => ha.sized.test tg (List.mem_of_getElem? htg)) fun tg htg => ?_
              refine Res.Quiet.bind (P := fun k => Shape3 asm.derivSize q.testWeights.length q.trialWeights.length k)
                (.orPanic ?_) fun k hk' => ?_
              · obtain ⟨r, hall⟩ := hk _ _ tg.points a.trial.points a.k htg.points ha.sized.trial.points
                  (by rw [hcomps]; exact ha.sized.k)
                rw [ha.sized.kernel]
                exact ⟨_, hall, hker.all _ _ _ _ _ _ _ _ ha.sized.k hall⟩
              · refine Res.Quiet.bind (P := fun _ => True) (.orUb fun _ _ => trivial) fun m _ => ?_
                exact ⟨{ ha.sized with k := hk' }, ha.ev, ha.cells⟩
            · exact Res.Quiet.bind (P := fun _ => True) (.orUb fun _ _ => trivial) fun td _ => ham
  intro w hw
  rw [hw] at key
  exact key

/-- The rule of a pair of cell types: shapes. -/
theorem regRule_sized {env : Env R T} {asm : Assembler R T} {trial test : Space R T} {tt rt : CellType} {q : RegRule R T}
    (hq : regRule env asm trial test tt rt = some q) (he : env.Sized) (hgt : test.Sized) (hgr : trial.Sized) :
    asm.options.quadratureDegrees.get? tt = some q.testWeights.length ∧
    asm.options.quadratureDegrees.get? rt = some q.trialWeights.length ∧
    RefPoints q.testPoints ∧ RefPoints q.trialPoints ∧ q.testPoints.length = q.testWeights.length ∧
    q.trialPoints.length = q.trialWeights.length ∧
    ∃ tel rel, test.fs.element tt = some tel ∧ trial.fs.element rt = some rel ∧
    Shape4 (numDerivs asm.tableDerivs) q.testWeights.length tel.dim 1 q.testTable ∧
    Shape4 (numDerivs asm.tableDerivs) q.trialWeights.length rel.dim 1 q.trialTable := by
  have hun : ∀ (flat : List R) n pts, unpackPoints flat n = some pts → RefPoints pts ∧ pts.length = n := by
    intro flat n pts h
    unfold unpackPoints at h
    refine ⟨fun x hx => ?_, by rw [mapM_length h, List.length_range]⟩
    obtain ⟨i, _, e⟩ := (mapM_mem h).2 x hx
    rw [mapM_length e, List.length_range]
  unfold regRule at hq
  simp only [Option.bind_eq_bind, Option.bind_eq_some_iff, Option.some.injEq] at hq
  obtain ⟨n, h1, m, h2, qt, h3, pt, h4, qr, h5, pr, h6, tel, h7, ttab, h8, rel, h9, rtab, h10, rfl⟩ := hq
  have e1 := he _ _ _ h3
  have e2 := he _ _ _ h5
  obtain ⟨u1, u2⟩ := hun _ _ _ h4
  obtain ⟨u3, u4⟩ := hun _ _ _ h6
  dsimp only
  rw [e1, e2]
  exact ⟨h1, h2, u1, u3, u2, u4, tel, rel, h7, h9, hgt.tabulate _ _ _ _ _ _ h7 h8, hgr.tabulate _ _ _ _ _ _ h9 h10⟩

/-! ### The tasks of the singular part -/

theorem foldlM_all {α β : Type} {f : β → α → Option β} (P : β → Prop) {l : List α} {b b' : β} (h : l.foldlM f b = some b')
    (hb : P b) (hs : ∀ x ∈ l, ∀ s s', P s → f s x = some s' → P s') : P b' := by
  induction l generalizing b with
  | nil => cases h; exact hb
  | cons x l ih =>
    rw [List.foldlM_cons, Option.bind_eq_bind, Option.bind_eq_some_iff] at h
    obtain ⟨s, h1, h2⟩ := h
    exact ih h2 (hs x List.mem_cons_self _ _ hb h1) fun y hy => hs y (List.mem_cons_of_mem _ hy)

/-- The tables of a rule have the shapes that its element types and weights ask for. -/
def SingRule.Sized (asm : Assembler R T) (trial test : Space R T) (rule : SingRule R T) : Prop :=
  ∃ tel rel, test.fs.element rule.testType = some tel ∧ trial.fs.element rule.trialType = some rel ∧
    Shape4 (numDerivs asm.tableDerivs) rule.weights.length tel.dim 1 rule.testTable ∧
    Shape4 (numDerivs asm.tableDerivs) rule.weights.length rel.dim 1 rule.trialTable

theorem makeSingRule_sized {env : Env R T} {asm : Assembler R T} {trial test : Space R T} (hgt : test.Sized)
    (hgr : trial.Sized) {tt rt : CellType} {n : Nat} {pairs : List (Nat × Nat)} {rule : SingRule R T}
    (h : makeSingRule env asm trial test tt rt n pairs = some rule) : rule.Sized asm trial test := by
  unfold makeSingRule at h
  simp only [Option.bind_eq_bind, Option.bind_eq_some_iff, Option.some.injEq] at h
  obtain ⟨q, _, rp, h1, rel, h2, rtab, h3, tp, h4, tel, h5, ttab, h6, rfl⟩ := h
  unfold unpackPoints at h1 h4
  have e1 := mapM_length h1
  have e2 := mapM_length h4
  rw [List.length_range] at e1 e2
  have h7 := hgt.tabulate _ _ _ _ _ _ h5 h6
  have h8 := hgr.tabulate _ _ _ _ _ _ h2 h3
  rw [e2] at h7
  rw [e1] at h8
  exact ⟨tel, rel, h5, h2, h7, h8⟩

theorem singTables_sized {env : Env R T} {asm : Assembler R T} {trial test : Space R T} (hgt : test.Sized)
    (hgr : trial.Sized) {tb : SingTables R T} (h : singTables env asm trial test = some tb) :
    ∀ rule ∈ tb.rules, rule.Sized asm trial test := by
  unfold singTables at h
  refine foldlM_all (fun s : SingTables R T => ∀ rule ∈ s.rules, rule.Sized asm trial test) h (by simp) ?_
  intro tt _ s s' hs hs'
  refine foldlM_all (fun s : SingTables R T => ∀ rule ∈ s.rules, rule.Sized asm trial test) hs' hs ?_
  intro rt _ s s' hs hs'
  unfold addTypePair at hs'
  simp only [Option.bind_eq_bind, Option.bind_eq_some_iff, Option.some.injEq] at hs'
  obtain ⟨n, _, new, h1, rfl⟩ := hs'
  intro rule hr
  rcases List.mem_append.mp hr with hr | hr
  · exact hs rule hr
  · obtain ⟨pairs, _, e⟩ := (mapM_mem h1).2 rule hr
    exact makeSingRule_sized hgt hgr e

/-- All pairs that are enumerated consist of cells of the grid. -/
theorem cellPairs_cells {f : CellType → CellType → List (Nat × Nat) → Option Nat} {size : Nat} {g : Grid}
    (hv : g.Vertices) {cp : List (List (Nat × Nat))} (h : cellPairs f size g = some cp) :
    ∀ l ∈ cp, ∀ p ∈ l, (∃ c ∈ g.entityIter 2, c.localIndex = p.1) ∧ ∃ c ∈ g.entityIter 2, c.localIndex = p.2 := by
  unfold cellPairs at h
  let P (acc : List (List (Nat × Nat))) : Prop := ∀ l ∈ acc, ∀ p ∈ l,
    (∃ c ∈ g.entityIter 2, c.localIndex = p.1) ∧ ∃ c ∈ g.entityIter 2, c.localIndex = p.2
  refine foldlM_all P h ?_ ?_
  · intro l hl p hp
    rw [List.eq_of_mem_replicate hl] at hp
    cases hp
  intro v hmem s s' hs hs'
  refine foldlM_all P hs' hs ?_
  intro tc htc s s' hs hs'
  unfold addTest at hs'
  simp only [Option.bind_eq_bind, Option.bind_eq_some_iff] at hs'
  obtain ⟨test, _, hs'⟩ := hs'
  split at hs'
  · refine foldlM_all P hs' hs ?_
    intro rc hrc s s' hs hs'
    unfold addTrial at hs'
    simp only [Option.bind_eq_bind, Option.bind_eq_some_iff] at hs'
    obtain ⟨tr, _, hs'⟩ := hs'
    split at hs'
    · cases hs'; exact hs
    · simp only [Option.bind_eq_some_iff, Option.some.injEq] at hs'
      obtain ⟨i, _, l, hl, rfl⟩ := hs'
      intro l' hl' p hp
      rcases List.mem_or_eq_of_mem_set hl' with h1 | rfl
      · exact hs l' h1 p hp
      · rcases List.mem_append.mp hp with hp | hp
        · exact hs l (List.mem_of_getElem? hl) p hp
        · rw [List.mem_singleton] at hp
          subst hp
          obtain ⟨c, hc, e, -⟩ := (hv.mem v hmem tc).mp htc
          obtain ⟨c', hc', e', -⟩ := (hv.mem v hmem rc).mp hrc
          exact ⟨⟨c, hc, e⟩, c', hc', e'⟩
  · cases hs'; exact hs

end
end Bempp
