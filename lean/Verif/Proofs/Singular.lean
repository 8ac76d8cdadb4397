import Verif.Proofs.Adjacent
/-
The singular part of assembly.
-/
set_option linter.unusedSectionVars false

namespace Bempp

variable {R T : Type}

/-! ### Batches -/

theorem Split.unique {α : Type} {b : Nat} {c : List α} {start : Nat} {bs bs' : List (List α)}
    (h : Split b c start bs) (h' : Split b c start bs') : bs = bs' := by
  induction h generalizing bs' with
  | stop h =>
    cases h' with
    | stop _ => rfl
    | step h1 _ _ => exact absurd h1 h
  | step h1 h2 _ ih =>
    cases h' with
    | stop h => exact absurd h1 h
    | step h1' h2' h3' =>
      subst h2 h2'
      rw [ih h3']

theorem SplitAll.unique {α : Type} {b : Nat} {l : List (List α × Nat)} {bl bl' : List (Nat × List α)}
    (h : SplitAll b l bl) (h' : SplitAll b l bl') : bl = bl' := by
  induction h generalizing bl' with
  | nil => cases h'; rfl
  | cons h1 _ ih =>
    cases h' with
    | cons h1' h2' => rw [h1.unique h1', ih h2']

theorem SplitAll.exists {α : Type} {b : Nat} (hb : 0 < b) (l : List (List α × Nat)) :
    ∃ bl, SplitAll b l bl := by
  induction l with
  | nil => exact ⟨_, .nil⟩
  | cons x l ih =>
    obtain ⟨bl, h⟩ := ih
    obtain ⟨bs, hbs⟩ := Split.exists hb x.1 0
    exact ⟨_, .cons hbs h⟩

theorem SplitAll.zero {α : Type} {l : List (List α × Nat)} {bl : List (Nat × List α)}
    (h : SplitAll 0 l bl) : ∀ x ∈ l, x.1 = [] := by
  induction h with
  | nil => simp
  | cons h1 _ ih =>
    intro x hx
    rcases List.mem_cons.mp hx with rfl | hx
    · have := h1.zero
      simpa using this
    · exact ih x hx

theorem SplitAll.flatMap {α β : Type} {b : Nat} {l : List (List α × Nat)} {bl : List (Nat × List α)}
    (h : SplitAll b l bl) (f : Nat → α → List β) :
    (bl.flatMap fun x => x.2.flatMap (f x.1)) = l.flatMap fun x => x.1.flatMap (f x.2) := by
  induction h with
  | nil => rfl
  | cons h1 _ ih =>
    rw [List.flatMap_append, ih, List.flatMap_cons]
    congr 1
    rw [List.flatMap_map]
    simp only
    rw [← flatten_flatMap, h1.flatten, List.drop_zero]

theorem SplitAll.mem {α : Type} {b : Nat} {l : List (List α × Nat)} {bl : List (Nat × List α)}
    (h : SplitAll b l bl) : ∀ x ∈ bl, ∃ y ∈ l, y.2 = x.1 ∧ ∀ a ∈ x.2, a ∈ y.1 := by
  induction h with
  | nil => simp
  | @cons c i l bs rest h1 _ ih =>
    intro x hx
    rcases List.mem_append.mp hx with hx | hx
    · obtain ⟨y, hy, rfl⟩ := List.mem_map.mp hx
      refine ⟨(c, i), by simp, rfl, fun a ha => ?_⟩
      have : a ∈ bs.flatten := List.mem_flatten.mpr ⟨y, hy, ha⟩
      rwa [h1.flatten, List.drop_zero] at this
    · obtain ⟨y, hy, h2⟩ := ih x hx
      exact ⟨y, by simp [hy], h2⟩

/-! ### Sparse data -/

/-- Sparse data from a list of triplets. -/
def Sparse.ofTriplets (shape : Nat × Nat) (l : List ((Nat × Nat) × T)) : Sparse T :=
  ⟨l.map fun x => x.2, l.map fun x => x.1.1, l.map fun x => x.1.2, shape⟩

/-- The triplets of sparse data, `src/boundary_assemblers.rs:211-213`. -/
def Sparse.triplets (s : Sparse T) : List ((Nat × Nat) × T) := (s.rows.zip s.cols).zip s.data

theorem Sparse.triplets_ofTriplets (shape : Nat × Nat) (l : List ((Nat × Nat) × T)) :
    (Sparse.ofTriplets shape l).triplets = l := by
  unfold Sparse.triplets Sparse.ofTriplets
  simp only
  induction l with
  | nil => rfl
  | cons x l ih => simp [ih]

/-- Sum of sparse data in order. -/
def sparseSum (shape : Nat × Nat) : List (Option (Sparse T)) → Option (Sparse T)
  | [] => some (Sparse.new shape)
  | x :: l => x.bind fun a => (sparseSum shape l).bind fun b => a.add b

theorem Sparse.add_of_shape {a b : Sparse T} (h : a.shape = b.shape) :
    a.add b = some ⟨a.data ++ b.data, a.rows ++ b.rows, a.cols ++ b.cols, a.shape⟩ := by
  unfold Sparse.add
  rw [if_pos ⟨by rw [h], by rw [h]⟩]

theorem sparseSum_shape {shape : Nat × Nat} {l : List (Option (Sparse T))}
    (hl : ∀ x ∈ l, ∀ a, x = some a → a.shape = shape) {s : Sparse T} (h : sparseSum shape l = some s) :
    s.shape = shape := by
  induction l generalizing s with
  | nil => cases h; rfl
  | cons x l ih =>
    cases x with
    | none => cases h
    | some a =>
      have ha := hl (some a) (by simp) a rfl
      simp only [sparseSum, Option.bind_some] at h
      cases hs : sparseSum shape l with
      | none => rw [hs] at h; cases h
      | some b =>
        have hb := ih (fun x hx => hl x (by simp [hx])) hs
        rw [hs, Option.bind_some, Sparse.add_of_shape (ha.trans hb.symm)] at h
        cases h
        exact ha

theorem sparseSum_append {shape : Nat × Nat} {l r : List (Option (Sparse T))}
    (hl : ∀ x ∈ l, ∀ a, x = some a → a.shape = shape) (hr : ∀ x ∈ r, ∀ a, x = some a → a.shape = shape) :
    sparseSum shape (l ++ r) =
      (sparseSum shape l).bind fun a => (sparseSum shape r).bind fun b => a.add b := by
  induction l with
  | nil =>
    simp only [List.nil_append, sparseSum, Option.bind_some]
    cases hs : sparseSum shape r with
    | none => rfl
    | some b =>
      rw [Option.bind_some, Sparse.add_of_shape (sparseSum_shape hr hs).symm]
      have := sparseSum_shape hr hs
      cases b
      simp only at this
      subst this
      simp [Sparse.new]
  | cons x l ih =>
    have ih := ih fun x hx => hl x (by simp [hx])
    rw [List.cons_append, sparseSum, sparseSum, ih]
    cases x with
    | none => rfl
    | some a =>
      have ha := hl (some a) (by simp) a rfl
      simp only [Option.bind_some]
      cases hs : sparseSum shape l with
      | none => rfl
      | some b =>
        have hb := sparseSum_shape (fun x hx => hl x (by simp [hx])) hs
        simp only [Option.bind_some]
        cases hs' : sparseSum shape r with
        | none =>
          simp only [Option.bind_none]
          rw [Sparse.add_of_shape (ha.trans hb.symm)]
          rfl
        | some c =>
          have hc := sparseSum_shape hr hs'
          simp only [Option.bind_some]
          rw [Sparse.add_of_shape (hb.trans hc.symm), Sparse.add_of_shape (ha.trans hb.symm),
            Option.bind_some, Option.bind_some, Sparse.add_of_shape (by simpa using ha.trans hb.symm),
            Sparse.add_of_shape (by simpa using ha.trans hc.symm)]
          simp

/-- rayon's reduction of sparse data always gives the concatenation in order. -/
theorem reduces_sparse {shape : Nat × Nat} {l : List (Option (Sparse T))}
    (hl : ∀ x ∈ l, ∀ a, x = some a → a.shape = shape) (out : Option (Sparse T)) :
    Reduces Sparse.add (Sparse.new shape) l out ↔ out = sparseSum shape l := by
  have hsingle : ∀ x : Option (Sparse T), (∀ a, x = some a → a.shape = shape) → sparseSum shape [x] = x := by
    intro x hx
    cases x with
    | none => rfl
    | some a =>
      have := hx a rfl
      rw [sparseSum, sparseSum, Option.bind_some, Option.bind_some,
        Sparse.add_of_shape (by simpa [Sparse.new] using this)]
      simp [Sparse.new]
  constructor
  · intro h
    induction h with
    | identity => rfl
    | single x => exact (hsingle x fun a ha => hl x (by simp) a ha).symm
    | join _ _ ih1 ih2 =>
      have h1 := fun x hx => hl x (List.mem_append_left _ hx)
      have h2 := fun x hx => hl x (List.mem_append_right _ hx)
      rw [sparseSum_append h1 h2, ih1 h1, ih2 h2]
  · rintro rfl
    induction l with
    | nil => exact .identity
    | cons x l ih =>
      have h1 : ∀ y ∈ [x], ∀ a, y = some a → a.shape = shape := by
        intro y hy
        rw [List.mem_singleton.mp hy]
        exact hl x (by simp)
      have h2 : ∀ y ∈ l, ∀ a, y = some a → a.shape = shape := fun y hy => hl y (by simp [hy])
      have := Reduces.join (.single x) (ih h2)
      rw [← hsingle x (hl x (by simp)), ← sparseSum_append h1 h2] at this
      rw [hsingle x (hl x (by simp))] at this
      exact this

theorem sparseSum_ofTriplets (shape : Nat × Nat) (L : List (List ((Nat × Nat) × T))) :
    sparseSum shape (L.map fun l => some (Sparse.ofTriplets shape l)) =
      some (Sparse.ofTriplets shape L.flatten) := by
  induction L with
  | nil => rfl
  | cons l L ih =>
    rw [List.map_cons, sparseSum, ih, Option.bind_some, Option.bind_some,
      Sparse.add_of_shape (by rfl)]
    simp [Sparse.ofTriplets]

/-! ### One batch -/

/-- The triplets of a local matrix. -/
def localTriplets (test trial : FunctionSpace) (td rd : List Nat) (m : List (List T)) :
    List ((Nat × Nat) × T) :=
  (rd.zip m).flatMap fun c => (td.zip c.2).map fun e => ((test.gdof e.1, trial.gdof c.1), e.2)

theorem pushLocal_eq {trial test : Space R T} {td rd : List Nat} (m : List (List T))
    (ht : ∀ n ∈ td, test.fs.globalDofIndex n = some (test.fs.gdof n))
    (hr : ∀ n ∈ rd, trial.fs.globalDofIndex n = some (trial.fs.gdof n)) (shape : Nat × Nat)
    (l : List ((Nat × Nat) × T)) :
    pushLocal trial test td rd m (Sparse.ofTriplets shape l) =
      some (Sparse.ofTriplets shape (l ++ localTriplets test.fs trial.fs td rd m)) := by
  unfold pushLocal localTriplets
  obtain ⟨s, h1, h2⟩ := foldlM_inv (fun (out : Sparse T) (c : Nat × List T) =>
      (td.zip c.2).foldlM (fun out (e : Nat × T) => do
        let i ← test.fs.globalDofIndex e.1
        let j ← trial.fs.globalDofIndex c.1
        some (out.push i j e.2)) out)
    (fun pre s => s = Sparse.ofTriplets shape (l ++ pre.flatMap fun c => (td.zip c.2).map fun e =>
      ((test.fs.gdof e.1, trial.fs.gdof c.1), e.2))) (rd.zip m) (Sparse.ofTriplets shape l) (by simp) (by
      rintro pre c post s hpre rfl
      have hc : c.1 ∈ rd := by
        have : c ∈ rd.zip m := by rw [hpre]; simp
        exact (List.of_mem_zip this).1
      obtain ⟨s, h1, h2⟩ := foldlM_inv (fun (out : Sparse T) (e : Nat × T) => do
          let i ← test.fs.globalDofIndex e.1
          let j ← trial.fs.globalDofIndex c.1
          some (out.push i j e.2))
        (fun pre' s => s = Sparse.ofTriplets shape ((l ++ pre.flatMap fun c => (td.zip c.2).map fun e =>
          ((test.fs.gdof e.1, trial.fs.gdof c.1), e.2)) ++ pre'.map fun e =>
          ((test.fs.gdof e.1, trial.fs.gdof c.1), e.2))) (td.zip c.2) _ (by simp; rfl) (by
          rintro pre' e post' s hpre' rfl
          have he : e.1 ∈ td := by
            have : e ∈ td.zip c.2 := by rw [hpre']; simp
            exact (List.of_mem_zip this).1
          rw [ht _ he, hr _ hc]
          exact ⟨_, rfl, by simp [Sparse.push, Sparse.ofTriplets]⟩)
      refine ⟨s, h1, ?_⟩
      rw [h2]
      simp [List.flatMap_append])
  rw [h1, h2]

section
variable [Zero R] [Mul R] [Zero T] [Add T] [Mul T]

theorem pushLocal_shape {trial test : Space R T} {td rd : List Nat} {m : List (List T)} {o o' : Sparse T}
    (h : pushLocal trial test td rd m o = some o') : o'.shape = o.shape := by
  unfold pushLocal at h
  refine foldlM_inv_of_eq _ (fun _ s => s.shape = o.shape) _ _ _ h rfl ?_
  intro pre c post s s' _ hs hstep
  refine foldlM_inv_of_eq _ (fun _ s => s.shape = o.shape) _ _ _ hstep hs ?_
  intro pre e post s s' _ hs hstep
  simp only [Option.bind_eq_bind, Option.bind_eq_some_iff] at hstep
  obtain ⟨i, _, j, _, e⟩ := hstep
  cases e
  exact hs

/-- Whatever the external functions do, a batch returns data of the right shape. -/
theorem batchSingular_shape {env : Env R T} {asm : Assembler R T} {shape : Nat × Nat}
    {trial test : Space R T} {pairs : List (Nat × Nat)} {rule : SingRule R T} {s : Sparse T}
    (h : assembleBatchSingular env asm shape trial test pairs rule = some s) : s.shape = shape := by
  unfold assembleBatchSingular at h
  simp only [Option.bind_eq_bind, Option.bind_eq_some_iff] at h
  obtain ⟨rel, _, tel, _, h⟩ := h
  split at h
  · simp only [Option.bind_eq_some_iff] at h
    obtain ⟨tev, _, rev, _, st, hst, h⟩ := h
    cases h
    refine foldlM_inv_of_eq _ (fun _ s => s.2.2.shape = shape) _ _ _ hst rfl ?_
    intro pre p post s s' _ hs hstep
    unfold singularPairStep at hstep
    simp only [Option.bind_eq_bind, Option.bind_eq_some_iff] at hstep
    obtain ⟨a1, _, a2, _, am, _, td, _, rd, _, out, hout, e⟩ := hstep
    cases e
    simp only
    rw [pushLocal_shape hout, hs]
  · cases h

/-- Whatever the external functions do, the result of the singular part does not depend on the
schedule. -/
theorem singularPart_unique {env : Env R T} {asm : Assembler R T} {shape : Nat × Nat}
    {trial test : Space R T} {o o' : Option (Sparse T)}
    (h : AssembleSingularPart env asm shape trial test o)
    (h' : AssembleSingularPart env asm shape trial test o') : o = o' := by
  unfold AssembleSingularPart at h h'
  split at h
  · rename_i hg
    rw [if_pos hg] at h'
    rw [h, h']
  · rename_i hg
    rw [if_neg hg] at h'
    split at h
    · rename_i hs
      rw [if_pos hs] at h'
      rw [h, h']
    · rename_i hs
      rw [if_neg hs] at h'
      cases hst : singTables env asm trial test with
      | none =>
        rw [hst] at h h'
        simp only at h h'
        rw [h, h']
      | some tb =>
        rw [hst] at h h'
        simp only at h h'
        obtain ⟨bl, hb, h⟩ := h
        obtain ⟨bl', hb', h'⟩ := h'
        have : bl = bl' := by
          unfold MakeCellBlocks at hb hb'
          split at hb
          · rename_i e
            rw [e] at hb'
            simp only at hb'
            rw [hb, hb']
          · rename_i cp e
            rw [e] at hb'
            simp only at hb'
            obtain ⟨x, h1, rfl⟩ := hb
            obtain ⟨y, h2, rfl⟩ := hb'
            rw [h1.unique h2]
        subst this
        cases bl with
        | none =>
          simp only at h h'
          rw [h, h']
        | some bl =>
          simp only at h h'
          rw [reduces_sparse] at h h'
          · rw [h, h']
          all_goals
            intro x hx a ha
            obtain ⟨b, _, rfl⟩ := List.mem_map.mp hx
            simp only [Option.bind_eq_bind, Option.bind_eq_some_iff] at ha
            obtain ⟨rule, _, ha⟩ := ha
            exact batchSingular_shape ha

variable {env : Env R T} {asm : Assembler R T} {trial test : Space R T}
  {famT famR : CellType → ElementDofs} {F : MathIntegrand T} {K : MathKernel R T} {G : Geometry R}
  {BT BR : Basis R T} {Q : Quadrature R}

/-- The triplets of one pair of cells. -/
def pairTriplets (cast : R → T) (F : MathIntegrand T) (K : MathKernel R T) (G : Geometry R)
    (BT BR : Basis R T) (Q : Quadrature R) (famT famR : CellType → ElementDofs)
    (trial test : FunctionSpace) (k : RuleKey) (p : Nat × Nat) : List ((Nat × Nat) × T) :=
  localTriplets test trial (test.dofs p.1) (trial.dofs p.2)
    ((List.range (famR k.2.1).dim).map fun b => (List.range (famT k.1).dim).map fun a =>
      singularValue cast F K G G BT BR Q k.1 k.2.1 (conOf k.2.2) p.1 p.2 a b)

theorem SingularSetting.batch (h : SingularSetting env asm trial test famT famR F K G BT BR Q)
    (shape : Nat × Nat) {k : RuleKey} (hk : k ∈ allKeys test.fs.grid) {pairs : List (Nat × Nat)}
    (hp : ∀ p ∈ pairs, test.fs.grid.IsCell k.1 p.1 ∧ test.fs.grid.IsCell k.2.1 p.2) :
    assembleBatchSingular env asm shape trial test pairs (singRuleOf asm famT famR BT BR Q k) =
      some (Sparse.ofTriplets shape (pairs.flatMap
        (pairTriplets env.cast F K G BT BR Q famT famR trial.fs test.fs k))) := by
  obtain ⟨htt, hrt, hpp⟩ := mem_allKeys.mp hk
  have hrg : k.2.1 ∈ trial.fs.grid.entityTypes 2 := by rw [h.sameGrid]; exact hrt
  have hnodes := h.nodes htt hrt hpp
  generalize hns : RuleKey.nodes Q k = ns
  have hns' : RuleKey.nodes Q (k.1, k.2.1, k.2.2) = ns := hns
  rw [hns'] at hnodes
  have p1 : RefPoints (ns.map fun p => p.1) := by
    intro x hx
    obtain ⟨p, hp, rfl⟩ := List.mem_map.mp hx
    exact (hnodes p hp).1
  have p2 : RefPoints (ns.map fun p => p.2.1) := by
    intro x hx
    obtain ⟨p, hp, rfl⟩ := List.mem_map.mp hx
    exact (hnodes p hp).2
  obtain ⟨tev, ht1, ht2⟩ := h.geometry _ htt _ p1
  obtain ⟨rev, hr1, hr2⟩ := h.geometry _ hrt _ p2
  unfold assembleBatchSingular
  simp only [singRuleOf, hns, h.testSpace.element _ htt, h.trialSpace.element _ hrg, List.length_map,
    h.surface.1, h.surface.2, and_self, if_true, ht1, hr1, Option.bind_eq_bind, Option.bind_some]
  generalize hO : pairTriplets env.cast F K G BT BR Q famT famR trial.fs test.fs k = O
  obtain ⟨st, hst, _, _, _, _, hst5⟩ := foldlM_inv (singularPairStep env trial test)
    (fun pre s => s.1.Ready asm BT BR ns k.1 k.2.1 (famT k.1).dim (famR k.2.1).dim ∧
      s.1.testEvaluator = tev ∧ s.1.trialEvaluator = rev ∧
      Shape2 (famT k.1).dim (famR k.2.1).dim s.2.1 ∧
      s.2.2 = Sparse.ofTriplets shape (pre.flatMap O)) pairs
    (SingPair.new ns.length asm.derivSize asm.integrand asm.kernel tev rev
      (BT.table k.1 (famT k.1).dim (numDerivs asm.tableDerivs) (ns.map fun p => p.1))
      (BR.table k.2.1 (famR k.2.1).dim (numDerivs asm.tableDerivs) (ns.map fun p => p.2.1))
      (ns.map fun p => p.2.2), zeros2 (famT k.1).dim (famR k.2.1).dim, Sparse.new shape)
    ⟨SingPair.new_ready ns tev rev, rfl, rfl, shape2_zeros _ _, rfl⟩ (by
      rintro pre p post s hpre ⟨s1, s2, s3, s4, s5⟩
      obtain ⟨⟨c, hc, hci, hct⟩, c', hc', hci', hct'⟩ := hp p (by rw [hpre]; simp)
      have e1 := SingPair.setTest (testG := G) (c := p.1) s1 (by rw [s2, ← hci]; exact ht2 c hc hct)
      have e2 := SingPair.setTrial (trialG := G) (c := p.2) e1.2
        (by simp only; rw [s3, ← hci']; exact hr2 c' hc' hct')
      obtain ⟨kk, hkk, e3⟩ := SingPair.assemble_eq (testG := G) (trialG := G) (c := p.1) (c' := p.2)
        env.cast h.operator e2.2 rfl rfl s.2.1 s4
      obtain ⟨td, t1, t2, _, _, t3⟩ := h.testSpace.cell hc
      obtain ⟨rd, r1, r2, _, _, r3⟩ := h.trialSpace.cell (c := c') (by rw [h.sameGrid]; exact hc')
      rw [hci] at t1 t2
      rw [hci'] at r1 r2
      unfold singularPairStep
      simp only [e1.1, e2.1, e3, t1, r1, s5, Option.bind_eq_bind, Option.bind_some,
        pushLocal_eq _ t3 r3]
      refine ⟨_, rfl, ?_, s2, s3, shape2_matrix _ _ _, ?_⟩
      · exact ⟨e2.2.integrand, e2.2.kernel, e2.2.testTable, e2.2.trialTable, e2.2.weights, hkk,
          e2.2.test, e2.2.trial⟩
      · simp only
        rw [List.flatMap_append]
        congr 2
        rw [← hO]
        simp only [List.flatMap_cons, List.flatMap_nil, List.append_nil, pairTriplets, t2, r2]
        rw [← hns]
        rfl)
  rw [hst]
  simp [hst5]

/-- All triplets of the singular part. -/
def singularTriplets (cast : R → T) (F : MathIntegrand T) (K : MathKernel R T) (G : Geometry R)
    (BT BR : Basis R T) (Q : Quadrature R) (famT famR : CellType → ElementDofs)
    (trial test : FunctionSpace) : List ((Nat × Nat) × T) :=
  (allKeys test.grid).flatMap fun k =>
    (((foundPairs test.grid).filter fun e => e.1 = k).map fun e => e.2).flatMap
      (pairTriplets cast F K G BT BR Q famT famR trial test k)

theorem zipIdx_flatMap_get {α β : Type} (l : List α) (h : α → List β) (f : Nat → α → List β) (j : Nat)
    (hf : ∀ (i : Nat) (x : α), l[i]? = some x → f (j + i) x = h x) :
    ((l.zipIdx j).flatMap fun x => f x.2 x.1) = l.flatMap h := by
  induction l generalizing j with
  | nil => rfl
  | cons a l ih =>
    rw [List.zipIdx_cons, List.flatMap_cons, List.flatMap_cons]
    rw [ih (j + 1) (fun i x hx => by
      rw [Nat.add_assoc, Nat.add_comm 1 i]
      exact hf (i + 1) x (by simpa using hx))]
    rw [← hf 0 a rfl]
    rfl

theorem SingularSetting.part (h : SingularSetting env asm trial test famT famR F K G BT BR Q)
    (hb : 0 < asm.options.batchSize) (out : Option (Sparse T)) :
    AssembleSingularPart env asm (test.fs.globalSize, trial.fs.globalSize) trial test out ↔
    out = some (Sparse.ofTriplets (test.fs.globalSize, trial.fs.globalSize)
      (singularTriplets env.cast F K G BT BR Q famT famR trial.fs test.fs)) := by
  suffices hex : AssembleSingularPart env asm (test.fs.globalSize, trial.fs.globalSize) trial test
      (some (Sparse.ofTriplets (test.fs.globalSize, trial.fs.globalSize)
        (singularTriplets env.cast F K G BT BR Q famT famR trial.fs test.fs))) by
    constructor
    · intro h; exact singularPart_unique h hex
    · rintro rfl; exact hex
  have wf := h.testSpace.wf
  obtain ⟨ev, ed, co⟩ := h.conforming
  unfold AssembleSingularPart
  rw [if_neg (by simp [equalGrids, h.sameGrid]), if_neg (by simp), h.tables]
  simp only
  have hn := h.keys_nodup
  have hcp := cellPairs_eq wf h.vertices ed co hn
    (f := fun k => Map.get? (allKeys test.fs.grid).zipIdx.reverse k) (lookup_keys hn)
    (fun k h1 h2 h3 => mem_allKeys.mpr ⟨h1, h2, h3⟩)
  obtain ⟨bl, hbl⟩ := SplitAll.exists hb (buckets (allKeys test.fs.grid) (foundPairs test.fs.grid)).zipIdx
  refine ⟨some bl, ?_, ?_⟩
  · unfold MakeCellBlocks
    rw [List.length_reverse, List.length_zipIdx, hcp]
    exact ⟨bl, hbl, rfl⟩
  · simp only
    have hmem : ∀ x ∈ foundPairs test.fs.grid, test.fs.grid.IsCell x.1.1 x.2.1 ∧
        test.fs.grid.IsCell x.1.2.1 x.2.2 := by
      intro x hx
      rw [(foundPairs_perm wf h.vertices).mem_iff] at hx
      obtain ⟨p, hp, rfl⟩ := List.mem_map.mp hx
      obtain ⟨h1, h2, _⟩ := mem_adjacentPairs.mp hp
      exact ⟨⟨_, h1, rfl, rfl⟩, _, h2, rfl, rfl⟩
    let tripOf : Nat → Nat × Nat → List ((Nat × Nat) × T) := fun i p =>
      match (allKeys test.fs.grid)[i]? with
      | some k => pairTriplets env.cast F K G BT BR Q famT famR trial.fs test.fs k p
      | none => []
    have hblocks : (bl.map fun b => do
          let rule ← ((allKeys test.fs.grid).map (singRuleOf asm famT famR BT BR Q))[b.1]?
          assembleBatchSingular env asm (test.fs.globalSize, trial.fs.globalSize) trial test b.2 rule) =
        (bl.map fun b => b.2.flatMap (tripOf b.1)).map fun l =>
          some (Sparse.ofTriplets (test.fs.globalSize, trial.fs.globalSize) l) := by
      rw [List.map_map]
      apply List.map_congr_left
      intro b hb
      obtain ⟨⟨y, i⟩, hy, e, hsub⟩ := hbl.mem b hb
      simp only at e hsub
      subst e
      have hy := List.mk_mem_zipIdx_iff_getElem?.mp hy
      unfold buckets at hy
      rw [List.getElem?_map] at hy
      cases hki : (allKeys test.fs.grid)[b.1]? with
      | none => rw [hki] at hy; cases hy
      | some k =>
        rw [hki] at hy
        simp only [Option.map_some, Option.some.injEq] at hy
        have hk := List.mem_of_getElem? hki
        simp only [Function.comp, List.getElem?_map, hki, Option.map_some, Option.bind_eq_bind,
          Option.bind_some, tripOf]
        apply h.batch _ hk
        intro p hp
        have := hsub p hp
        rw [← hy] at this
        obtain ⟨x, hx, rfl⟩ := List.mem_map.mp this
        obtain ⟨hx1, hx2⟩ := List.mem_filter.mp hx
        simp only [decide_eq_true_eq] at hx2
        rw [← hx2]
        exact hmem x hx1
    rw [hblocks, reduces_sparse, sparseSum_ofTriplets]
    · congr 2
      rw [← List.flatMap_def, hbl.flatMap tripOf]
      unfold singularTriplets buckets
      have hz : ∀ (l : List RuleKey) (g : RuleKey → List (Nat × Nat)),
          ((l.map g).zipIdx.flatMap fun x => x.1.flatMap (tripOf x.2)) =
          l.zipIdx.flatMap fun x => (g x.1).flatMap (tripOf x.2) := by
        intro l g
        rw [List.zipIdx_map, List.flatMap_map]
        rfl
      rw [hz]
      symm
      refine zipIdx_flatMap_get (allKeys test.fs.grid) _ (fun i k =>
        (((foundPairs test.fs.grid).filter fun e => e.1 = k).map fun e => e.2).flatMap (tripOf i)) 0 ?_
      intro i k hi
      rw [Nat.zero_add]
      simp only [tripOf, hi]
    · intro x hx a ha
      rw [List.map_map] at hx
      obtain ⟨b, _, rfl⟩ := List.mem_map.mp hx
      simp only [Function.comp, Option.some.injEq] at ha
      rw [← ha]
      rfl

end
end Bempp
