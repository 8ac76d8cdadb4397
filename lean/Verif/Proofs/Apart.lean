import Verif.Spec.Apart
import Verif.Proofs.Galerkin
/-
Assembly with two kernel objects that do the same at pairs of different points.
-/
set_option linter.unusedSectionVars false

namespace Bempp

variable {R T : Type}

/-- Two loops whose states correspond. -/
theorem foldlM_rel {σ α : Type} {f f' : σ → α → Option σ} (Inv : σ → Prop) (r : σ → σ) (l : List α) (s : σ) (h0 : Inv s)
    (step : ∀ x ∈ l, ∀ s, Inv s → ∃ u, f' s x = some u ∧ Inv u ∧ f (r s) x = some (r u)) :
    ∃ u, l.foldlM f' s = some u ∧ Inv u ∧ l.foldlM f (r s) = some (r u) := by
  induction l generalizing s with
  | nil => exact ⟨s, rfl, h0, rfl⟩
  | cons x l ih =>
    obtain ⟨u, h1, h2, h3⟩ := step x List.mem_cons_self s h0
    obtain ⟨w, k1, k2, k3⟩ := ih u h2 fun y hy => step y (List.mem_cons_of_mem _ hy)
    exact ⟨w, by rw [List.foldlM_cons, h1]; exact k1, k2, by rw [List.foldlM_cons, h3]; exact k3⟩

/-- Replace the kernel object. -/
def NonsingPair.swap (k : Kernel R T) (a : NonsingPair R T) : NonsingPair R T :=
  { a with kernel := { a.kernel with kernel := k } }

/-- Replace the kernel object. -/
def SingPair.swap (k : Kernel R T) (a : SingPair R T) : SingPair R T :=
  { a with kernel := { a.kernel with kernel := k } }

section
variable {env : Env R T} {asm : Assembler R T} {trial test : Space R T} {famT famR : CellType → ElementDofs}
  {F : MathIntegrand T} {K : MathKernel R T} {GT GR G : Geometry R} {BT BR : Basis R T} {Q : Quadrature R} {t : CellType}
  {k : Kernel R T} [Zero R] [Mul R] [Zero T] [Add T] [Mul T]

theorem NonsingPair.swap_assemble (cast : R → T) (a : NonsingPair R T) (m : List (List T)) {tg : CellGeom R}
    (htg : a.test[a.testCell]? = some tg)
    (h : k.assembleSt a.kernel.evalType tg.points a.trial.points a.k =
      a.kernel.kernel.assembleSt a.kernel.evalType tg.points a.trial.points a.k) :
    (a.swap k).assemble cast m = (a.assemble cast m).map fun x => (x.1.swap k, x.2) := by
  unfold NonsingPair.assemble
  simp only [NonsingPair.swap, htg, h, Option.bind_eq_bind, Option.bind_some]
  cases a.kernel.kernel.assembleSt a.kernel.evalType tg.points a.trial.points a.k with
  | none => rfl
  | some kk =>
    simp only [Option.bind_some]
    have : ∀ i j, NonsingPair.entry cast ({ a with kernel := { a.kernel with kernel := k } } : NonsingPair R T) kk tg i j =
      NonsingPair.entry cast a kk tg i j := fun i j => rfl
    simp only [this]
    cases List.mapM (m := Option) (fun (col : List T × Nat) => col.1.zipIdx.mapM fun (e : T × Nat) =>
      a.entry cast kk tg e.2 col.2) m.zipIdx <;> rfl

theorem SingPair.swap_assemble (cast : R → T) (a : SingPair R T) (m : List (List T))
    (h : k.assemblePairwiseSt a.kernel.evalType a.test.points a.trial.points a.k =
      a.kernel.kernel.assemblePairwiseSt a.kernel.evalType a.test.points a.trial.points a.k) :
    (a.swap k).assemble cast m = (a.assemble cast m).map fun x => (x.1.swap k, x.2) := by
  unfold SingPair.assemble
  simp only [SingPair.swap, h, Option.bind_eq_bind]
  cases a.kernel.kernel.assemblePairwiseSt a.kernel.evalType a.test.points a.trial.points a.k with
  | none => rfl
  | some kk =>
    simp only [Option.bind_some]
    have : ∀ i j, SingPair.entry cast ({ a with kernel := { a.kernel with kernel := k } } : SingPair R T) kk i j =
      SingPair.entry cast a kk i j := fun i j => rfl
    simp only [this]
    cases List.mapM (m := Option) (fun (col : List T × Nat) => col.1.zipIdx.mapM fun (e : T × Nat) =>
      a.entry cast kk e.2 col.2) m.zipIdx <;> rfl

/-- A batch of regular pairs. -/
theorem DenseSetting.batch_swap (h : DenseSetting env asm trial test famT famR F K GT GR BT BR Q t)
    (hk : k.SameApart asm.kernel.kernel) (ha : NodesApart Q GT GR test.fs.grid trial.fs.grid)
    {tcs rcs : List Nat} (ht : ∀ c ∈ tcs, test.fs.grid.IsCell t c) (hr : ∀ c ∈ rcs, trial.fs.grid.IsCell t c) :
    assembleBatchNonadjacent env (asm.withKernel k) (test.fs.globalSize, trial.fs.globalSize) t t trial rcs test tcs
        (regRuleOf asm famT famR BT BR Q t) =
      assembleBatchNonadjacent env asm (test.fs.globalSize, trial.fs.globalSize) t t trial rcs test tcs
        (regRuleOf asm famT famR BT BR Q t) := by
  have hp : RefPoints ((Q.regular t).map fun p => p.1) := by
    intro x hx
    obtain ⟨p, hp, rfl⟩ := List.mem_map.mp hx
    exact h.rule.points p hp
  obtain ⟨tev, ht1, ht2⟩ := h.testGeometry t (by rw [h.testType]; simp) _ hp
  obtain ⟨rev, hr1, hr2⟩ := h.trialGeometry t (by rw [h.trialType]; simp) _ hp
  have htev : ∀ c ∈ tcs, tev.Evaluates GT ((Q.regular t).map fun p => p.1) c := by
    intro c hc
    obtain ⟨e, he, rfl, het⟩ := ht c hc
    exact ht2 e he het
  have hrev : ∀ c ∈ rcs, rev.Evaluates GR ((Q.regular t).map fun p => p.1) c := by
    intro c hc
    obtain ⟨e, he, rfl, het⟩ := hr c hc
    exact hr2 e he het
  obtain ⟨a, ha1, ha2, ha3⟩ := NonsingPair.new_ready (asm := asm) (testG := GT) (testB := BT)
    (trialB := BR) (ms := Q.regular t) (ns := Q.regular t) (cells := tcs) (tt := t) (rt := t)
    (dt := (famT t).dim) (dr := (famR t).dim) tev rev htev
  have hnew : NonsingPair.new (Q.regular t).length (Q.regular t).length asm.derivSize tcs asm.integrand
      (asm.withKernel k).kernel tev rev
      (BT.table t (famT t).dim (numDerivs asm.tableDerivs) ((Q.regular t).map fun p => p.1))
      (BR.table t (famR t).dim (numDerivs asm.tableDerivs) ((Q.regular t).map fun p => p.1))
      ((Q.regular t).map fun p => p.2) ((Q.regular t).map fun p => p.2) = some (a.swap k) := by
    unfold NonsingPair.new at ha1 ⊢
    simp only [Option.bind_eq_bind, Option.bind_eq_some_iff, Option.some.injEq] at ha1 ⊢
    obtain ⟨cached, e1, rfl⟩ := ha1
    exact ⟨cached, e1, rfl⟩
  unfold assembleBatchNonadjacent
  simp only [h.testSurface.1, h.testSurface.2, h.trialSurface.1, h.trialSurface.2, and_self, if_true]
  have e1 : (asm.withKernel k).derivSize = asm.derivSize := rfl
  have e2 : (asm.withKernel k).integrand = asm.integrand := rfl
  simp only [regRuleOf, ht1, hr1, List.length_map, e1, e2, ha1, hnew, h.testSpace.element t (by rw [h.testType]; simp),
    h.trialSpace.element t (by rw [h.trialType]; simp), Option.bind_eq_bind, Option.bind_some]
  obtain ⟨u, hu1, -, hu2⟩ := foldlM_rel
    (f := nonadjacentTrial env (test.fs.globalSize, trial.fs.globalSize) trial test tcs)
    (f' := nonadjacentTrial env (test.fs.globalSize, trial.fs.globalSize) trial test tcs)
    (fun s => s.1.Ready asm GT BT BR (Q.regular t) (Q.regular t) tcs t t (famT t).dim (famR t).dim ∧
      s.1.trialEvaluator = rev ∧ Shape2 (famT t).dim (famR t).dim s.2.1)
    (fun s => (s.1.swap k, s.2)) rcs (a, zeros2 (famT t).dim (famR t).dim, []) ⟨ha2, ha3, shape2_zeros _ _⟩ (by
      rintro rc hrc s ⟨s1, s2, s3⟩
      obtain ⟨e1, e2⟩ := NonsingPair.setTrial (trialG := GR) s1 (s2 ▸ hrev rc hrc)
      have e1' : (s.1.swap k).setTrialCell rc = some (({ s.1 with trialCell := rc, trial := GR.atPoints ((Q.regular t).map fun p => p.1) rc } : NonsingPair R T).swap k) := by
        unfold NonsingPair.setTrialCell at e1 ⊢
        simp only [Option.bind_eq_bind, Option.bind_eq_some_iff, Option.some.injEq] at e1 ⊢
        obtain ⟨g, g1, g2⟩ := e1
        refine ⟨g, g1, ?_⟩
        rw [← g2]
        rfl
      obtain ⟨er, her, hei, het⟩ := hr rc hrc
      obtain ⟨rd, hrd1, hrd2, _⟩ := h.trialSpace.cell her
      rw [hei] at hrd1 hrd2
      unfold nonadjacentTrial
      simp only [e1, e1', hrd1, Option.bind_eq_bind, Option.bind_some]
      obtain ⟨w, w1, ⟨w2, w3, w4, -⟩, w5⟩ := foldlM_rel
        (f := nonadjacentTest env (test.fs.globalSize, trial.fs.globalSize) trial test rd rc)
        (f' := nonadjacentTest env (test.fs.globalSize, trial.fs.globalSize) trial test rd rc)
        (fun s => s.1.Ready asm GT BT BR (Q.regular t) (Q.regular t) tcs t t (famT t).dim (famR t).dim ∧
          s.1.trialEvaluator = rev ∧ Shape2 (famT t).dim (famR t).dim s.2.1 ∧
          s.1.trial = GR.atPoints ((Q.regular t).map fun p => p.1) rc)
        (fun s => (s.1.swap k, s.2)) tcs
        ({ s.1 with trialCell := rc, trial := GR.atPoints ((Q.regular t).map fun p => p.1) rc }, s.2.1, s.2.2)
        ⟨e2, s2, s3, rfl⟩ (by
          rintro tc htc s' ⟨u1, u2, u3, u4⟩
          obtain ⟨nb, hnb⟩ := h.neighbours_isSome (ht tc htc) (hr rc hrc)
          obtain ⟨et, het', hti, htt⟩ := ht tc htc
          obtain ⟨td, htd1, htd2, _⟩ := h.testSpace.cell het'
          rw [hti] at htd1 htd2
          unfold nonadjacentTest
          simp only [hnb, Option.bind_eq_bind, Option.bind_some]
          cases nb with
          | true => exact ⟨_, rfl, ⟨u1, u2, u3, u4⟩, rfl⟩
          | false =>
            obtain ⟨i, f1, f2⟩ := NonsingPair.setTest u1 htc
            have f1' : (s'.1.swap k).setTestCell tc = some (({ s'.1 with testCell := i } : NonsingPair R T).swap k) := by
              unfold NonsingPair.setTestCell at f1 ⊢
              simp only [Option.bind_eq_bind, Option.bind_eq_some_iff, Option.some.injEq] at f1 ⊢
              obtain ⟨g, g1, g2⟩ := f1
              refine ⟨g, g1, ?_⟩
              rw [← g2]
              rfl
            have u1' : ({ s'.1 with testCell := i } : NonsingPair R T).Ready asm GT BT BR (Q.regular t)
                (Q.regular t) tcs t t (famT t).dim (famR t).dim :=
              ⟨u1.integrand, u1.kernel, u1.testTable, u1.trialTable, u1.testWeights, u1.trialWeights,
                u1.k, u1.test, u1.testIndices, u1.trial⟩
            obtain ⟨kk, hkk, f3⟩ := NonsingPair.assemble_eq (trialG := GR) env.cast h.operator u1' f2 u4
              s'.2.1 u3
            have htg : ({ s'.1 with testCell := i } : NonsingPair R T).test[({ s'.1 with testCell := i } : NonsingPair R T).testCell]? =
                some (GT.atPoints ((Q.regular t).map fun p => p.1) tc) := by
              rw [u1'.test, List.getElem?_map, f2]; rfl
            have f3' := NonsingPair.swap_assemble (k := k) env.cast ({ s'.1 with testCell := i } : NonsingPair R T) s'.2.1 htg (by
              simp only
              rw [u1.kernel]
              refine hk.all _ _ _ _ ?_
              rw [u4]
              intro x hx y hy
              simp only [Geometry.atPoints, List.map_map] at hx hy
              obtain ⟨p, hp, rfl⟩ := List.mem_map.mp hx
              obtain ⟨q, hq, rfl⟩ := List.mem_map.mp hy
              have hnot : ¬ (test.fs.grid.addr = trial.fs.grid.addr ∧ et.Touches er) := by
                have := neighbours_cells h.trialSpace.wf (fun e => (h.same e).1.sameGrid) het' her
                rw [hti, hei, hnb] at this
                intro hc
                simp [hc] at this
              have := ha.regular et het' er her hnot p (by rw [htt]; exact hp) q (by rw [het]; exact hq)
              rw [hti, hei] at this
              exact this)
            rw [f3] at f3'
            simp only [f1, f1', f3, f3', htd1, Option.bind_some, Option.map_some, Bool.false_eq_true, if_false]
            refine ⟨_, rfl, ⟨?_, u2, shape2_matrix _ _ _, u4⟩, rfl⟩
            exact ⟨u1.integrand, u1.kernel, u1.testTable, u1.trialTable, u1.testWeights,
                u1.trialWeights, hkk, u1.test, u1.testIndices, u1.trial⟩)
      exact ⟨w, w1, ⟨w2, w3, w4⟩, w5⟩)
  rw [hu1]
  simp only at hu2
  rw [hu2]
  rfl

/-- A batch of singular pairs. -/
theorem SingularSetting.batch_swap (h : SingularSetting env asm trial test famT famR F K G BT BR Q)
    (hsame : k.SameApart asm.kernel.kernel) (shape : Nat × Nat) {key : RuleKey} (hk : key ∈ allKeys test.fs.grid)
    {pairs : List (Nat × Nat)} (hp : ∀ p ∈ pairs, test.fs.grid.IsCell key.1 p.1 ∧ test.fs.grid.IsCell key.2.1 p.2)
    (ha : ∀ p ∈ pairs, ∀ q ∈ RuleKey.nodes Q key, G.coords p.1 q.1 ≠ G.coords p.2 q.2.1) :
    assembleBatchSingular env (asm.withKernel k) shape trial test pairs (singRuleOf asm famT famR BT BR Q key) =
      assembleBatchSingular env asm shape trial test pairs (singRuleOf asm famT famR BT BR Q key) := by
  obtain ⟨htt, hrt, hpp⟩ := mem_allKeys.mp hk
  have hrg : key.2.1 ∈ trial.fs.grid.entityTypes 2 := by rw [h.sameGrid]; exact hrt
  have hnodes := h.nodes htt hrt hpp
  generalize hns : RuleKey.nodes Q key = ns at ha
  have hns' : RuleKey.nodes Q (key.1, key.2.1, key.2.2) = ns := hns
  rw [hns'] at hnodes
  have p1 : RefPoints (ns.map fun p => p.1) := by
    intro x hx
    obtain ⟨p, hp, rfl⟩ := List.mem_map.mp hx
    exact (hnodes p hp).1
  have p2 : RefPoints (ns.map fun p => p.2.1) := by
    intro x hx
    obtain ⟨p, hp, rfl⟩ := List.mem_map.mp hx
    exact (hnodes p hp).2
  obtain ⟨tev, ht1, ht2⟩ := h.geometry _ htt _ p1
  obtain ⟨rev, hr1, hr2⟩ := h.geometry _ hrt _ p2
  unfold assembleBatchSingular
  simp only [singRuleOf, hns, h.testSpace.element _ htt, h.trialSpace.element _ hrg, List.length_map,
    h.surface.1, h.surface.2, and_self, if_true, ht1, hr1, Option.bind_eq_bind, Option.bind_some]
  obtain ⟨u, hu1, -, hu2⟩ := foldlM_rel
    (f := singularPairStep env trial test) (f' := singularPairStep env trial test)
    (fun s => s.1.Ready asm BT BR ns key.1 key.2.1 (famT key.1).dim (famR key.2.1).dim ∧
      s.1.testEvaluator = tev ∧ s.1.trialEvaluator = rev ∧
      Shape2 (famT key.1).dim (famR key.2.1).dim s.2.1 ∧ ∃ l, s.2.2 = Sparse.ofTriplets shape l)
    (fun s => (s.1.swap k, s.2)) pairs
    (SingPair.new ns.length asm.derivSize asm.integrand asm.kernel tev rev
      (BT.table key.1 (famT key.1).dim (numDerivs asm.tableDerivs) (ns.map fun p => p.1))
      (BR.table key.2.1 (famR key.2.1).dim (numDerivs asm.tableDerivs) (ns.map fun p => p.2.1))
      (ns.map fun p => p.2.2), zeros2 (famT key.1).dim (famR key.2.1).dim, Sparse.new shape)
    ⟨SingPair.new_ready ns tev rev, rfl, rfl, shape2_zeros _ _, [], rfl⟩ (by
      rintro p hpm s ⟨s1, s2, s3, s4, l, s5⟩
      obtain ⟨⟨c, hc, hci, hct⟩, c', hc', hci', hct'⟩ := hp p hpm
      have e1 := SingPair.setTest (testG := G) (c := p.1) s1 (by rw [s2, ← hci]; exact ht2 c hc hct)
      have e2 := SingPair.setTrial (trialG := G) (c := p.2) e1.2
        (by simp only; rw [s3, ← hci']; exact hr2 c' hc' hct')
      obtain ⟨kk, hkk, e3⟩ := SingPair.assemble_eq (testG := G) (trialG := G) (c := p.1) (c' := p.2)
        env.cast h.operator e2.2 rfl rfl s.2.1 s4
      have e1' : (s.1.swap k).setTestCell p.1 = (s.1.setTestCell p.1).map (SingPair.swap k) := by
        unfold SingPair.setTestCell
        simp only [SingPair.swap, Option.bind_eq_bind]
        cases s.1.testEvaluator.fill p.1 s.1.test <;> rfl
      have e2' : ∀ a : SingPair R T, (a.swap k).setTrialCell p.2 = (a.setTrialCell p.2).map (SingPair.swap k) := by
        intro a
        unfold SingPair.setTrialCell
        simp only [SingPair.swap, Option.bind_eq_bind]
        cases a.trialEvaluator.fill p.2 a.trial <;> rfl
      obtain ⟨td, t1, t2, _, _, t3⟩ := h.testSpace.cell hc
      obtain ⟨rd, r1, r2, _, _, r3⟩ := h.trialSpace.cell (c := c') (by rw [h.sameGrid]; exact hc')
      rw [hci] at t1 t2
      rw [hci'] at r1 r2
      have e3' := SingPair.swap_assemble (k := k) env.cast ({ s.1 with
          testCell := p.1, test := G.atPoints (ns.map fun p => p.1) p.1
          trialCell := p.2, trial := G.atPoints (ns.map fun p => p.2.1) p.2 } : SingPair R T) s.2.1 (by
        simp only
        rw [s1.kernel]
        refine hsame.pairwise _ _ _ _ ?_
        intro x hx
        simp only [Geometry.atPoints, List.map_map, List.zip_map'] at hx
        obtain ⟨q, hq, rfl⟩ := List.mem_map.mp hx
        exact ha p hpm q hq)
      rw [e3] at e3'
      unfold singularPairStep
      simp only [e1', e1.1, e2', e2.1, e3, e3', t1, r1, s5, Option.bind_eq_bind, Option.bind_some, Option.map_some,
        pushLocal_eq _ t3 r3]
      refine ⟨_, rfl, ⟨?_, s2, s3, shape2_matrix _ _ _, _, rfl⟩, rfl⟩
      exact ⟨e2.2.integrand, e2.2.kernel, e2.2.testTable, e2.2.trialTable, e2.2.weights, hkk,
          e2.2.test, e2.2.trial⟩)
  have e1 : (asm.withKernel k).derivSize = asm.derivSize := rfl
  have e2 : (asm.withKernel k).integrand = asm.integrand := rfl
  rw [e1, e2, hu1]
  simp only at hu2
  rw [show (SingPair.new ns.length asm.derivSize asm.integrand (asm.withKernel k).kernel tev rev
      (BT.table key.1 (famT key.1).dim (numDerivs asm.tableDerivs) (ns.map fun p => p.1))
      (BR.table key.2.1 (famR key.2.1).dim (numDerivs asm.tableDerivs) (ns.map fun p => p.2.1))
      (ns.map fun p => p.2.2)) = SingPair.swap k (SingPair.new ns.length asm.derivSize asm.integrand asm.kernel tev rev
      (BT.table key.1 (famT key.1).dim (numDerivs asm.tableDerivs) (ns.map fun p => p.1))
      (BR.table key.2.1 (famR key.2.1).dim (numDerivs asm.tableDerivs) (ns.map fun p => p.2.1))
      (ns.map fun p => p.2.2)) from rfl, hu2]
  rfl

theorem makeSingRule_swap (tt rt : CellType) (n : Nat) (pairs : List (Nat × Nat)) :
    makeSingRule env (asm.withKernel k) trial test tt rt n pairs = makeSingRule env asm trial test tt rt n pairs := rfl

theorem singTables_swap : singTables env (asm.withKernel k) trial test = singTables env asm trial test := rfl

/-- The singular part. -/
theorem SingularSetting.part_swap (h : SingularSetting env asm trial test famT famR F K G BT BR Q)
    (hsame : k.SameApart asm.kernel.kernel) (shape : Nat × Nat)
    (ha : ∀ c ∈ test.fs.grid.entityIter 2, ∀ c' ∈ test.fs.grid.entityIter 2, c.Touches c' →
      ∀ p ∈ Q.singular c.entityType c'.entityType (connectivity c c'), G.coords c.localIndex p.1 ≠ G.coords c'.localIndex p.2.1)
    (out : Option (Sparse T)) :
    AssembleSingularPart env (asm.withKernel k) shape trial test out ↔ AssembleSingularPart env asm shape trial test out := by
  have wf := h.testSpace.wf
  obtain ⟨ev, ed, co⟩ := h.conforming
  unfold AssembleSingularPart
  rw [singTables_swap, h.tables]
  split
  · rfl
  split
  · rfl
  simp only
  have hn := h.keys_nodup
  have hcp := cellPairs_eq wf h.vertices ed co hn
    (f := fun k => Map.get? (allKeys test.fs.grid).zipIdx.reverse k) (lookup_keys hn)
    (fun k h1 h2 h3 => mem_allKeys.mpr ⟨h1, h2, h3⟩)
  have hopt : (asm.withKernel k).options = asm.options := rfl
  rw [hopt]
  refine exists_congr fun blocks => and_congr_right fun hbl => ?_
  unfold MakeCellBlocks at hbl
  rw [List.length_reverse, List.length_zipIdx, hcp] at hbl
  obtain ⟨bl, hbl, rfl⟩ := hbl
  simp only
  rw [List.map_congr_left]
  intro b hb
  obtain ⟨⟨y, i⟩, hy, e, hsub⟩ := hbl.mem b hb
  simp only at e hsub
  subst e
  have hy := List.mk_mem_zipIdx_iff_getElem?.mp hy
  unfold buckets at hy
  rw [List.getElem?_map] at hy
  cases hki : (allKeys test.fs.grid)[b.1]? with
  | none => rw [hki] at hy; cases hy
  | some key =>
    rw [hki] at hy
    simp only [Option.map_some, Option.some.injEq] at hy
    have hk := List.mem_of_getElem? hki
    have hpair : ∀ p ∈ b.2, ∃ c ∈ test.fs.grid.entityIter 2, ∃ c' ∈ test.fs.grid.entityIter 2, c.Touches c' ∧
        p = (c.localIndex, c'.localIndex) ∧ key = (c.entityType, c'.entityType, sharedVertices c c') := by
      intro p hp
      have := hsub p hp
      rw [← hy] at this
      obtain ⟨x, hx, rfl⟩ := List.mem_map.mp this
      obtain ⟨hx1, hx2⟩ := List.mem_filter.mp hx
      simp only [decide_eq_true_eq] at hx2
      rw [(foundPairs_perm wf h.vertices).mem_iff] at hx1
      obtain ⟨p, hp', rfl⟩ := List.mem_map.mp hx1
      obtain ⟨h1, h2, _, h3⟩ := mem_adjacentPairs.mp hp'
      exact ⟨p.1, h1, p.2, h2, h3, rfl, hx2.symm⟩
    simp only [List.getElem?_map, hki, Option.map_some, Option.bind_eq_bind, Option.bind_some]
    refine h.batch_swap hsame _ hk ?_ ?_
    · intro p hp
      obtain ⟨c, hc, c', hc', _, rfl, rfl⟩ := hpair p hp
      exact ⟨⟨c, hc, rfl, rfl⟩, c', hc', rfl, rfl⟩
    · intro p hp q hq
      obtain ⟨c, hc, c', hc', h3, rfl, rfl⟩ := hpair p hp
      refine ha c hc c' hc' h3 q ?_
      rw [← (sharedVertices_possible wf ed co hc hc' h3).2]
      exact hq

/-- Loops with equivalent bodies. -/
theorem forRun_congr_apart {α σ : Type} {body body' : α → σ → Outcome σ → Prop} (l : List α)
    (h : ∀ a ∈ l, ∀ s o, body a s o ↔ body' a s o) (s : σ) (o : Outcome σ) : ForRun body l s o ↔ ForRun body' l s o := by
  have imp : ∀ {b b' : α → σ → Outcome σ → Prop} {l : List α} {s o}, ForRun b l s o →
      (∀ a ∈ l, ∀ s o, b a s o → b' a s o) → ForRun b' l s o := by
    intro b b' l s o hr
    induction hr with
    | nil s => exact fun _ => .nil s
    | cons h1 _ ih => exact fun h => .cons (h _ List.mem_cons_self _ _ h1) (ih fun a ha => h a (List.mem_cons_of_mem _ ha))
    | panic h1 => exact fun h => .panic (h _ List.mem_cons_self _ _ h1)
  exact ⟨fun hr => imp hr fun a ha s o => (h a ha s o).mp, fun hr => imp hr fun a ha s o => (h a ha s o).mpr⟩

/-- The regular part. -/
theorem DenseSetting.nonsingular_swap (h : DenseSetting env asm trial test famT famR F K GT GR BT BR Q t)
    (hk : k.SameApart asm.kernel.kernel) (ha : NodesApart Q GT GR test.fs.grid trial.fs.grid)
    {testCol trialCol : Colouring} (htc : test.fs.cellColouring = some testCol)
    (hrc : trial.fs.cellColouring = some trialCol) (mem : List T) (o : Outcome (List T)) :
    AssembleNonsingularPart env (asm.withKernel k) (test.fs.globalSize, trial.fs.globalSize) trial test trialCol testCol mem o ↔
      AssembleNonsingularPart env asm (test.fs.globalSize, trial.fs.globalSize) trial test trialCol testCol mem o := by
  unfold AssembleNonsingularPart
  simp only [h.testSpace.serial.1, h.trialSpace.serial.1, Bool.true_eq_false, or_self, if_false, ne_eq,
    not_true_eq_false, h.testType, h.trialType]
  refine forRun_congr_apart _ (fun tt htt s o => forRun_congr_apart _ (fun rt hrt s o => ?_) s o) mem o
  rw [List.mem_singleton.mp htt, List.mem_singleton.mp hrt]
  unfold TypePairRun
  have e : regRule env (asm.withKernel k) trial test t t = regRule env asm trial test t t := rfl
  rw [e, h.regRule_eq]
  cases htcs : testCol t with
  | none => rfl
  | some tcs =>
    cases hrcs : trialCol t with
    | none => rfl
    | some rcs =>
      simp only
      refine forRun_congr_apart _ (fun testC htC s o => forRun_congr_apart _ (fun trialC hrC s o => ?_) s o) s o
      obtain ⟨-, c2⟩ := h.testSpace.colourClass htc htcs htC
      obtain ⟨-, d2⟩ := h.trialSpace.colourClass hrc hrcs hrC
      unfold ColourPairRun
      refine exists_congr fun tasks => and_congr_right fun hs => ?_
      rw [List.map_congr_left]
      intro x hx
      obtain ⟨m1, m2⟩ := hs.mem x hx
      exact h.batch_swap hk ha (fun c hc => c2 c (m1 c hc)) (fun c hc => d2 c (m2 c hc))

/-- The whole assembly. -/
theorem DenseSetting.intoMemory_swap (h : DenseSetting env asm trial test famT famR F K GT GR BT BR Q t)
    (hk : k.SameApart asm.kernel.kernel) (ha : NodesApart Q GT GR test.fs.grid trial.fs.grid)
    (mem : List T) (o : Outcome (List T)) :
    AssembleIntoMemory env (asm.withKernel k) trial test mem o ↔ AssembleIntoMemory env asm trial test mem o := by
  obtain ⟨tcol, ht1, -⟩ := h.testSpace.colouring
  obtain ⟨rcol, hr1, -⟩ := h.trialSpace.colouring
  have hsp : ∀ sp, AssembleSingularPart env (asm.withKernel k) (test.fs.globalSize, trial.fs.globalSize) trial test sp ↔
      AssembleSingularPart env asm (test.fs.globalSize, trial.fs.globalSize) trial test sp := by
    intro sp
    by_cases hg : test.fs.grid.addr = trial.fs.grid.addr
    · obtain ⟨hs, hG⟩ := h.same hg
      refine hs.part_swap hk _ ?_ sp
      intro c hc c' hc' hcc p hp
      have := ha.singular c hc c' (by rw [hs.sameGrid]; exact hc') hg hcc p hp
      rwa [hG] at this
    · unfold AssembleSingularPart
      rw [if_pos (by simp [equalGrids, hg]), if_pos (by simp [equalGrids, hg])]
  unfold AssembleIntoMemory
  simp only [ht1, hr1, h.nonsingular_swap hk ha ht1 hr1, hsp]

end
end Bempp
