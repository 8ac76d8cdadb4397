import Verif.Spec.Tests
import Verif.Proofs.Tests
import Verif.Props.Sparse
import Verif.Props.Linear
/-
Lemmas for C98: the singular part of spaces in which every DOF belongs to one cell.
-/
set_option linter.unusedSectionVars false

namespace Bempp.Tests

theorem sum_single {α M : Type} [AddCommMonoid M] {l : List α} (hl : l.Nodup) {a : α} (ha : a ∈ l) (f : α → M)
    (hf : ∀ b ∈ l, b ≠ a → f b = 0) : (l.map f).sum = f a := by
  classical
  rw [List.sum_map_eq_nsmul_single a f (fun b hb hm => hf b hm hb), List.count_eq_one_of_mem hl ha, one_nsmul]

theorem sum_zero {α M : Type} [AddCommMonoid M] {l : List α} {f : α → M} (hf : ∀ b ∈ l, f b = 0) : (l.map f).sum = 0 := by
  induction l with
  | nil => rfl
  | cons a l ih => rw [List.map_cons, List.sum_cons, hf a (by simp), ih fun b hb => hf b (by simp [hb]), zero_add]

variable {R T : Type}

theorem iter_nodup {g : Grid} (wf : g.WF) : (g.entityIter 2).Nodup :=
  List.Nodup.of_map Entity.localIndex ((wf.index 2 (le_refl 2)).nodup_iff.mpr List.nodup_range)

theorem cell_some {fs : FunctionSpace} {fam : CellType → ElementDofs} (h : SerialSpace fs fam) {c : Entity}
    (hc : c ∈ fs.grid.entityIter 2) : ∃ cd, fs.cellDofs c.localIndex = some cd ∧ fs.dofs c.localIndex = cd ∧
      ∀ n ∈ cd, n < fs.globalSize := by
  obtain ⟨cd, h1, h2, -, -, h3⟩ := h.cell hc
  refine ⟨cd, ?_, h2, h3⟩
  rw [cellDofs_eq]
  exact h1

theorem globalDofs_eq {fs : FunctionSpace} {fam : CellType → ElementDofs} (h : SerialSpace fs fam) {c : Entity}
    (hc : c ∈ fs.grid.entityIter 2) : fs.globalDofs c.localIndex = (fs.cellDofs c.localIndex).getD [] := by
  obtain ⟨cd, h1, -, h3⟩ := cell_some h hc
  unfold FunctionSpace.globalDofs
  rw [h1]
  show cd.map _ = cd
  conv_rhs => rw [← List.map_id cd]
  refine List.map_congr_left fun n hn => ?_
  have := h3 n hn
  obtain ⟨nd, t, fo, -⟩ := h.family
  obtain ⟨s, e1, -, e3, e4, -⟩ := C18_serial_space h.wf fo h.owned
  rw [h.made] at e1
  cases e1
  rw [e3] at this
  rw [(e4 n this).1]
  rfl

section
variable [AddCommMonoid T] {test trial : FunctionSpace} {famT famR : CellType → ElementDofs}

/-- In the double sum only the pair of cells to which the two DOFs belong is left. -/
theorem doubleSum_one (h1 : SerialSpace test famT) (h2 : SerialSpace trial famR) (o1 : test.OneCell) (o2 : trial.OneCell)
    {c c' : Entity} (hc : c ∈ test.grid.entityIter 2) (hc' : c' ∈ trial.grid.entityIter 2) {i j : Nat}
    (hi : i ∈ (test.cellDofs c.localIndex).getD []) (hj : j ∈ (trial.cellDofs c'.localIndex).getD [])
    (value : Entity → Entity → Nat → Nat → T) (lt : List Entity) (lr : Entity → List Entity)
    (ht : lt.Nodup) (hr : ∀ c, (lr c).Nodup) (st : ∀ c ∈ lt, c ∈ test.grid.entityIter 2)
    (sr : ∀ c, ∀ c' ∈ lr c, c' ∈ trial.grid.entityIter 2) (mt : c ∈ lt) (mr : c' ∈ lr c) :
    (lt.map fun c => ((lr c).map fun c' =>
      ((((test.cellDofs c.localIndex).getD []).zipIdx).map fun (ia : Nat × Nat) =>
        ((((trial.cellDofs c'.localIndex).getD []).zipIdx).map fun (jb : Nat × Nat) =>
          if ia.1 = i ∧ jb.1 = j then value c c' ia.2 jb.2 else 0).sum).sum).sum).sum =
    ((((test.cellDofs c.localIndex).getD []).zipIdx).map fun (ia : Nat × Nat) =>
        ((((trial.cellDofs c'.localIndex).getD []).zipIdx).map fun (jb : Nat × Nat) =>
          if ia.1 = i ∧ jb.1 = j then value c c' ia.2 jb.2 else 0).sum).sum := by
  have mem : ∀ {fs : FunctionSpace} {fam : CellType → ElementDofs}, SerialSpace fs fam → fs.OneCell → ∀ {c : Entity},
      c ∈ fs.grid.entityIter 2 → ∀ {b : Entity}, b ∈ fs.grid.entityIter 2 → b ≠ c → ∀ {n : Nat},
      n ∈ (fs.cellDofs c.localIndex).getD [] → ∀ x ∈ ((fs.cellDofs b.localIndex).getD []).zipIdx, x.1 ≠ n := by
    intro fs fam hs ho c hc b hb hne n hn x hx hxn
    obtain ⟨cd, e1, -⟩ := cell_some hs hc
    obtain ⟨cd', e2, -⟩ := cell_some hs hb
    have hx1 : x.1 ∈ (fs.cellDofs b.localIndex).getD [] := by
      rw [(List.mem_zipIdx hx).2.2]
      exact List.getElem_mem _
    rw [e1] at hn
    rw [e2, hxn] at hx1
    exact hne (cell_ext hs.wf hb hc (ho b hb c hc cd' cd n e2 e1 hx1 hn))
  rw [sum_single ht mt, sum_single (hr c) mr]
  · intro b hb hne
    refine sum_zero fun ia _ => sum_zero fun jb hjb => if_neg ?_
    exact fun hh => mem h2 o2 hc' (sr c b hb) hne hj jb hjb hh.2
  · intro b hb hne
    refine sum_zero fun b' _ => sum_zero fun ia hia => sum_zero fun jb _ => if_neg ?_
    exact fun hh => mem h1 o1 hc (st b hb) hne hi ia hia hh.1

end

section
variable [Zero R] [AddCommMonoid T] [Mul T] [Mul R] {env : Env R T} {asm : Assembler R T} {trial test : Space R T}
  {famT famR : CellType → ElementDofs} {F : MathIntegrand T} {K : MathKernel R T} {GT GR : Geometry R}
  {BT BR : Basis R T} {Q : Quadrature R} {t : CellType}

theorem dense_touching (h : DenseSetting env asm trial test famT famR F K GT GR BT BR Q t)
    (hg : test.fs.grid.addr = trial.fs.grid.addr) (o1 : test.fs.OneCell) (o2 : trial.fs.OneCell) {c c' : Entity}
    (hc : c ∈ test.fs.grid.entityIter 2) (hc' : c' ∈ trial.fs.grid.entityIter 2) (ht : c.Touches c') {i j : Nat}
    (hi : i ∈ (test.fs.cellDofs c.localIndex).getD []) (hj : j ∈ (trial.fs.cellDofs c'.localIndex).getD []) :
    doubleSum test.fs trial.fs (cellPairValue env.cast F K GT GR BT BR Q test.fs trial.fs) i j =
      touchingSum test.fs trial.fs (singularPairValue env.cast F K GT BT BR Q) i j := by
  classical
  obtain ⟨hs, hG⟩ := h.same hg
  unfold doubleSum
  rw [doubleSum_one h.testSpace h.trialSpace o1 o2 hc hc' hi hj _ _ (fun _ => trial.fs.grid.entityIter 2) (iter_nodup h.testSpace.wf)
    (fun _ => iter_nodup h.trialSpace.wf) (fun _ h => h) (fun _ _ h => h) hc hc']
  have e : touchingSum test.fs trial.fs (singularPairValue env.cast F K GT BT BR Q) i j =
      (((test.fs.grid.entityIter 2).filter fun c => c.ownership = .owned).map fun c =>
        (((trial.fs.grid.entityIter 2).filter fun c' => c.Touches c').map fun c' =>
      ((((test.fs.cellDofs c.localIndex).getD []).zipIdx).map fun (ia : Nat × Nat) =>
        ((((trial.fs.cellDofs c'.localIndex).getD []).zipIdx).map fun (jb : Nat × Nat) =>
          if ia.1 = i ∧ jb.1 = j then singularPairValue env.cast F K GT BT BR Q c c' ia.2 jb.2 else 0).sum).sum).sum).sum := by
    unfold touchingSum
    congr 1
    refine List.map_congr_left fun b hb => ?_
    congr 1
    have : ∀ (l : List Entity), (∀ b' ∈ l, b' ∈ trial.fs.grid.entityIter 2) → _ := fun l hl => List.map_congr_left (l := l)
      (f := fun c' => ((test.fs.globalDofs b.localIndex).zipIdx.map fun (ia : Nat × Nat) =>
        ((trial.fs.globalDofs c'.localIndex).zipIdx.map fun (jb : Nat × Nat) =>
          if ia.1 = i ∧ jb.1 = j then singularPairValue env.cast F K GT BT BR Q b c' ia.2 jb.2 else 0).sum).sum)
      (g := fun c' => ((((test.fs.cellDofs b.localIndex).getD []).zipIdx).map fun (ia : Nat × Nat) =>
        ((((trial.fs.cellDofs c'.localIndex).getD []).zipIdx).map fun (jb : Nat × Nat) =>
          if ia.1 = i ∧ jb.1 = j then singularPairValue env.cast F K GT BT BR Q b c' ia.2 jb.2 else 0).sum).sum) fun b' hb' => by
        show _ = _
        rw [globalDofs_eq h.testSpace (List.mem_of_mem_filter hb), globalDofs_eq h.trialSpace (hl b' hb')]
    convert this _ fun b' hb' => List.mem_of_mem_filter hb' using 3
  rw [e, doubleSum_one h.testSpace h.trialSpace o1 o2 hc hc' hi hj _ _
    (fun c => (trial.fs.grid.entityIter 2).filter fun c' => c.Touches c')
    ((iter_nodup h.testSpace.wf).filter _) (fun _ => (iter_nodup h.trialSpace.wf).filter _)
    (fun _ h => List.mem_of_mem_filter h) (fun _ _ h => List.mem_of_mem_filter h)
    (List.mem_filter.mpr ⟨hc, decide_eq_true (h.testSpace.owned 2 (le_refl 2) c hc)⟩)
    (List.mem_filter.mpr ⟨hc', decide_eq_true ht⟩)]
  congr 1
  refine List.map_congr_left fun ia _ => ?_
  congr 1
  refine List.map_congr_left fun jb _ => ?_
  have : cellPairValue env.cast F K GT GR BT BR Q test.fs trial.fs c c' ia.2 jb.2 =
      singularPairValue env.cast F K GT BT BR Q c c' ia.2 jb.2 := by
    unfold cellPairValue singularPairValue
    rw [if_pos ⟨hg, ht⟩, hG]
  rw [this]

theorem mem_singular (h : DenseSetting env asm trial test famT famR F K GT GR BT BR Q t)
    (hg : test.fs.grid.addr = trial.fs.grid.addr) {x : (Nat × Nat) × T}
    (hx : x ∈ singularTriplets env.cast F K GT BT BR Q famT famR trial.fs test.fs) :
    ∃ c ∈ test.fs.grid.entityIter 2, ∃ c' ∈ trial.fs.grid.entityIter 2, c.Touches c' ∧
      x.1.1 ∈ (test.fs.cellDofs c.localIndex).getD [] ∧ x.1.2 ∈ (trial.fs.cellDofs c'.localIndex).getD [] := by
  obtain ⟨hs, -⟩ := h.same hg
  unfold singularTriplets at hx
  simp only [List.mem_flatMap, List.mem_map, List.mem_filter, decide_eq_true_eq] at hx
  obtain ⟨k, hk, p, ⟨e, ⟨he, rfl⟩, rfl⟩, hx⟩ := hx
  rw [(foundPairs_perm h.testSpace.wf hs.vertices).mem_iff] at he
  obtain ⟨⟨c, c'⟩, hp, rfl⟩ := List.mem_map.mp he
  obtain ⟨h1, h2, -, hv⟩ := mem_adjacentPairs.mp hp
  have h2 : c' ∈ trial.fs.grid.entityIter 2 := by rw [hs.sameGrid]; exact h2
  obtain ⟨⟨i, hi, e1⟩, j, hj, e2⟩ := mem_localTriplets hx
  obtain ⟨a1, -⟩ := h.testSpace.gdof h1 i hi
  obtain ⟨b1, -⟩ := h.trialSpace.gdof h2 j hj
  obtain ⟨cd, d1, d2, -⟩ := cell_some h.testSpace h1
  obtain ⟨cd', d1', d2', -⟩ := cell_some h.trialSpace h2
  refine ⟨c, h1, c', h2, hv, ?_, ?_⟩
  · rw [e1, a1, d1, Option.getD_some, ← d2]; exact hi
  · rw [e2, b1, d1', Option.getD_some, ← d2']; exact hj

/-- What is stored in the sparse matrix: the positions belong to touching cells. -/
theorem stored_touching (h : DenseSetting env asm trial test famT famR F K GT GR BT BR Q t)
    (hb : 0 < asm.options.batchSize) (hf : FromAijOk env) (hst : FromAijStored env) (o1 : test.fs.OneCell) (o2 : trial.fs.OneCell) :
    ∃ A : Csr T, (∀ out, AssembleSingular env asm trial test out ↔ out = some A) ∧
      A.shape = (test.fs.globalSize, trial.fs.globalSize) ∧
      ∀ i, i < test.fs.globalSize → ((A.storedRow i).map Prod.fst).Nodup ∧ ∀ x ∈ A.storedRow i, x.1 < trial.fs.globalSize ∧
        x.2 = doubleSum test.fs trial.fs (cellPairValue env.cast F K GT GR BT BR Q test.fs trial.fs) i x.1 := by
  obtain ⟨l, A, p1, p2, p3, p4, p5, p6, -⟩ := h.sparse hb hf
  refine ⟨A, p3, p4, ?_⟩
  have hA := (p3 (some A)).mpr rfl
  unfold AssembleSingular at hA
  simp only [p1, exists_eq_left] at hA
  have hempty : ∀ i, (⟨(test.fs.globalSize, trial.fs.globalSize), [], List.replicate (test.fs.globalSize + 1) 0, []⟩ : Csr T).storedRow i =
      [] := fun i => by simp [Csr.storedRow]
  split at hA
  · intro i hi
    have e : A = ⟨(test.fs.globalSize, trial.fs.globalSize), [], List.replicate (test.fs.globalSize + 1) 0, []⟩ := Option.some_inj.mp hA
    rw [e, hempty]
    simp
  · rename_i hn
    have hg : test.fs.grid.addr = trial.fs.grid.addr := by
      by_contra hg
      have := ((C17_no_singular_part hg).1 _).mp ((p1 _).mpr rfl)
      have hl := congrArg Sparse.triplets (Option.some_inj.mp this)
      rw [Sparse.triplets_ofTriplets] at hl
      apply hn
      left
      subst hl
      rfl
    have hl := ((h.same hg).1.part hb _).mp ((p1 _).mpr rfl)
    have hl : l = singularTriplets env.cast F K GT BT BR Q famT famR trial.fs test.fs := by
      have := congrArg Sparse.triplets (Option.some_inj.mp hl)
      simpa [Sparse.triplets_ofTriplets] using this
    subst hl
    have hbd := h.singular_bounds hg
    have hst := hst (test.fs.globalSize, trial.fs.globalSize)
      ((singularTriplets env.cast F K GT BT BR Q famT famR trial.fs test.fs).map fun x : (Nat × Nat) × T => x.1.1)
      ((singularTriplets env.cast F K GT BT BR Q famT famR trial.fs test.fs).map fun x : (Nat × Nat) × T => x.1.2)
      ((singularTriplets env.cast F K GT BT BR Q famT famR trial.fs test.fs).map fun x : (Nat × Nat) × T => x.2) (by simp) (by simp)
      (by
        intro r hr
        obtain ⟨x, hx, rfl⟩ := List.mem_map.mp hr
        exact (hbd x hx).1)
      (by
        intro r hr
        obtain ⟨x, hx, rfl⟩ := List.mem_map.mp hr
        exact (hbd x hx).2) A hA.symm
    intro i hi
    obtain ⟨q1, q2⟩ := hst i hi
    refine ⟨q1, fun x hx => ?_⟩
    obtain ⟨q3, q4⟩ := q2 x hx
    rw [List.zip_map'] at q3
    obtain ⟨y, hy, hyx⟩ := List.mem_map.mp q3
    obtain ⟨c, hc, c', hc', ht, m1, m2⟩ := mem_singular h hg hy
    obtain ⟨b1, b2⟩ := hbd y hy
    rw [(Prod.ext_iff.mp hyx).1] at m1
    rw [(Prod.ext_iff.mp hyx).2] at m2 b2
    refine ⟨b2, ?_⟩
    rw [dense_touching h hg o1 o2 hc hc' ht m1 m2, q4]
    have := tripletSum_ofTriplets (test.fs.globalSize, trial.fs.globalSize)
      (singularTriplets env.cast F K GT BT BR Q famT famR trial.fs test.fs) i x.1
    refine Eq.trans this ?_
    rw [p2, if_pos hg]

end
end Bempp.Tests
