import Verif.Props.Partition
import Verif.Props.Linear
import Verif.Spec.Motion
import Mathlib.Tactic.LinearCombination
import Mathlib.Tactic.FieldSimp
/-
Renumbered grids: cells, DOFs and matrix entries correspond.
-/
set_option linter.unusedSectionVars false

namespace Bempp

variable {R T : Type}

/-! ### Cells and DOFs -/

theorem Grid.Renumbering.partOf {g g' : Grid} {num : Nat → Nat → Nat} (h : g.Renumbering g' num) (wf : g.WF)
    (wf' : g'.WF) (ho : ∀ d, d ≤ 2 → ∀ e ∈ g.entityIter d, e.ownership = .owned)
    (ho' : ∀ d, d ≤ 2 → ∀ e ∈ g'.entityIter d, e.ownership = .owned) :
    PartOf 1 (fun _ => g) g' (fun _ => num) where
  pos := by omega
  whole := wf'
  parts := fun _ _ => wf
  types := fun _ _ => h.types
  serial := ho'
  inj := by
    intro r _ d hd e he e' he' hn
    have lt : ∀ e ∈ g.entityIter d, e.localIndex < g.count d := fun e he => by
      have := (wf.index d hd).mem_iff.mp (List.mem_map_of_mem he)
      simpa using this
    exact h.inj d hd _ _ (lt e he) (lt e' he') hn
  cell := fun _ _ => h.cell
  ghost := by
    intro r _ d hd e he p i hg
    rw [ho d hd e he] at hg
    cases hg
  owner := by
    intro d hd e0 he0
    obtain ⟨e, he, rfl⟩ := h.onto d hd e0 he0
    obtain ⟨x, hx, rfl⟩ := wf.exists_of_lt hd he
    exact ⟨0, by omega, x, hx, ho d hd x hx, rfl⟩
  owner_unique := by intros; omega

theorem finished_one {g : Grid} {fam : CellType → ElementDofs} {sp : FunctionSpace}
    (h : FunctionSpace.new 0 1 g fam = .done sp) : Finished 1 (fun _ => g) fam fun _ => sp := by
  refine ⟨0, _, .refl _, ?_⟩
  intro r hr
  have : r = 0 := by omega
  subst this
  exact h

/-- The bijection of the DOF numbers of a space on two numberings of a grid. -/
theorem Grid.Renumbering.sameDofs {num : Nat → Nat → Nat} {sp sp' : FunctionSpace} {fam : CellType → ElementDofs}
    (h : sp.grid.Renumbering sp'.grid num) (hs : SerialSpace sp fam) (hs' : SerialSpace sp' fam) :
    ∃ p, SameDofs sp sp' (num 2) p := by
  obtain ⟨nd', -, fo', -⟩ := hs'.family
  obtain ⟨nd, -, fo, -⟩ := hs.family
  obtain ⟨p, hp⟩ := C45_renumbering (h.partOf hs.wf hs'.wf hs.owned hs'.owned) fo' (finished_one hs.made) hs'.made
  have hsize : sp.globalSize = sp'.globalSize := hp.size 0 (by omega)
  refine ⟨p, hsize.symm, by rw [hsize]; exact hp.lt, by rw [hsize]; exact hp.inj, by rw [hsize]; exact hp.onto, ?_⟩
  intro c hc
  obtain ⟨cd, cd0, h1, h2, h3, h4⟩ := hp.cell 0 (by omega) c hc
  refine ⟨cd, h1, ?_⟩
  rw [h2, Option.some.injEq]
  obtain ⟨s, e1, -, e2, e3, -⟩ := C18_serial_space hs.wf fo hs.owned
  rw [hs.made] at e1
  cases e1
  obtain ⟨cd1, k1, -, -, k4⟩ := (C03_cell_dofs hs.wf fo (by rw [hs.made]; exact .done _)).2 c hc
  rw [h1] at k1
  cases k1
  apply List.ext_getElem?
  intro a
  rw [List.getElem?_map]
  by_cases ha : a < cd.length
  · obtain ⟨N, g1, -, g3⟩ := h4 a cd[a] (by simp [ha])
    rw [(e3 _ (k4 _ (List.getElem_mem ha))).1] at g1
    cases g1
    rw [g3, List.getElem?_eq_getElem ha]
    rfl
  · rw [List.getElem?_eq_none (by omega), List.getElem?_eq_none (by omega)]
    rfl

/-- The cells of the renumbered grid, in the order of the original one. -/
theorem Grid.Renumbering.cells {g g' : Grid} {num : Nat → Nat → Nat} (h : g.Renumbering g' num) (wf : g.WF)
    (wf' : g'.WF) : ∃ φ : Entity → Entity, ((g.entityIter 2).map φ).Perm (g'.entityIter 2) ∧
      ∀ c ∈ g.entityIter 2, φ c ∈ g'.entityIter 2 ∧ (φ c).localIndex = num 2 c.localIndex ∧
        (φ c).entityType = c.entityType ∧ ∀ d, d ≤ 2 → (φ c).sub d = (c.sub d).map (num d) := by
  classical
  let φ : Entity → Entity := fun c => if hc : c ∈ g.entityIter 2 then (h.cell c hc).choose else c
  have hφ : ∀ c (hc : c ∈ g.entityIter 2), φ c = (h.cell c hc).choose := fun c hc => dif_pos hc
  have hspec : ∀ c ∈ g.entityIter 2, φ c ∈ g'.entityIter 2 ∧ (φ c).localIndex = num 2 c.localIndex ∧
        (φ c).entityType = c.entityType ∧ ∀ d, d ≤ 2 → (φ c).sub d = (c.sub d).map (num d) := by
    intro c hc
    rw [hφ c hc]
    exact (h.cell c hc).choose_spec
  have lt : ∀ e ∈ g.entityIter 2, e.localIndex < g.count 2 := fun e he => by
    have := (wf.index 2 (by omega)).mem_iff.mp (List.mem_map_of_mem he)
    simpa using this
  refine ⟨φ, ?_, hspec⟩
  refine (List.perm_ext_iff_of_nodup ?_ (wf'.nodup (by omega))).mpr ?_
  · refine List.Nodup.map_on ?_ (wf.nodup (by omega))
    intro c hc c' hc' he
    refine wf.index_inj (by omega) hc hc' (h.inj 2 (by omega) _ _ (lt c hc) (lt c' hc') ?_)
    rw [← (hspec c hc).2.1, ← (hspec c' hc').2.1, he]
  · intro c0
    constructor
    · intro h0
      obtain ⟨c, hc, rfl⟩ := List.mem_map.mp h0
      exact (hspec c hc).1
    · intro h0
      have l0 : c0.localIndex < g'.count 2 := by
        have := (wf'.index 2 (by omega)).mem_iff.mp (List.mem_map_of_mem h0)
        simpa using this
      obtain ⟨e, he, hn⟩ := h.onto 2 (by omega) _ l0
      obtain ⟨c, hc, rfl⟩ := wf.exists_of_lt (by omega) he
      refine List.mem_map.mpr ⟨c, hc, wf'.index_inj (by omega) (hspec c hc).1 h0 ?_⟩
      rw [(hspec c hc).2.1, hn]

/-! ### Entries -/

theorem doubleSum_transport [AddCommMonoid T] {test trial test' trial' : FunctionSpace}
    {φT φR : Entity → Entity} {numT numR : Nat → Nat} {pT pR : Nat → Nat}
    (hT : ((test.grid.entityIter 2).map φT).Perm (test'.grid.entityIter 2))
    (hR : ((trial.grid.entityIter 2).map φR).Perm (trial'.grid.entityIter 2))
    (nT : ∀ c ∈ test.grid.entityIter 2, (φT c).localIndex = numT c.localIndex)
    (nR : ∀ c ∈ trial.grid.entityIter 2, (φR c).localIndex = numR c.localIndex)
    (dT : SameDofs test test' numT pT) (dR : SameDofs trial trial' numR pR)
    (lT : ∀ c ∈ test.grid.entityIter 2, ∀ cd, test.cellDofs c.localIndex = some cd → ∀ i ∈ cd, i < test.globalSize)
    (lR : ∀ c ∈ trial.grid.entityIter 2, ∀ cd, trial.cellDofs c.localIndex = some cd → ∀ i ∈ cd, i < trial.globalSize)
    {v v' : Entity → Entity → Nat → Nat → T}
    (hv : ∀ c ∈ test.grid.entityIter 2, ∀ c' ∈ trial.grid.entityIter 2, ∀ a b,
      v' (φT c) (φR c') a b = v c c' a b)
    {i j : Nat} (hi : i < test.globalSize) (hj : j < trial.globalSize) :
    doubleSum test' trial' v' (pT i) (pR j) = doubleSum test trial v i j := by
  unfold doubleSum
  rw [← (hT.map _).sum_eq, List.map_map]
  congr 1
  apply List.map_congr_left
  intro c hc
  simp only [Function.comp]
  rw [← (hR.map _).sum_eq, List.map_map]
  congr 1
  apply List.map_congr_left
  intro c' hc'
  simp only [Function.comp]
  obtain ⟨cd, e1, e2⟩ := dT.cell c hc
  obtain ⟨cd', e3, e4⟩ := dR.cell c' hc'
  rw [nT c hc, nR c' hc', e1, e2, e3, e4]
  simp only [Option.getD_some]
  rw [zipIdx_map_fst, zipIdx_map_fst, List.map_map]
  congr 1
  apply List.map_congr_left
  intro x hx
  simp only [Function.comp]
  rw [List.map_map]
  congr 1
  apply List.map_congr_left
  intro y hy
  simp only [Function.comp]
  have hx' := lT c hc cd e1 _ (List.fst_mem_of_mem_zipIdx hx)
  have hy' := lR c' hc' cd' e3 _ (List.fst_mem_of_mem_zipIdx hy)
  have a1 : (pT x.1 = pT i) = (x.1 = i) := propext ⟨dT.inj _ _ hx' hi, fun e => by rw [e]⟩
  have a2 : (pR y.1 = pR j) = (y.1 = j) := propext ⟨dR.inj _ _ hy' hj, fun e => by rw [e]⟩
  simp only [a1, a2, hv c hc c' hc']

theorem SerialSpace.dof_lt {sp : FunctionSpace} {fam : CellType → ElementDofs} (hs : SerialSpace sp fam) :
    ∀ c ∈ sp.grid.entityIter 2, ∀ cd, sp.cellDofs c.localIndex = some cd → ∀ i ∈ cd, i < sp.globalSize := by
  intro c hc cd hcd i hi
  obtain ⟨nd, -, fo, -⟩ := hs.family
  obtain ⟨s, e1, -, e2, -⟩ := C18_serial_space hs.wf fo hs.owned
  rw [hs.made] at e1
  cases e1
  obtain ⟨cd1, k1, -, -, k4⟩ := (C03_cell_dofs hs.wf fo (by rw [hs.made]; exact .done _)).2 c hc
  rw [hcd] at k1
  cases k1
  rw [e2]
  exact k4 i hi

section
variable [Zero R] [Mul R] [AddCommMonoid T] [Mul T] [One T]
  {env : Env R T} {asm asm' : Assembler R T} {trial test trial' test' : Space R T}
  {famT famR : CellType → ElementDofs} {F F' : MathIntegrand T} {K K' : MathKernel R T}
  {GT GR GT' GR' : Geometry R} {BT BR : Basis R T} {Q : Quadrature R} {t : CellType} {numT numR : Nat → Nat → Nat}

/-- Entries of the matrices of two operators on renumbered surfaces, if the quadrature values of corresponding pairs of
cells are related by `f`. -/
theorem matrix_transport (f : T → T) (f0 : f 0 = 0) (fa : ∀ x y, f (x + y) = f x + f y)
    (h : DenseSetting env asm trial test famT famR F K GT GR BT BR Q t)
    (h' : DenseSetting env asm' trial' test' famT famR F' K' GT' GR' BT BR Q t)
    (hb : 0 < asm.options.batchSize) (hb' : 0 < asm'.options.batchSize)
    (hn : RenumberedPair test.fs trial.fs test'.fs trial'.fs numT numR)
    (hreg : ∀ c ∈ test.fs.grid.entityIter 2, ∀ c' ∈ trial.fs.grid.entityIter 2, ∀ tt rt a b p q,
      regularTerm env.cast F' K' GT' GR' BT BR tt rt (numT 2 c.localIndex) (numR 2 c'.localIndex) a b p q =
      f (regularTerm env.cast F K GT GR BT BR tt rt c.localIndex c'.localIndex a b p q))
    (hsing : ∀ c ∈ test.fs.grid.entityIter 2, ∀ c' ∈ trial.fs.grid.entityIter 2, ∀ tt rt a b p,
      singularTerm env.cast F' K' GT' GR' BT BR tt rt (numT 2 c.localIndex) (numR 2 c'.localIndex) a b p =
      f (singularTerm env.cast F K GT GR BT BR tt rt c.localIndex c'.localIndex a b p)) :
    ∃ (M M' : List T) (pT pR : Nat → Nat),
      (∀ out, Assemble env asm trial test out ↔ out = some M) ∧
      (∀ out, Assemble env asm' trial' test' out ↔ out = some M') ∧
      SameDofs test.fs test'.fs (numT 2) pT ∧ SameDofs trial.fs trial'.fs (numR 2) pR ∧
      ∀ i j, i < test.fs.globalSize → j < trial.fs.globalSize →
        M'[pT i + test.fs.globalSize * pR j]? = (M[i + test.fs.globalSize * j]?).map f := by
  obtain ⟨M, m1, -, m2⟩ := C14_galerkin h hb
  obtain ⟨M', m1', -, m2'⟩ := C14_galerkin h' hb'
  obtain ⟨pT, dT⟩ := hn.testGrid.sameDofs h.testSpace h'.testSpace
  obtain ⟨pR, dR⟩ := hn.trialGrid.sameDofs h.trialSpace h'.trialSpace
  obtain ⟨φT, cT, sT⟩ := hn.testGrid.cells h.testSpace.wf h'.testSpace.wf
  obtain ⟨φR, cR, sR⟩ := hn.trialGrid.cells h.trialSpace.wf h'.trialSpace.wf
  refine ⟨M, M', pT, pR, m1, m1', dT, dR, ?_⟩
  intro i j hi hj
  have e := m2' (pT i) (pR j) (by rw [dT.size]; exact dT.lt i hi) (by rw [dR.size]; exact dR.lt j hj)
  rw [dT.size] at e
  rw [e, m2 i j hi hj, Option.map_some, Option.some.injEq]
  have fsum : ∀ {α : Type} (l : List α) (g : α → T), f ((l.map g).sum) = (l.map fun x => f (g x)).sum := by
    intro α l g
    induction l with
    | nil => exact f0
    | cons x l ih => simp [fa, ih]
  have hf : f (doubleSum test.fs trial.fs (cellPairValue env.cast F K GT GR BT BR Q test.fs trial.fs) i j) =
      doubleSum test.fs trial.fs (fun c c' a b => f (cellPairValue env.cast F K GT GR BT BR Q test.fs trial.fs c c' a b))
        i j := by
    unfold doubleSum
    simp only [fsum, apply_ite f, f0]
  rw [hf]
  refine doubleSum_transport cT cR (fun c hc => (sT c hc).2.1) (fun c hc => (sR c hc).2.1) dT dR h.testSpace.dof_lt
    h.trialSpace.dof_lt ?_ hi hj
  intro c hc c' hc' a b
  obtain ⟨t1, t2, t3, t4⟩ := sT c hc
  obtain ⟨r1, r2, r3, r4⟩ := sR c' hc'
  unfold cellPairValue
  by_cases ha : test.fs.grid.addr = trial.fs.grid.addr
  · have hnum := hn.same ha
    subst hnum
    have hpart := hn.testGrid.partOf h.testSpace.wf h'.testSpace.wf h.testSpace.owned h'.testSpace.owned
    have hg : trial.fs.grid = test.fs.grid := (h.same ha).1.sameGrid
    have hc'' : c' ∈ test.fs.grid.entityIter 2 := by rw [← hg]; exact hc'
    have htouch := hpart.touches (r := 0) (by omega) hc hc'' (t4 0 (by omega)) (r4 0 (by omega))
    have hshare := hpart.sharedVertices (r := 0) (by omega) hc hc'' (t4 0 (by omega)) (r4 0 (by omega))
    have hcon : connectivity (φT c) (φR c') = connectivity c c' := by
      unfold connectivity
      rw [hshare]
      have : ((φT c).localIndex = (φR c').localIndex) = (c.localIndex = c'.localIndex) := by
        rw [t2, r2]
        exact propext ⟨hpart.inj 0 (by omega) 2 (by omega) c hc c' hc'', fun he => by rw [he]⟩
      simp only [this]
    have ha' := hn.addr.mp ha
    by_cases ht : c.Touches c'
    · rw [if_pos ⟨ha', htouch.mpr ht⟩, if_pos ⟨ha, ht⟩, hcon, t3, r3, t2, r2, singularValue_eq, singularValue_eq, fsum]
      congr 1
      exact List.map_congr_left fun p _ => hsing c hc c' hc' _ _ a b p
    · rw [if_neg (fun hh => ht (htouch.mp hh.2)), if_neg (fun hh => ht hh.2), t3, r3, t2, r2, regularValue_eq,
        regularValue_eq, fsum]
      congr 1
      refine List.map_congr_left fun p _ => ?_
      rw [fsum]
      congr 1
      exact List.map_congr_left fun q _ => hreg c hc c' hc' _ _ a b p q
  · rw [if_neg (fun hh => ha (hn.addr.mpr hh.1)), if_neg (fun hh => ha hh.1), t3, r3, t2, r2, regularValue_eq,
      regularValue_eq, fsum]
    congr 1
    refine List.map_congr_left fun p _ => ?_
    rw [fsum]
    congr 1
    exact List.map_congr_left fun q _ => hreg c hc c' hc' _ _ a b p q

end

end Bempp
