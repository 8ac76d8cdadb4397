import Verif.Proofs.PartitionSums
import Verif.Props.Sparse
import Verif.Props.Mixed
import Mathlib.Data.Finset.Card
/-
C22, C45: spaces and singular matrices on a distributed grid against those on the whole grid.
-/
set_option linter.unusedSectionVars false

namespace Bempp

variable {n : Nat} {G : Nat → Grid} {S : Grid} {num : Nat → Nat → Nat → Nat} {fam : CellType → ElementDofs}
  {ndS : Nat → Nat → Nat} {sp : Nat → FunctionSpace} {sS : FunctionSpace}

/-- **C45.** The global numbering of the DOFs on a distributed grid is a renumbering of the DOFs on the whole grid. -/
theorem C45_renumbering (h : PartOf n G S num) (fo : FamilyOn S fam ndS) (hf : Finished n G fam sp)
    (hS : FunctionSpace.new 0 1 S fam = .done sS) : ∃ p, Renumbers n G num sp sS p := by
  classical
  have hy : (FunctionSpace.new 0 1 S fam).Yields sS := by rw [hS]; exact .done sS
  have dist := h.distributed fo
  obtain ⟨s', e1, -, e2, -⟩ := C18_serial_space h.whole fo h.serial
  rw [hS] at e1
  cases e1
  let p : Nat → Nat := fun N => if hN : ∃ m, SameDof sp sS n G num N m then hN.choose else 0
  have hp : ∀ N m, SameDof sp sS n G num N m → p N = m := by
    intro N m hs
    have hN : ∃ m, SameDof sp sS n G num N m := ⟨m, hs⟩
    have : p N = hN.choose := dif_pos hN
    rw [this]
    exact SameDof.functional h fo hf hy hN.choose_spec hs
  obtain ⟨total, t1, -⟩ := C19_global_numbering dist hf
  have hsize : total = sS.globalSize := by
    rw [e2, ← Finset.card_range total, ← Finset.card_range sS.localSize]
    refine Finset.card_nbij p ?_ ?_ ?_
    · intro N hN
      obtain ⟨m, hm⟩ := sameDof_total h fo hf hy (N := N) (by rw [t1 0 h.pos]; simpa using hN)
      rw [hp N m hm]
      simpa using (hm.lt h fo hf hy).2
    · intro N hN N' hN' he
      obtain ⟨m, hm⟩ := sameDof_total h fo hf hy (N := N) (by rw [t1 0 h.pos]; simpa using hN)
      obtain ⟨m', hm'⟩ := sameDof_total h fo hf hy (N := N') (by rw [t1 0 h.pos]; simpa using hN')
      rw [hp N m hm, hp N' m' hm'] at he
      subst he
      exact SameDof.injective h fo hf hy hm hm'
    · intro m hm
      obtain ⟨N, hN⟩ := sameDof_onto h fo hf hy (m := m) (by simpa using hm)
      refine ⟨N, ?_, hp N m hN⟩
      have := (hN.lt h fo hf hy).1 0 h.pos
      rw [t1 0 h.pos] at this
      simpa using this
  have htot : ∀ N, N < sS.globalSize → ∃ m, SameDof sp sS n G num N m := fun N hN =>
    sameDof_total h fo hf hy (by rw [t1 0 h.pos, hsize]; exact hN)
  have hlt : ∀ {N m}, SameDof sp sS n G num N m → N < sS.globalSize ∧ m < sS.globalSize := by
    intro N m hs
    have := hs.lt h fo hf hy
    refine ⟨?_, by rw [e2]; exact this.2⟩
    rw [← hsize, ← t1 0 h.pos]
    exact this.1 0 h.pos
  refine ⟨p, fun r hr => (t1 r hr).trans hsize, ?_, ?_, ?_, ?_⟩
  · intro N hN
    obtain ⟨m, hm⟩ := htot N hN
    rw [hp N m hm]
    exact (hlt hm).2
  · intro N N' hN hN' he
    obtain ⟨m, hm⟩ := htot N hN
    obtain ⟨m', hm'⟩ := htot N' hN'
    rw [hp N m hm, hp N' m' hm'] at he
    subst he
    exact SameDof.injective h fo hf hy hm hm'
  · intro m hm
    obtain ⟨N, hN⟩ := sameDof_onto h fo hf hy (m := m) (by rw [← e2]; exact hm)
    exact ⟨N, (hlt hN).1, hp N m hN⟩
  · intro r hr c hc
    obtain ⟨c0, h0, hl, hty, hs⟩ := h.cell r hr c hc
    obtain ⟨cd, k1, k2, -, k4⟩ := (C03_cell_dofs (h.parts r hr) (h.family fo hr) (hf.yields dist hr)).2 c hc
    obtain ⟨cd0, q1, q2, -, -⟩ := (C03_cell_dofs h.whole fo hy).2 c0 h0
    refine ⟨cd, cd0, k1, by rw [← hl]; exact q1, by rw [k2, q2, hty], ?_⟩
    intro a i hi
    obtain ⟨d, si, e, k, l, ed, hd, o1, o2, o3, o4, o5⟩ :=
      cell_dof_origin (h.parts r hr) (h.family fo hr) (hf.yields dist hr) c hc cd k1 a i hi
    obtain ⟨cd0', ed0, m, w1, w2, w3, w4, w5⟩ := C02_conformity h.whole fo hy c0 h0 d si (num r d e) hd
      (by rw [hs d hd, List.getElem?_map, o1]; rfl) l (by rw [hty]; exact o2) k a o3
    rw [q1] at w1
    cases w1
    have hel : e < (G r).count d := (h.parts r hr).sub_lt c hc d hd e (List.mem_of_getElem? o1)
    obtain ⟨ent, hent, rfl⟩ := (h.parts r hr).exists_of_lt hd hel
    obtain ⟨D, hD, hsp⟩ := finished_spaces dist hf
    have hN : (sp r).globalDofIndex i = some (gnum D r i) := by
      have := k4 i (List.mem_of_getElem? hi)
      rw [hsp r hr, spaceOf_global]
      rw [hsp r hr] at this
      exact if_pos this
    obtain ⟨m', g1, g2⟩ := sameDof_of h fo hf hy hr hd hent o4 w2 o5 hN
    rw [w5] at g1
    cases g1
    exact ⟨_, hN, (hlt g2).1, by rw [hp _ _ g2]; exact w4⟩

/-- Cell `c` of the first grid and cell `c0` of the second one have the same geometry. -/
structure SameGeometry {R : Type} (A : Geometry R) (c : Nat) (B : Geometry R) (c0 : Nat) : Prop where
  point : A.point c = B.point c0
  normal : A.normal c = B.normal c0
  jacobian : A.jacobian c = B.jacobian c0
  jdet : A.jdet c = B.jdet c0

section
variable {R T : Type} [Zero R] [Mul R] [Zero T] [Add T] [Mul T]
  {env : Env R T} {asm : Assembler R T} {trial test : Nat → Space R T} {trialS testS : Space R T}
  {famT famR : CellType → ElementDofs} {F : MathIntegrand T} {K : MathKernel R T} {geo : Nat → Geometry R}
  {geoS : Geometry R} {BT BR : Basis R T} {Q : Quadrature R} {pT pR : Nat → Nat}

/-- The situation of C22: test and trial spaces on the parts of a distributed grid and on the whole grid. -/
structure PartSetting (env : Env R T) (asm : Assembler R T) (n : Nat) (G : Nat → Grid) (S : Grid)
    (num : Nat → Nat → Nat → Nat) (trial test : Nat → Space R T) (trialS testS : Space R T)
    (famT famR : CellType → ElementDofs) (F : MathIntegrand T) (K : MathKernel R T) (geo : Nat → Geometry R)
    (geoS : Geometry R) (BT BR : Basis R T) (Q : Quadrature R) : Prop where
  part : PartOf n G S num
  layer : GhostLayer n G S num
  testParts : Finished n G famT fun r => (test r).fs
  trialParts : Finished n G famR fun r => (trial r).fs
  testWhole : FunctionSpace.new 0 1 S famT = .done testS.fs
  trialWhole : FunctionSpace.new 0 1 S famR = .done trialS.fs
  onParts : ∀ r, r < n → SingularSetting env asm (trial r) (test r) famT famR F K (geo r) BT BR Q
  onWhole : SingularSetting env asm trialS testS famT famR F K geoS BT BR Q
  geometry : ∀ r, r < n → ∀ c ∈ (G r).entityIter 2,
    SameGeometry (geo r) c.localIndex geoS (num r 2 c.localIndex)

theorem zipIdx_map_fst {α β : Type} (f : α → β) (l : List α) (k : Nat) :
    (l.map f).zipIdx k = (l.zipIdx k).map fun x => (f x.1, x.2) := by
  induction l generalizing k with
  | nil => rfl
  | cons a l ih => simp [ih]

/-- The shared local vertices of two cells are the same on the part and on the whole grid. -/
theorem PartOf.sharedVertices (h : PartOf n G S num) {r : Nat} (hr : r < n) {c c' c0 c1 : Entity}
    (hc : c ∈ (G r).entityIter 2) (hc' : c' ∈ (G r).entityIter 2) (h0 : c0.sub 0 = (c.sub 0).map (num r 0))
    (h1 : c1.sub 0 = (c'.sub 0).map (num r 0)) : Bempp.sharedVertices c0 c1 = Bempp.sharedVertices c c' := by
  unfold Bempp.sharedVertices
  rw [h0, h1, zipIdx_map_fst, zipIdx_map_fst, List.flatMap_map]
  refine List.flatMap_congr fun x hx => ?_
  rw [List.filter_map, List.map_map]
  have : ((c.sub 0).zipIdx.filter ((fun t => decide (t.1 = num r 0 x.1)) ∘ fun y : Nat × Nat => (num r 0 y.1, y.2))) =
      (c.sub 0).zipIdx.filter fun t => decide (t.1 = x.1) := by
    refine List.filter_congr fun y hy => ?_
    simp only [Function.comp, decide_eq_decide]
    have wf := h.parts r hr
    obtain ⟨u, hu, e1⟩ := wf.exists_of_lt (d := 0) (by omega)
      (wf.sub_lt c hc 0 (by omega) y.1 (List.fst_mem_of_mem_zipIdx hy))
    obtain ⟨w, hw, e2⟩ := wf.exists_of_lt (d := 0) (by omega)
      (wf.sub_lt c' hc' 0 (by omega) x.1 (List.fst_mem_of_mem_zipIdx hx))
    rw [← e1, ← e2]
    exact ⟨fun he => h.inj r hr 0 (by omega) u hu w hw he, fun he => by rw [he]⟩
  rw [this]
  rfl

theorem PartOf.value (h : PartOf n G S num) (cast : R → T) (F : MathIntegrand T) (K : MathKernel R T) (BT BR : Basis R T)
    (Q : Quadrature R) {r : Nat} (hr : r < n) {geoP geoS : Geometry R}
    (hgeo : ∀ c ∈ (G r).entityIter 2, SameGeometry geoP c.localIndex geoS (num r 2 c.localIndex)) {c c' c0 c1 : Entity}
    (hc : c ∈ (G r).entityIter 2) (hc' : c' ∈ (G r).entityIter 2)
    (h0 : c0 ∈ S.entityIter 2) (h1 : c1 ∈ S.entityIter 2) (e0 : c0.localIndex = num r 2 c.localIndex)
    (e1 : c1.localIndex = num r 2 c'.localIndex) (a b : Nat) :
    singularPairValue cast F K geoP BT BR Q c c' a b = singularPairValue cast F K geoS BT BR Q c0 c1 a b := by
  obtain ⟨d0, q0, q1, q2, q3⟩ := h.cell r hr c hc
  have : d0 = c0 := h.whole.index_inj (by omega) q0 h0 (q1.trans e0.symm)
  subst this
  obtain ⟨d1, w0, w1, w2, w3⟩ := h.cell r hr c' hc'
  have : d1 = c1 := h.whole.index_inj (by omega) w0 h1 (w1.trans e1.symm)
  subst this
  have hcon : connectivity d0 d1 = connectivity c c' := by
    unfold connectivity
    rw [h.sharedVertices hr hc hc' (q3 0 (by omega)) (w3 0 (by omega))]
    have : (d0.localIndex = d1.localIndex) = (c.localIndex = c'.localIndex) := by
      rw [e0, e1]
      exact propext ⟨h.inj r hr 2 (by omega) c hc c' hc', fun he => by rw [he]⟩
    simp only [this]
  have g0 := hgeo c hc
  have g1 := hgeo c' hc'
  rw [← e0] at g0
  rw [← e1] at g1
  unfold singularPairValue singularValue Geometry.coords Geometry.data
  rw [hcon, q2, w2, g0.point, g0.normal, g0.jacobian, g0.jdet, g1.point, g1.normal, g1.jacobian, g1.jdet]

theorem Renumbers.globalDofs {p : Nat → Nat} (h : Renumbers n G num sp sS p)
    (hg : ∀ i, i < sS.globalSize → sS.globalDofIndex i = some i) {r : Nat} (hr : r < n) {c : Entity}
    (hc : c ∈ (G r).entityIter 2) : sS.globalDofs (num r 2 c.localIndex) = ((sp r).globalDofs c.localIndex).map p ∧
      ∀ N ∈ (sp r).globalDofs c.localIndex, N < sS.globalSize := by
  obtain ⟨cd, cd0, h1, h2, h3, h4⟩ := h.cell r hr c hc
  unfold FunctionSpace.globalDofs
  rw [h1, h2]
  simp only [Option.getD_some]
  constructor
  · refine List.ext_getElem? fun a => ?_
    rw [List.getElem?_map, List.map_map, List.getElem?_map]
    by_cases ha : a < cd.length
    · obtain ⟨N, e1, e2, e3⟩ := h4 a cd[a] (by simp [ha])
      rw [e3, List.getElem?_eq_getElem ha]
      simp [e1, hg _ (h.lt N e2)]
    · rw [List.getElem?_eq_none (by omega), List.getElem?_eq_none (by omega)]
      rfl
  · intro N hN
    obtain ⟨i, hi, rfl⟩ := List.mem_map.mp hN
    obtain ⟨a, ha⟩ := List.getElem?_of_mem hi
    obtain ⟨N, e1, e2, e3⟩ := h4 a i ha
    rw [e1]
    exact e2

/-- Sums over the pairs of touching cells of the parts are sums over those of the whole grid. -/
theorem PartSetting.touchingSum_of {M : Type} [AddCommMonoid M]
    (h : PartSetting env asm n G S num trial test trialS testS famT famR F K geo geoS BT BR Q)
    (hT : Renumbers n G num (fun r => (test r).fs) testS.fs pT)
    (hR : Renumbers n G num (fun r => (trial r).fs) trialS.fs pR) {i j : Nat} (hi : i < testS.fs.globalSize)
    (hj : j < trialS.fs.globalSize) {f : Nat → Entity → Entity → Nat → Nat → M} {g : Entity → Entity → Nat → Nat → M}
    (hv : ∀ r, r < n → ∀ c ∈ (G r).entityIter 2, ∀ c' ∈ (G r).entityIter 2, ∀ c0 ∈ S.entityIter 2,
      ∀ c1 ∈ S.entityIter 2, c0.localIndex = num r 2 c.localIndex → c1.localIndex = num r 2 c'.localIndex →
      ∀ a b, f r c c' a b = g c0 c1 a b) :
    ((List.range n).map fun r => Bempp.touchingSum (test r).fs (trial r).fs
      (f r) i j).sum =
    Bempp.touchingSum testS.fs trialS.fs g (pT i) (pR j) := by
  have yT : (FunctionSpace.new 0 1 S famT).Yields testS.fs := by rw [h.testWhole]; exact .done _
  have yR : (FunctionSpace.new 0 1 S famR).Yields trialS.fs := by rw [h.trialWhole]; exact .done _
  have gS : testS.fs.grid = S := by
    obtain ⟨_, _, _, _, _, hg, _⟩ := new_local yT
    exact hg
  have gS' : trialS.fs.grid = S := by
    obtain ⟨_, _, _, _, _, hg, _⟩ := new_local yR
    exact hg
  obtain ⟨ndT, -, foT, -⟩ := h.onWhole.testSpace.family
  obtain ⟨ndR, -, foR, -⟩ := h.onWhole.trialSpace.family
  rw [gS] at foT
  rw [gS'] at foR
  have gP : ∀ r, r < n → (test r).fs.grid = G r := by
    intro r hr
    obtain ⟨_, _, _, _, _, hg, _⟩ := new_local (h.testParts.yields (h.part.distributed foT) hr)
    exact hg
  have gP' : ∀ r, r < n → (trial r).fs.grid = G r := by
    intro r hr
    obtain ⟨_, _, _, _, _, hg, _⟩ := new_local (h.trialParts.yields (h.part.distributed foR) hr)
    exact hg
  have sT : ∀ i, i < testS.fs.globalSize → testS.fs.globalDofIndex i = some i := by
    obtain ⟨s', e1, -, e2, e3, -⟩ := C18_serial_space h.part.whole foT h.part.serial
    rw [h.testWhole] at e1
    cases e1
    intro i hi
    exact (e3 i (by rw [← e2]; exact hi)).1
  have sR : ∀ i, i < trialS.fs.globalSize → trialS.fs.globalDofIndex i = some i := by
    obtain ⟨s', e1, -, e2, e3, -⟩ := C18_serial_space h.part.whole foR h.part.serial
    rw [h.trialWhole] at e1
    cases e1
    intro i hi
    exact (e3 i (by rw [← e2]; exact hi)).1
  unfold Bempp.touchingSum
  rw [gS, gS', ← h.part.sum_eq h.layer (f := fun c0 c1 =>
      ((testS.fs.globalDofs c0.localIndex).zipIdx.map fun (ia : Nat × Nat) =>
        ((trialS.fs.globalDofs c1.localIndex).zipIdx.map fun (jb : Nat × Nat) =>
          if ia.1 = pT i ∧ jb.1 = pR j then g c0 c1 ia.2 jb.2
          else 0).sum).sum) (v := fun r c c' =>
      (((test r).fs.globalDofs c.localIndex).zipIdx.map fun (ia : Nat × Nat) =>
        (((trial r).fs.globalDofs c'.localIndex).zipIdx.map fun (jb : Nat × Nat) =>
          if ia.1 = i ∧ jb.1 = j then f r c c' ia.2 jb.2
          else 0).sum).sum)]
  · congr 1
    refine List.map_congr_left fun r hr => ?_
    rw [gP r (List.mem_range.mp hr), gP' r (List.mem_range.mp hr)]
  · intro r hr c hc c' hc' c0 h0 c1 h1 e0 e1
    obtain ⟨u1, u2⟩ := hT.globalDofs sT hr hc
    obtain ⟨w1, w2⟩ := hR.globalDofs sR hr hc'
    rw [e0, e1, u1, w1, zipIdx_map_fst, zipIdx_map_fst, List.map_map]
    congr 1
    refine List.map_congr_left fun x hx => ?_
    simp only [Function.comp]
    rw [List.map_map]
    congr 1
    refine List.map_congr_left fun y hy => ?_
    simp only [Function.comp]
    have hx' := u2 x.1 (List.fst_mem_of_mem_zipIdx hx)
    have hy' := w2 y.1 (List.fst_mem_of_mem_zipIdx hy)
    have a1 : (pT x.1 = pT i) = (x.1 = i) := propext ⟨hT.inj _ _ hx' hi, fun e => by rw [e]⟩
    have a2 : (pR y.1 = pR j) = (y.1 = j) := propext ⟨hR.inj _ _ hy' hj, fun e => by rw [e]⟩
    simp only [a1, a2, hv r hr c hc c' hc' c0 h0 c1 h1 e0 e1]

/-- The global numbers of the DOFs of the cells are numbers of rows and columns. -/
theorem PartSetting.bounds (h : PartSetting env asm n G S num trial test trialS testS famT famR F K geo geoS BT BR Q) :
    ∃ pT pR, Renumbers n G num (fun r => (test r).fs) testS.fs pT ∧ Renumbers n G num (fun r => (trial r).fs) trialS.fs pR ∧
    (∀ r, r < n → (test r).fs.grid = G r ∧
      (∀ c ∈ (test r).fs.grid.entityIter 2, ∀ N ∈ (test r).fs.globalDofs c.localIndex, N < (test r).fs.globalSize) ∧
      ∀ c ∈ (trial r).fs.grid.entityIter 2, ∀ N ∈ (trial r).fs.globalDofs c.localIndex, N < (trial r).fs.globalSize) ∧
    testS.fs.grid = S ∧
    (∀ c ∈ testS.fs.grid.entityIter 2, ∀ N ∈ testS.fs.globalDofs c.localIndex, N < testS.fs.globalSize) ∧
    ∀ c ∈ trialS.fs.grid.entityIter 2, ∀ N ∈ trialS.fs.globalDofs c.localIndex, N < trialS.fs.globalSize := by
  have yT : (FunctionSpace.new 0 1 S famT).Yields testS.fs := by rw [h.testWhole]; exact .done _
  have yR : (FunctionSpace.new 0 1 S famR).Yields trialS.fs := by rw [h.trialWhole]; exact .done _
  have gS : testS.fs.grid = S := by
    obtain ⟨_, _, _, _, _, hg, _⟩ := new_local yT
    exact hg
  have gS' : trialS.fs.grid = S := by
    obtain ⟨_, _, _, _, _, hg, _⟩ := new_local yR
    exact hg
  obtain ⟨ndT, tT, foT, coT⟩ := h.onWhole.testSpace.family
  obtain ⟨ndR, tR, foR, coR⟩ := h.onWhole.trialSpace.family
  rw [gS] at foT coT
  rw [gS'] at foR coR
  have gP : ∀ r, r < n → (test r).fs.grid = G r := by
    intro r hr
    obtain ⟨_, _, _, _, _, hg, _⟩ := new_local (h.testParts.yields (h.part.distributed foT) hr)
    exact hg
  have gP' : ∀ r, r < n → (trial r).fs.grid = G r := by
    intro r hr
    obtain ⟨_, _, _, _, _, hg, _⟩ := new_local (h.trialParts.yields (h.part.distributed foR) hr)
    exact hg
  obtain ⟨pT, hT⟩ := C45_renumbering h.part foT h.testParts h.testWhole
  obtain ⟨pR, hR⟩ := C45_renumbering h.part foR h.trialParts h.trialWhole
  have bound : ∀ {fam : CellType → ElementDofs} {nd : Nat → Nat → Nat} {fs : FunctionSpace}, FamilyOn S fam nd →
      FunctionSpace.new 0 1 S fam = .done fs → (∀ i, i < fs.globalSize → fs.globalDofIndex i = some i) ∧
      ∀ c ∈ S.entityIter 2, ∀ N ∈ fs.globalDofs c.localIndex, N < fs.globalSize := by
    intro fam nd fs fo hn
    have y : (FunctionSpace.new 0 1 S fam).Yields fs := by rw [hn]; exact .done _
    obtain ⟨s', e1, -, e2, e3, -⟩ := C18_serial_space h.part.whole fo h.part.serial
    rw [hn] at e1
    cases e1
    refine ⟨fun i hi => (e3 i (by rw [← e2]; exact hi)).1, ?_⟩
    intro c hc N hN
    obtain ⟨cd, k1, -, -, k4⟩ := (C03_cell_dofs h.part.whole fo y).2 c hc
    unfold FunctionSpace.globalDofs at hN
    rw [k1] at hN
    obtain ⟨i, hi, rfl⟩ := List.mem_map.mp hN
    have := k4 i hi
    rw [(e3 i this).1, e2]
    exact this
  obtain ⟨sT, bT⟩ := bound foT h.testWhole
  obtain ⟨sR, bR⟩ := bound foR h.trialWhole
  refine ⟨pT, pR, hT, hR, fun r hr => ⟨gP r hr, ?_, ?_⟩, gS, by rw [gS]; exact bT, by rw [gS']; exact bR⟩
  · intro c hc N hN
    rw [gP r hr] at hc
    rw [hT.size r hr]
    exact (hT.globalDofs sT hr hc).2 N hN
  · intro c hc N hN
    rw [gP' r hr] at hc
    rw [hR.size r hr]
    exact (hR.globalDofs sR hr hc).2 N hN

end

section
variable {R T : Type} [Zero R] [Mul R] [AddCommMonoid T] [Mul T]
  {env : Env R T} {asm : Assembler R T} {trial test : Nat → Space R T} {trialS testS : Space R T}
  {famT famR : CellType → ElementDofs} {F : MathIntegrand T} {K : MathKernel R T} {geo : Nat → Geometry R}
  {geoS : Geometry R} {BT BR : Basis R T} {Q : Quadrature R} {pT pR : Nat → Nat}

theorem PartSetting.touchingSum
    (h : PartSetting env asm n G S num trial test trialS testS famT famR F K geo geoS BT BR Q)
    (hT : Renumbers n G num (fun r => (test r).fs) testS.fs pT)
    (hR : Renumbers n G num (fun r => (trial r).fs) trialS.fs pR) {i j : Nat} (hi : i < testS.fs.globalSize)
    (hj : j < trialS.fs.globalSize) :
    ((List.range n).map fun r => Bempp.touchingSum (test r).fs (trial r).fs
      (singularPairValue env.cast F K (geo r) BT BR Q) i j).sum =
    Bempp.touchingSum testS.fs trialS.fs (singularPairValue env.cast F K geoS BT BR Q) (pT i) (pR j) :=
  h.touchingSum_of hT hR hi hj (f := fun r => singularPairValue env.cast F K (geo r) BT BR Q)
    fun r hr _ hc _ hc' _ h0 _ h1 e0 e1 =>
      h.part.value env.cast F K BT BR Q hr (h.geometry r hr) hc hc' h0 h1 e0 e1

/-- **C22.** The singular triplets that the processes assemble on their parts of the grid add up, in the numbering of
the whole grid, to the singular triplets assembled on the whole grid. -/
theorem C22_parts_add_up (h : PartSetting env asm n G S num trial test trialS testS famT famR F K geo geoS BT BR Q)
    (hb : 0 < asm.options.batchSize)
    (hT : Renumbers n G num (fun r => (test r).fs) testS.fs pT)
    (hR : Renumbers n G num (fun r => (trial r).fs) trialS.fs pR) :
    ∃ (A : Nat → Sparse T) (W : Sparse T),
      (∀ r, r < n → ∀ out, AssembleSingularPart env asm ((test r).fs.globalSize, (trial r).fs.globalSize) (trial r)
        (test r) out ↔ out = some (A r)) ∧
      (∀ out, AssembleSingularPart env asm (testS.fs.globalSize, trialS.fs.globalSize) trialS testS out ↔
        out = some W) ∧
      ∀ i j, i < testS.fs.globalSize → j < trialS.fs.globalSize →
        ((List.range n).map fun r => tripletSum (A r).rows (A r).cols (A r).data i j).sum =
        tripletSum W.rows W.cols W.data (pT i) (pR j) := by
  refine ⟨fun r => Sparse.ofTriplets ((test r).fs.globalSize, (trial r).fs.globalSize)
      (singularTriplets env.cast F K (geo r) BT BR Q famT famR (trial r).fs (test r).fs),
    Sparse.ofTriplets (testS.fs.globalSize, trialS.fs.globalSize)
      (singularTriplets env.cast F K geoS BT BR Q famT famR trialS.fs testS.fs), ?_, ?_, ?_⟩
  · intro r hr out
    exact (h.onParts r hr).part hb out
  · exact h.onWhole.part hb
  · intro i j hi hj
    rw [tripletSum_ofTriplets, h.onWhole.tsum_eq, ← h.touchingSum hT hR hi hj]
    congr 1
    refine List.map_congr_left fun r hr => ?_
    rw [tripletSum_ofTriplets, (h.onParts r (List.mem_range.mp hr)).tsum_eq]

/-- What `assemble_singular` returns on one process. -/
theorem SingularSetting.csr {G : Geometry R} {trial test : Space R T}
    (h : SingularSetting env asm trial test famT famR F K G BT BR Q) (hb : 0 < asm.options.batchSize)
    (hf : FromAijOk env)
    (hbT : ∀ c ∈ test.fs.grid.entityIter 2, ∀ N ∈ test.fs.globalDofs c.localIndex, N < test.fs.globalSize)
    (hbR : ∀ c ∈ trial.fs.grid.entityIter 2, ∀ N ∈ trial.fs.globalDofs c.localIndex, N < trial.fs.globalSize)
    (hcut : ∀ sp, AssembleSingularPart env asm (test.fs.globalSize, trial.fs.globalSize) trial test (some sp) →
      (∃ x ∈ sp.data, env.isBig x = true) ∨ ∀ x ∈ sp.data, x = 0) :
    ∃ A : Csr T, (∀ out, AssembleSingular env asm trial test out ↔ out = some A) ∧
      A.shape = (test.fs.globalSize, trial.fs.globalSize) ∧
      ∀ i j, i < test.fs.globalSize → A.entry i j =
        Bempp.touchingSum test.fs trial.fs (singularPairValue env.cast F K G BT BR Q) i j := by
  have hpart := h.part hb
  have hcut := hcut _ ((hpart _).mpr rfl)
  have hbd : ∀ x ∈ singularTriplets env.cast F K G BT BR Q famT famR trial.fs test.fs,
      x.1.1 < test.fs.globalSize ∧ x.1.2 < trial.fs.globalSize := by
    intro x hx
    unfold singularTriplets at hx
    simp only [List.mem_flatMap, List.mem_map, List.mem_filter, decide_eq_true_eq] at hx
    obtain ⟨k, hk, p, ⟨e, ⟨he, rfl⟩, rfl⟩, hx⟩ := hx
    rw [(foundPairs_perm h.testSpace.wf h.vertices).mem_iff] at he
    obtain ⟨⟨c, c'⟩, hp, rfl⟩ := List.mem_map.mp he
    obtain ⟨h1, h2, _⟩ := mem_adjacentPairs.mp hp
    obtain ⟨⟨i, hi, e1⟩, j, hj, e2⟩ := mem_localTriplets hx
    refine ⟨hbT c h1 _ ?_, hbR c' (by rw [h.sameGrid]; exact h2) _ ?_⟩
    · rw [FunctionSpace.globalDofs_eq, e1]; exact List.mem_map_of_mem hi
    · rw [FunctionSpace.globalDofs_eq, e2]; exact List.mem_map_of_mem hj
  have hsum := h.tsum_eq
  generalize singularTriplets env.cast F K G BT BR Q famT famR trial.fs test.fs = ops at hpart hcut hbd hsum
  by_cases hbig : ∃ x ∈ (Sparse.ofTriplets (test.fs.globalSize, trial.fs.globalSize) ops).data,
      env.isBig x = true
  · obtain ⟨m, m1, m2, m3, m4, m5⟩ := hf (test.fs.globalSize, trial.fs.globalSize)
      (ops.map fun x => x.1.1) (ops.map fun x => x.1.2) (ops.map fun x => x.2) (by simp) (by simp)
      (by
        intro r hr
        obtain ⟨x, hx, rfl⟩ := List.mem_map.mp hr
        exact (hbd x hx).1)
      (by
        intro r hr
        obtain ⟨x, hx, rfl⟩ := List.mem_map.mp hr
        exact (hbd x hx).2)
    refine ⟨m, ?_, m2, ?_⟩
    · intro out
      unfold AssembleSingular
      simp only [hpart, exists_eq_left]
      rw [if_neg]
      · show out = env.fromAij (test.fs.globalSize, trial.fs.globalSize)
          (ops.map fun x => x.1.1) (ops.map fun x => x.1.2) (ops.map fun x => x.2) ↔ _
        rw [m1]
      · obtain ⟨x, hx, hxb⟩ := hbig
        rintro (he | he)
        · rw [List.isEmpty_iff] at he
          rw [he] at hx
          simp at hx
        · have := List.mem_filter.mpr ⟨hx, hxb⟩
          rw [List.eq_nil_of_length_eq_zero he] at this
          simp at this
    · intro i j hi
      rw [m5 i j hi, ← hsum i j]
      exact tripletSum_ofTriplets (test.fs.globalSize, trial.fs.globalSize) ops i j
  · have hz := hcut.resolve_left hbig
    refine ⟨⟨(test.fs.globalSize, trial.fs.globalSize), [],
      List.replicate (test.fs.globalSize + 1) 0, []⟩, ?_, rfl, ?_⟩
    · intro out
      unfold AssembleSingular
      simp only [hpart, exists_eq_left]
      rw [if_pos]
      · rfl
      · right
        rw [List.length_eq_zero_iff, List.filter_eq_nil_iff]
        intro x hx hxb
        exact hbig ⟨x, hx, hxb⟩
    · intro i j _
      rw [Csr.entry_empty, ← hsum i j]
      unfold tsum
      symm
      apply List.sum_eq_zero
      intro y hy
      obtain ⟨x, hx, rfl⟩ := List.mem_map.mp hy
      have : x.2 = 0 := hz x.2 (List.mem_map.mpr ⟨x, hx, rfl⟩)
      rw [this]
      simp

/-- **C22**, for the matrices that `assemble_singular` returns. The last hypotheses exclude the case that all values of
a process (or of the whole grid) are below the cut-off and not all zero, in which `assemble_singular` loses them
(`C16_small_entries_lost`). -/
theorem C22_matrices_add_up (h : PartSetting env asm n G S num trial test trialS testS famT famR F K geo geoS BT BR Q)
    (hb : 0 < asm.options.batchSize) (hf : FromAijOk env)
    (hcut : ∀ r, r < n → ∀ A, AssembleSingularPart env asm ((test r).fs.globalSize, (trial r).fs.globalSize) (trial r)
      (test r) (some A) → (∃ x ∈ A.data, env.isBig x = true) ∨ ∀ x ∈ A.data, x = 0)
    (hcutS : ∀ A, AssembleSingularPart env asm (testS.fs.globalSize, trialS.fs.globalSize) trialS testS (some A) →
      (∃ x ∈ A.data, env.isBig x = true) ∨ ∀ x ∈ A.data, x = 0) :
    ∃ (A : Nat → Csr T) (W : Csr T) (pT pR : Nat → Nat),
      Renumbers n G num (fun r => (test r).fs) testS.fs pT ∧
      Renumbers n G num (fun r => (trial r).fs) trialS.fs pR ∧
      (∀ r, r < n → ∀ out, AssembleSingular env asm (trial r) (test r) out ↔ out = some (A r)) ∧
      (∀ out, AssembleSingular env asm trialS testS out ↔ out = some W) ∧
      ∀ i j, i < testS.fs.globalSize → j < trialS.fs.globalSize →
        ((List.range n).map fun r => (A r).entry i j).sum = W.entry (pT i) (pR j) := by
  classical
  obtain ⟨pT, pR, hT, hR, hP, -, bT, bR⟩ := h.bounds
  have hA : ∀ r, ∃ A : Csr T, r < n → (∀ out, AssembleSingular env asm (trial r) (test r) out ↔ out = some A) ∧
      ∀ i j, i < (test r).fs.globalSize → A.entry i j =
        Bempp.touchingSum (test r).fs (trial r).fs (singularPairValue env.cast F K (geo r) BT BR Q) i j := by
    intro r
    by_cases hr : r < n
    · obtain ⟨A, a1, -, a3⟩ := (h.onParts r hr).csr hb hf (hP r hr).2.1 (hP r hr).2.2 (hcut r hr)
      exact ⟨A, fun _ => ⟨a1, a3⟩⟩
    · exact ⟨⟨(0, 0), [], [], []⟩, fun hr' => absurd hr' hr⟩
  choose A hA using hA
  obtain ⟨W, w1, -, w3⟩ := h.onWhole.csr hb hf bT bR hcutS
  refine ⟨A, W, pT, pR, hT, hR, fun r hr => (hA r hr).1, w1, ?_⟩
  intro i j hi hj
  rw [w3 _ _ (hT.lt i hi), ← h.touchingSum hT hR hi hj]
  congr 1
  refine List.map_congr_left fun r hr => ?_
  have hr := List.mem_range.mp hr
  exact (hA r hr).2 i j (by rw [hT.size r hr]; exact hi)

end

/-! ### The hypotheses can be met -/

open Examples

/-- The whole grid of `twoParts`. -/
def twoWhole : Grid :=
  mkGrid 12 4 [(.triangle, [0, 1, 2]), (.triangle, [1, 3, 2])] fun _ _ => .owned

/-- Process 0 numbers as the whole grid, process 1 does not. -/
def twoNum (r d e : Nat) : Nat :=
  if r = 0 then e else match d with
    | 0 => [1, 3, 2, 0].getD e 0
    | 1 => [3, 0, 4, 1, 2].getD e 0
    | _ => 1 - e

theorem twoWhole_wf : twoWhole.WF where
  tdim := rfl
  index := le2 (by decide) (by decide) (by decide)
  entity := le2 (by intro e he; fin_cases he <;> rfl) (by intro e he; fin_cases he <;> rfl)
    (by intro e he; fin_cases he <;> rfl)
  types := by decide
  sub_lt := by
    intro c hc
    apply le2 <;> revert c <;> decide
  sub_nodup := by
    intro c hc
    apply le2 <;> revert c <;> decide
  sub_length := by
    intro c hc
    apply le2 <;> revert c <;> decide
  sub_self := by decide
  cell_types := by decide
  types_nodup := by decide
  types0 := rfl
  types1 := rfl
  covered := le2 (by decide) (by decide) (by decide)

theorem twoPart : PartOf 2 twoParts twoWhole twoNum where
  pos := by decide
  whole := twoWhole_wf
  parts := twoParts_wf
  types := lt2 (by decide) (by decide)
  serial := le2 (by decide) (by decide) (by decide)
  inj := by
    apply lt2 <;> apply le2 <;> decide
  cell := by
    have key : ∀ r, r < 2 → ∀ c ∈ (twoParts r).entityIter 2, ∃ c0 ∈ twoWhole.entityIter 2,
        c0.localIndex = twoNum r 2 c.localIndex ∧ c0.entityType = c.entityType ∧
        c0.sub 0 = (c.sub 0).map (twoNum r 0) ∧ c0.sub 1 = (c.sub 1).map (twoNum r 1) ∧
        c0.sub 2 = (c.sub 2).map (twoNum r 2) := by
      apply lt2 <;> decide
    intro r hr c hc
    obtain ⟨c0, h1, h2, h3, h4, h5, h6⟩ := key r hr c hc
    exact ⟨c0, h1, h2, h3, le2 h4 h5 h6⟩
  ghost := by
    intro r hr d hd e he p i h
    have hm := mem_ghostsOf he h
    have key : ∀ r, r < 2 → ∀ d, d ≤ 2 → ∀ x ∈ ghostsOf (twoParts r) d, x.2.1 < 2 ∧ x.2.1 ≠ r ∧
        ∃ e' ∈ (twoParts x.2.1).entityIter d, e'.localIndex = x.2.2 ∧ e'.ownership = .owned ∧
          twoNum x.2.1 d x.2.2 = twoNum r d x.1 := by
      apply lt2 <;> apply le2 <;> decide
    exact key r hr d hd _ hm
  owner := by
    apply le2 <;> decide
  owner_unique := by
    intro d hd r hr r' hr'
    revert r' r d
    apply le2 <;> apply lt2 <;> apply lt2 <;> decide

theorem twoLayer : GhostLayer 2 twoParts twoWhole twoNum := by
  apply lt2 <;> decide

/-- Vertex `k` of cell `c` of the whole grid, as a vertex of the octahedron. -/
def twoCell (c k : Nat) : Nat := (([[0, 1, 2], [1, 5, 2]] : List (List Nat)).getD c []).getD k 0

/-- Geometry of the whole grid: two faces of the octahedron. -/
def twoGeometry : Geometry Rat :=
  let col (c j i : Nat) : Rat := octVertex (twoCell c (j + 1)) i - octVertex (twoCell c 0) i
  { point := fun c x i => octVertex (twoCell c 0) i + x.getD 0 0 * col c 0 i + x.getD 1 0 * col c 1 i
    normal := fun c _ i =>
      octVertex (twoCell c 0) i + octVertex (twoCell c 1) i + octVertex (twoCell c 2) i
    jacobian := fun c _ j => col c (j / 3) (j % 3)
    jdet := fun _ _ => 2 }

/-- Geometry of the part of process `r` of `twoParts`. -/
def partGeometry {R : Type} (geo : Geometry R) (r : Nat) : Geometry R :=
  { point := fun c => geo.point (twoNum r 2 c)
    normal := fun c => geo.normal (twoNum r 2 c)
    jacobian := fun c => geo.jacobian (twoNum r 2 c)
    jdet := fun c => geo.jdet (twoNum r 2 c) }

/-- The example world with a cut-off of 0. -/
def sharpEnv : Env Rat Rat := { exEnv with isBig := fun x => decide (x ≠ 0) }

/-- An operator on a grid of triangles. -/
theorem triSetting {R T : Type} [Zero R] [Mul R] [Zero T] [Add T] [Mul T] {env : Env R T} {asm : Assembler R T}
    {F : MathIntegrand T} {K : MathKernel R T} {B : Basis R T} {Q : Quadrature R} (ho : asm.Computes F K)
    (hq : SingularOk env asm.options Q .triangle .triangle) {fs : FunctionSpace} {g : Grid} (hg : fs.grid = g)
    (hs : SpaceOn fs p1) (sf : Surface g) (hv : g.Vertices) {ev : Nat → Nat × Nat} (he : g.Edges ev)
    (hc : g.Conforming ev) (ht : g.entityTypes 2 = [.triangle]) (geo : Geometry R) :
    SingularSetting env asm (Examples.spaceOf fs p1 geo B) (Examples.spaceOf fs p1 geo B) p1 p1 F K geo B B Q where
  testSpace := hs
  trialSpace := hs
  sameGrid := rfl
  surface := by show Surface fs.grid; rw [hg]; exact sf
  vertices := by show fs.grid.Vertices; rw [hg]; exact hv
  conforming := by
    show ∃ ev, fs.grid.Edges ev ∧ fs.grid.Conforming ev
    rw [hg]; exact ⟨_, he, hc⟩
  geometry := Examples.spaceOf_geometry fs p1 geo B
  testBasis := Examples.spaceOf_tabulate fs p1 geo B
  trialBasis := Examples.spaceOf_tabulate fs p1 geo B
  operator := ho
  rules := by
    show ∀ tt ∈ fs.grid.entityTypes 2, ∀ rt ∈ fs.grid.entityTypes 2, _
    rw [hg, ht]
    intro tt htt rt hrt
    rw [List.mem_singleton] at htt hrt
    subst htt hrt
    exact hq

theorem twoWhole_vertices : twoWhole.Vertices where
  nodup := by decide
  mem := by
    intro v hv i
    have h1 : ∀ v ∈ twoWhole.entityIter 0, ∀ i ∈ v.connected 2, ∃ c ∈ twoWhole.entityIter 2,
        c.localIndex = i ∧ v.localIndex ∈ c.sub 0 := by decide
    have h2 : ∀ v ∈ twoWhole.entityIter 0, ∀ c ∈ twoWhole.entityIter 2, v.localIndex ∈ c.sub 0 →
        c.localIndex ∈ v.connected 2 := by decide
    exact ⟨h1 v hv i, by rintro ⟨c, hc, rfl, h⟩; exact h2 v hv c hc h⟩

theorem twoParts_vertices : ∀ r, r < 2 → (twoParts r).Vertices := by
  have h1 : ∀ r, r < 2 → ∀ v ∈ (twoParts r).entityIter 0, ∀ i ∈ v.connected 2, ∃ c ∈ (twoParts r).entityIter 2,
      c.localIndex = i ∧ v.localIndex ∈ c.sub 0 := by apply lt2 <;> decide
  have h2 : ∀ r, r < 2 → ∀ v ∈ (twoParts r).entityIter 0, ∀ c ∈ (twoParts r).entityIter 2,
      v.localIndex ∈ c.sub 0 → c.localIndex ∈ v.connected 2 := by apply lt2 <;> decide
  have h3 : ∀ r, r < 2 → ∀ v ∈ (twoParts r).entityIter 0, (v.connected 2).Nodup := by apply lt2 <;> decide
  intro r hr
  refine ⟨h3 r hr, ?_⟩
  intro v hv i
  exact ⟨h1 r hr v hv i, by rintro ⟨c, hc, rfl, h⟩; exact h2 r hr v hv c hc h⟩

/-- The vertices of the edges of the whole grid and of the part of process 0. -/
def twoEdge (e : Nat) : Nat × Nat :=
  (allEdges [(.triangle, [0, 1, 2]), (.triangle, [1, 3, 2])]).getD e (0, 0)

/-- The vertices of the edges of the part of process 1. -/
def twoEdge' (e : Nat) : Nat × Nat :=
  (allEdges [(.triangle, [0, 1, 2]), (.triangle, [3, 0, 2])]).getD e (0, 0)

theorem twoParts_conforming : ∀ r, r < 2 → ∃ ev, (twoParts r).Edges ev ∧ (twoParts r).Conforming ev := by
  refine lt2
    ⟨twoEdge, by unfold twoParts; rw [if_pos rfl]; exact mkGrid_edges _ _ _ _ (by decide), by decide +kernel, ?_⟩
    ⟨twoEdge', by unfold twoParts; rw [if_neg (by decide)]; exact mkGrid_edges _ _ _ _ (by decide), by decide +kernel, ?_⟩
  · have h : ∀ c ∈ (twoParts 0).entityIter 2, ∀ c' ∈ (twoParts 0).entityIter 2, c.localIndex ≠ c'.localIndex →
        ∀ u ∈ c.sub 0, ∀ v ∈ c.sub 0, ∀ w ∈ c.sub 0, u ∈ c'.sub 0 → v ∈ c'.sub 0 → w ∈ c'.sub 0 →
        u = v ∨ u = w ∨ v = w := by decide +kernel
    intro c hc c' hc' hn u v w hu hv hw
    exact h c hc c' hc' hn u hu v hv w hw
  · have h : ∀ c ∈ (twoParts 1).entityIter 2, ∀ c' ∈ (twoParts 1).entityIter 2, c.localIndex ≠ c'.localIndex →
        ∀ u ∈ c.sub 0, ∀ v ∈ c.sub 0, ∀ w ∈ c.sub 0, u ∈ c'.sub 0 → v ∈ c'.sub 0 → w ∈ c'.sub 0 →
        u = v ∨ u = w ∨ v = w := by decide +kernel
    intro c hc c' hc' hn u v w hu hv hw
    exact h c hc c' hc' hn u hu v hv w hw

theorem twoWhole_conforming : twoWhole.Conforming twoEdge where
  edge := by decide +kernel
  two := by
    have h : ∀ c ∈ twoWhole.entityIter 2, ∀ c' ∈ twoWhole.entityIter 2, c.localIndex ≠ c'.localIndex →
        ∀ u ∈ c.sub 0, ∀ v ∈ c.sub 0, ∀ w ∈ c.sub 0, u ∈ c'.sub 0 → v ∈ c'.sub 0 → w ∈ c'.sub 0 →
        u = v ∨ u = w ∨ v = w := by decide +kernel
    intro c hc c' hc' hn u v w hu hv hw
    exact h c hc c' hc' hn u hu v hv w hw

/-- Two triangles on two processes that number differently, and P1 functions. -/
theorem twoSetting_of {R T : Type} [Zero R] [Mul R] [Zero T] [Add T] [Mul T] {env : Env R T} {asm : Assembler R T}
    {F : MathIntegrand T} {K : MathKernel R T} (B : Basis R T) {Q : Quadrature R} (ho : asm.Computes F K)
    (hq : SingularOk env asm.options Q .triangle .triangle) (geo : Geometry R) :
    ∃ trial trialS, PartSetting env asm 2 twoParts twoWhole twoNum trial trial trialS trialS p1 p1 F K
      (partGeometry geo) geo B B Q ∧ trialS.fs.grid = twoWhole := by
  have fo : FamilyOn twoWhole p1 (fun d _ => if d = 0 then 1 else 0) := p1_on (by decide)
  obtain ⟨sp, hsp⟩ := finished_exists twoParts_dist
  obtain ⟨fs, hfs, -⟩ := C18_serial_space twoWhole_wf fo twoPart.serial
  have hy : (FunctionSpace.new 0 1 twoWhole p1).Yields fs := by rw [hfs]; exact .done fs
  have hg : fs.grid = twoWhole := by
    obtain ⟨_, _, _, _, _, hg, _⟩ := new_local hy
    exact hg
  have hgr : ∀ r, r < 2 → (sp r).grid = twoParts r := by
    intro r hr
    obtain ⟨_, _, _, _, _, hg, _⟩ := new_local (hsp.yields twoParts_dist hr)
    exact hg
  refine ⟨fun r => Examples.spaceOf (sp r) p1 (partGeometry geo r) B,
    Examples.spaceOf fs p1 geo B, ?_, hg⟩
  refine ⟨twoPart, twoLayer, hsp, hsp, hfs, hfs, ?_, ?_, ?_⟩
  · intro r hr
    obtain ⟨ev, he, hc⟩ := twoParts_conforming r hr
    refine triSetting ho hq (hgr r hr) ⟨?_, ?_, ?_⟩ ?_ (twoParts_vertices r hr) he hc ?_ _
    · rw [hgr r hr]; exact twoParts_wf r hr
    · rw [hgr r hr]
      refine ⟨_, .triangle, twoParts_dist.family r hr, p1_lowest ?_ ⟨[0], rfl, by decide⟩⟩
      revert r; apply lt2 <;> intros <;> rfl
    · rw [hgr r hr]; exact ⟨r, 2, hsp.yields twoParts_dist hr⟩
    · revert r; apply lt2 <;> intros <;> exact ⟨rfl, rfl⟩
    · revert r; apply lt2 <;> intros <;> rfl
  · refine triSetting ho hq hg ⟨?_, ?_, ?_⟩ ⟨rfl, rfl⟩ twoWhole_vertices (mkGrid_edges _ _ _ _ (by decide))
      twoWhole_conforming rfl _
    · rw [hg]; exact twoWhole_wf
    · rw [hg]; exact ⟨_, .triangle, fo, p1_lowest rfl ⟨[0], rfl, by decide⟩⟩
    · rw [hg]; exact ⟨0, 1, hy⟩
  · intro r hr c hc
    exact ⟨rfl, rfl, rfl, rfl⟩

/-- The same with a polynomial kernel. -/
theorem twoSetting : ∃ trial trialS, PartSetting sharpEnv (Laplace.singleLayer (kernelOf squareKernel) smallOptions)
    2 twoParts twoWhole twoNum trial trial trialS trialS p1 p1 slF squareKernel (partGeometry twoGeometry) twoGeometry
    p1Basis p1Basis smallRules := by
  obtain ⟨trial, trialS, h, -⟩ := twoSetting_of (env := sharpEnv)
    (asm := Laplace.singleLayer (kernelOf squareKernel) smallOptions) p1Basis (Q := smallRules)
    ⟨laplace_singleLayer_integrand _ _, kernelOf_computes _ _, rfl⟩
    ⟨⟨4, by decide, fun _ _ => rfl⟩, exEnv_singular.points⟩ twoGeometry
  exact ⟨trial, trialS, h⟩

/-- C39: a space made on two processes is not accepted by the dense assembly. -/
example : ∃ sp, Finished 2 twoParts p1 sp ∧ ∀ r, r < 2 → (sp r).isSerial = false ∧
    ∀ out, Assemble exEnv (Laplace.singleLayer (kernelOf squareKernel) smallOptions)
      (Examples.spaceOf (sp r) p1 octGeometry p1Basis) (Examples.spaceOf (sp r) p1 octGeometry p1Basis) out ↔ out = none := by
  obtain ⟨sp, hsp⟩ := finished_exists twoParts_dist
  refine ⟨sp, hsp, fun r hr => ?_⟩
  have hy := hsp.yields twoParts_dist hr
  obtain ⟨_, _, _, _, _, hg, _⟩ := new_local hy
  rw [← hg] at hy
  constructor
  · by_contra hn
    exact absurd ((C39_is_serial hy).mp (by simpa using hn)) (by decide)
  · exact (C39_not_serial (size := 2) (by decide) (.inl hy)).1

/-- All hypotheses of `C22_matrices_add_up` hold for this setting. -/
example : ∃ (trial : Nat → Space Rat Rat) (trialS : Space Rat Rat) (A : Nat → Csr Rat) (W : Csr Rat) (pT pR : Nat → Nat),
    AssembleSingular sharpEnv (Laplace.singleLayer (kernelOf squareKernel) smallOptions) trialS trialS (some W) ∧
    (∀ r, r < 2 → AssembleSingular sharpEnv (Laplace.singleLayer (kernelOf squareKernel) smallOptions) (trial r)
      (trial r) (some (A r))) ∧
    ∀ i j, i < trialS.fs.globalSize → j < trialS.fs.globalSize →
      (A 0).entry i j + (A 1).entry i j = W.entry (pT i) (pR j) := by
  obtain ⟨trial, trialS, h⟩ := twoSetting
  have cut : ∀ l : List Rat, (∃ x ∈ l, sharpEnv.isBig x = true) ∨ ∀ x ∈ l, x = 0 := by
    intro l
    by_cases hl : ∃ x ∈ l, x ≠ 0
    · obtain ⟨x, hx, hn⟩ := hl
      exact .inl ⟨x, hx, decide_eq_true hn⟩
    · exact .inr fun x hx => by
        by_contra hn
        exact hl ⟨x, hx, hn⟩
  obtain ⟨A, W, pT, pR, -, -, h1, h2, h3⟩ := C22_matrices_add_up h (by decide) (csrOf_ok sharpEnv rfl)
    (fun _ _ _ _ => cut _) (fun _ _ => cut _)
  refine ⟨trial, trialS, A, W, pT, pR, (h2 _).mpr rfl, fun r hr => (h1 r hr _).mpr rfl, ?_⟩
  intro i j hi hj
  have := h3 i j hi hj
  simpa [List.range_succ] using this

end Bempp
