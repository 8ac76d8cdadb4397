import Verif.Spec.MissingCells
import Verif.Props.TouchingParts
/-
C22 without the ghost layer: what exactly is missing from the sum over the processes.
-/
set_option linter.unusedSectionVars false

namespace Bempp

variable {n : Nat} {G : Nat → Grid} {S : Grid} {num : Nat → Nat → Nat → Nat}

/-- The cells of a part that touch an owned cell are the cells of the whole grid that touch it and that the owner has. -/
theorem PartOf.present_perm (h : PartOf n G S num) {r : Nat} (hr : r < n) {c c0 : Entity}
    (hc : c ∈ (G r).entityIter 2) (ho : c.ownership = .owned) (h0 : c0 ∈ S.entityIter 2)
    (hn : c0.localIndex = num r 2 c.localIndex) [DecidablePred fun c' => c0.Touches c' ∧ OwnerHas n G num c0 c'] :
    ((((G r).entityIter 2).filter fun c' => c.Touches c').map fun c' => num r 2 c'.localIndex).Perm
      (((S.entityIter 2).filter fun c' => decide (c0.Touches c' ∧ OwnerHas n G num c0 c')).map Entity.localIndex) := by
  obtain ⟨c0', h0', hn', -, hs⟩ := h.cell r hr c hc
  have : c0' = c0 := h.whole.index_inj (by omega) h0' h0 (hn'.trans hn.symm)
  subst this
  refine (List.perm_ext_iff_of_nodup ?_ ?_).mpr ?_
  · refine List.Nodup.map_on ?_ (((h.parts r hr).nodup (by omega)).filter _)
    intro c hc c' hc' he
    have hc := (List.mem_filter.mp hc).1
    have hc' := (List.mem_filter.mp hc').1
    exact (h.parts r hr).index_inj (by omega) hc hc' (h.inj r hr 2 (by omega) c hc c' hc' he)
  · refine List.Nodup.map_on ?_ ((h.whole.nodup (by omega)).filter _)
    intro c hc c' hc' he
    exact h.whole.index_inj (by omega) (List.mem_filter.mp hc).1 (List.mem_filter.mp hc').1 he
  · intro x
    simp only [List.mem_map, List.mem_filter, decide_eq_true_eq]
    constructor
    · rintro ⟨c', ⟨hc', ht⟩, rfl⟩
      obtain ⟨c1, h1, e1, -, hs1⟩ := h.cell r hr c' hc'
      exact ⟨c1, ⟨h1, (h.touches hr hc hc' (hs 0 (by omega)) (hs1 0 (by omega))).mpr ht, r, hr, ⟨c, hc, ho, hn.symm⟩, c', hc', e1.symm⟩,
        e1⟩
    · rintro ⟨c1, ⟨h1, ht, r', hr', ⟨x, hx, hox, ex⟩, c', hc', e1⟩, rfl⟩
      have : r' = r := h.owner_unique 2 (by omega) r' hr' r hr x hx c hc hox ho (ex.trans hn)
      subst this
      obtain ⟨c1', h1', e1', -, hs1⟩ := h.cell r' hr' c' hc'
      have : c1' = c1 := h.whole.index_inj (by omega) h1' h1 (e1'.trans e1)
      subst this
      exact ⟨c', ⟨hc', (h.touches hr' hc hc' (hs 0 (by omega)) (hs1 0 (by omega))).mp ht⟩, e1⟩

/-- A sum over a filtered list is a sum with zeros. -/
theorem sum_filter_and {α M : Type} [AddCommMonoid M] (l : List α) (p q : α → Prop) [DecidablePred p] [DecidablePred q]
    [DecidablePred fun x => p x ∧ q x] (f : α → M) :
    ((l.filter fun x => decide (p x ∧ q x)).map f).sum = ((l.filter fun x => p x).map fun x => if q x then f x else 0).sum := by
  induction l with
  | nil => rfl
  | cons a l ih =>
    simp only [Bool.decide_and] at ih ⊢
    by_cases hp : p a <;> by_cases hq : q a <;> simp [hp, hq, ih]

open scoped Classical in
/-- A sum over the owned cells of all parts and the cells of the part that touch them. -/
theorem PartOf.sum_present {T : Type} [AddCommMonoid T] (h : PartOf n G S num) (f : Entity → Entity → T)
    (v : Nat → Entity → Entity → T)
    (hv : ∀ r, r < n → ∀ c ∈ (G r).entityIter 2, ∀ c' ∈ (G r).entityIter 2, ∀ c0 ∈ S.entityIter 2,
      ∀ c1 ∈ S.entityIter 2, c0.localIndex = num r 2 c.localIndex → c1.localIndex = num r 2 c'.localIndex →
      v r c c' = f c0 c1) :
    ((List.range n).map fun r => ((((G r).entityIter 2).filter fun c => c.ownership = .owned).map fun c =>
      ((((G r).entityIter 2).filter fun c' => c.Touches c').map fun c' => v r c c').sum).sum).sum =
    (((S.entityIter 2).filter fun c => c.ownership = .owned).map fun c =>
      (((S.entityIter 2).filter fun c' => c.Touches c').map fun c' => if OwnerHas n G num c c' then f c c' else 0).sum).sum := by
  let F2 : Entity → Nat → T := fun c0 y => match S.entity 2 y with
    | some c1 => f c0 c1
    | none => 0
  let F1 : Nat → T := fun x => match S.entity 2 x with
    | some c0 => (((S.entityIter 2).filter fun c' => c0.Touches c').map fun c' => if OwnerHas n G num c0 c' then f c0 c' else 0).sum
    | none => 0
  have hF2 : ∀ c0, ∀ c1 ∈ S.entityIter 2, F2 c0 c1.localIndex = f c0 c1 := by
    intro c0 c1 h1
    simp only [F2, h.whole.entity 2 (by omega) c1 h1]
  have hF1 : ∀ c0 ∈ S.entityIter 2, F1 c0.localIndex = (((S.entityIter 2).filter fun c' => c0.Touches c').map fun c' =>
      if OwnerHas n G num c0 c' then f c0 c' else 0).sum := by
    intro c0 h1
    simp only [F1, h.whole.entity 2 (by omega) c0 h1]
  have hin : ∀ r, r < n → ∀ c ∈ (G r).entityIter 2, c.ownership = .owned →
      ((((G r).entityIter 2).filter fun c' => c.Touches c').map fun c' => v r c c').sum =
      F1 (num r 2 c.localIndex) := by
    intro r hr c hc ho
    obtain ⟨c0, h0, e0, -, -⟩ := h.cell r hr c hc
    rw [← e0, hF1 c0 h0]
    have hp := (h.present_perm hr hc ho h0 e0).map (F2 c0)
    rw [List.map_map, List.map_map] at hp
    have hl : (((G r).entityIter 2).filter fun c' => c.Touches c').map (fun c' => v r c c') =
        (((G r).entityIter 2).filter fun c' => c.Touches c').map (F2 c0 ∘ fun c' => num r 2 c'.localIndex) := by
      refine List.map_congr_left fun c' hc' => ?_
      have hc' := (List.mem_filter.mp hc').1
      obtain ⟨c1, h1, e1, -, -⟩ := h.cell r hr c' hc'
      show _ = F2 c0 (num r 2 c'.localIndex)
      rw [← e1, hF2 c0 c1 h1]
      exact hv r hr c hc c' hc' c0 h0 c1 h1 e0 e1
    rw [hl, hp.sum_eq, ← sum_filter_and]
    congr 1
    refine List.map_congr_left fun c' hc' => ?_
    exact hF2 c0 c' (List.mem_filter.mp hc').1
  have e1 : ((List.range n).map fun r => ((((G r).entityIter 2).filter fun c => c.ownership = .owned).map fun c =>
      ((((G r).entityIter 2).filter fun c' => c.Touches c').map fun c' => v r c c').sum).sum) =
      (List.range n).map fun r => (((((G r).entityIter 2).filter fun c => c.ownership = .owned).map
        fun c => num r 2 c.localIndex).map F1).sum := by
    refine List.map_congr_left fun r hr => ?_
    have hr := List.mem_range.mp hr
    rw [List.map_map]
    congr 1
    refine List.map_congr_left fun c hc => ?_
    obtain ⟨h1, h2⟩ := List.mem_filter.mp hc
    exact hin r hr c h1 (by simpa using h2)
  have e2 : (((S.entityIter 2).filter fun c => c.ownership = .owned).map fun c =>
      (((S.entityIter 2).filter fun c' => c.Touches c').map fun c' => if OwnerHas n G num c c' then f c c' else 0).sum) =
      ((S.entityIter 2).map Entity.localIndex).map F1 := by
    rw [List.filter_eq_self.mpr (fun c hc => by simpa using h.serial 2 (by omega) c hc), List.map_map]
    exact List.map_congr_left fun c hc => (hF1 c hc).symm
  rw [e1, e2, ← (h.owned_perm.map F1).sum_eq]
  generalize List.range n = l
  induction l with
  | nil => rfl
  | cons a l ih => simp only [List.map_cons, List.sum_cons, List.flatMap_cons, List.map_append, List.sum_append, ih]

section
variable {R T : Type} [Zero R] [Mul R] [AddCommMonoid T] [Mul T]
  {env : Env R T} {asm : Assembler R T} {trial test : Nat → Space R T} {trialS testS : Space R T}
  {famT famR : CellType → ElementDofs} {F : MathIntegrand T} {K : MathKernel R T} {geo : Nat → Geometry R}
  {geoS : Geometry R} {BT BR : Basis R T} {Q : Quadrature R} {pT pR : Nat → Nat}

/-- The situation of C22 (`PartSetting`) without the condition that a process has all cells that touch its own. -/
structure SplitSetting (env : Env R T) (asm : Assembler R T) (n : Nat) (G : Nat → Grid) (S : Grid)
    (num : Nat → Nat → Nat → Nat) (trial test : Nat → Space R T) (trialS testS : Space R T)
    (famT famR : CellType → ElementDofs) (F : MathIntegrand T) (K : MathKernel R T) (geo : Nat → Geometry R)
    (geoS : Geometry R) (BT BR : Basis R T) (Q : Quadrature R) : Prop where
  part : PartOf n G S num
  testParts : Finished n G famT fun r => (test r).fs
  trialParts : Finished n G famR fun r => (trial r).fs
  testWhole : FunctionSpace.new 0 1 S famT = .done testS.fs
  trialWhole : FunctionSpace.new 0 1 S famR = .done trialS.fs
  onParts : ∀ r, r < n → SingularSetting env asm (trial r) (test r) famT famR F K (geo r) BT BR Q
  onWhole : SingularSetting env asm trialS testS famT famR F K geoS BT BR Q
  geometry : ∀ r, r < n → ∀ c ∈ (G r).entityIter 2,
    SameGeometry (geo r) c.localIndex geoS (num r 2 c.localIndex)

theorem PartSetting.split (h : PartSetting env asm n G S num trial test trialS testS famT famR F K geo geoS BT BR Q) :
    SplitSetting env asm n G S num trial test trialS testS famT famR F K geo geoS BT BR Q :=
  ⟨h.part, h.testParts, h.trialParts, h.testWhole, h.trialWhole, h.onParts, h.onWhole, h.geometry⟩

/-- The sum of functions that add up. -/
theorem touchingSum_add (ts rs : FunctionSpace) (f g k : Entity → Entity → Nat → Nat → T) (hk : ∀ c c' a b, f c c' a b + g c c' a b = k c c' a b)
    (i j : Nat) : touchingSum ts rs f i j + touchingSum ts rs g i j = touchingSum ts rs k i j := by
  unfold touchingSum
  rw [← List.sum_map_add]
  congr 1
  refine List.map_congr_left fun c _ => ?_
  rw [← List.sum_map_add]
  congr 1
  refine List.map_congr_left fun c' _ => ?_
  rw [← List.sum_map_add]
  congr 1
  refine List.map_congr_left fun x _ => ?_
  rw [← List.sum_map_add]
  congr 1
  refine List.map_congr_left fun y _ => ?_
  by_cases hx : x.1 = i ∧ y.1 = j
  · simp only [if_pos hx, hk]
  · simp only [if_neg hx, add_zero]

open scoped Classical in
/-- The sum over the parts is the sum over the pairs of touching cells of the whole grid of which the owner of the first has the
second. -/
theorem SplitSetting.touchingSum (h : SplitSetting env asm n G S num trial test trialS testS famT famR F K geo geoS BT BR Q)
    (hT : Renumbers n G num (fun r => (test r).fs) testS.fs pT)
    (hR : Renumbers n G num (fun r => (trial r).fs) trialS.fs pR) {i j : Nat} (hi : i < testS.fs.globalSize)
    (hj : j < trialS.fs.globalSize) :
    ((List.range n).map fun r => Bempp.touchingSum (test r).fs (trial r).fs
      (singularPairValue env.cast F K (geo r) BT BR Q) i j).sum =
    Bempp.touchingSum testS.fs trialS.fs (fun c c' a b => if OwnerHas n G num c c' then
      singularPairValue env.cast F K geoS BT BR Q c c' a b else 0) (pT i) (pR j) := by
  have yT : (FunctionSpace.new 0 1 S famT).Yields testS.fs := by rw [h.testWhole]; exact .done _
  have yR : (FunctionSpace.new 0 1 S famR).Yields trialS.fs := by rw [h.trialWhole]; exact .done _
  have gS : testS.fs.grid = S := by
    obtain ⟨_, _, _, _, _, hg, _⟩ := new_local yT
    exact hg
  have gS' : trialS.fs.grid = S := by
    obtain ⟨_, _, _, _, _, hg, _⟩ := new_local yR
    exact hg
  obtain ⟨ndT, -, foT, -⟩ := h.onWhole.testSpace.family
  obtain ⟨ndR, -, foR, -⟩ := h.onWhole.trialSpace.family
  rw [gS] at foT
  rw [gS'] at foR
  have gP : ∀ r, r < n → (test r).fs.grid = G r := by
    intro r hr
    obtain ⟨_, _, _, _, _, hg, _⟩ := new_local (h.testParts.yields (h.part.distributed foT) hr)
    exact hg
  have gP' : ∀ r, r < n → (trial r).fs.grid = G r := by
    intro r hr
    obtain ⟨_, _, _, _, _, hg, _⟩ := new_local (h.trialParts.yields (h.part.distributed foR) hr)
    exact hg
  have sT : ∀ i, i < testS.fs.globalSize → testS.fs.globalDofIndex i = some i := by
    obtain ⟨s', e1, -, e2, e3, -⟩ := C18_serial_space h.part.whole foT h.part.serial
    rw [h.testWhole] at e1
    cases e1
    intro i hi
    exact (e3 i (by rw [← e2]; exact hi)).1
  have sR : ∀ i, i < trialS.fs.globalSize → trialS.fs.globalDofIndex i = some i := by
    obtain ⟨s', e1, -, e2, e3, -⟩ := C18_serial_space h.part.whole foR h.part.serial
    rw [h.trialWhole] at e1
    cases e1
    intro i hi
    exact (e3 i (by rw [← e2]; exact hi)).1
  set g := singularPairValue env.cast F K geoS BT BR Q with hg
  have key := h.part.sum_present (f := fun c0 c1 =>
      ((testS.fs.globalDofs c0.localIndex).zipIdx.map fun (ia : Nat × Nat) =>
        ((trialS.fs.globalDofs c1.localIndex).zipIdx.map fun (jb : Nat × Nat) =>
          if ia.1 = pT i ∧ jb.1 = pR j then g c0 c1 ia.2 jb.2
          else 0).sum).sum) (v := fun r c c' =>
      (((test r).fs.globalDofs c.localIndex).zipIdx.map fun (ia : Nat × Nat) =>
        (((trial r).fs.globalDofs c'.localIndex).zipIdx.map fun (jb : Nat × Nat) =>
          if ia.1 = i ∧ jb.1 = j then singularPairValue env.cast F K (geo r) BT BR Q c c' ia.2 jb.2
          else 0).sum).sum) ?_
  · unfold Bempp.touchingSum
    rw [gS, gS']
    refine Eq.trans (congrArg List.sum (List.map_congr_left fun r hr => ?_)) (key.trans ?_)
    · rw [gP r (List.mem_range.mp hr), gP' r (List.mem_range.mp hr)]
    · congr 1
      refine List.map_congr_left fun c0 _ => ?_
      congr 1
      refine List.map_congr_left fun c1 _ => ?_
      by_cases hp : OwnerHas n G num c0 c1
      · simp only [if_pos hp]
      · simp only [if_neg hp]
        symm
        refine List.sum_eq_zero fun y hy => ?_
        obtain ⟨x, -, rfl⟩ := List.mem_map.mp hy
        refine List.sum_eq_zero fun y hy => ?_
        obtain ⟨x, -, rfl⟩ := List.mem_map.mp hy
        simp
  · intro r hr c hc c' hc' c0 h0 c1 h1 e0 e1
    obtain ⟨u1, u2⟩ := hT.globalDofs sT hr hc
    obtain ⟨w1, w2⟩ := hR.globalDofs sR hr hc'
    have hval := h.part.value env.cast F K BT BR Q hr (h.geometry r hr) hc hc' h0 h1 e0 e1
    rw [e0, e1, u1, w1, zipIdx_map_fst, zipIdx_map_fst, List.map_map]
    congr 1
    refine List.map_congr_left fun x hx => ?_
    simp only [Function.comp]
    rw [List.map_map]
    congr 1
    refine List.map_congr_left fun y hy => ?_
    simp only [Function.comp]
    have hx' := u2 x.1 (List.fst_mem_of_mem_zipIdx hx)
    have hy' := w2 y.1 (List.fst_mem_of_mem_zipIdx hy)
    have a1 : (pT x.1 = pT i) = (x.1 = i) := propext ⟨hT.inj _ _ hx' hi, fun e => by rw [e]⟩
    have a2 : (pR y.1 = pR j) = (y.1 = j) := propext ⟨hR.inj _ _ hy' hj, fun e => by rw [e]⟩
    simp only [a1, a2, hval, hg]

open scoped Classical in
/-- **C22** without the ghost layer. On any distribution of a grid the triplets of all processes add up to the contributions of
exactly those pairs of touching cells of which the owner of the test cell has the trial cell. What is missing from the value on
the whole grid are the contributions of the other pairs. -/
theorem C22_without_layer (h : SplitSetting env asm n G S num trial test trialS testS famT famR F K geo geoS BT BR Q)
    (hb : 0 < asm.options.batchSize)
    (hT : Renumbers n G num (fun r => (test r).fs) testS.fs pT)
    (hR : Renumbers n G num (fun r => (trial r).fs) trialS.fs pR) :
    ∃ (A : Nat → Sparse T) (W : Sparse T),
      (∀ r, r < n → ∀ out, AssembleSingularPart env asm ((test r).fs.globalSize, (trial r).fs.globalSize) (trial r)
        (test r) out ↔ out = some (A r)) ∧
      (∀ out, AssembleSingularPart env asm (testS.fs.globalSize, trialS.fs.globalSize) trialS testS out ↔
        out = some W) ∧
      ∀ i j, i < testS.fs.globalSize → j < trialS.fs.globalSize →
        ((List.range n).map fun r => tripletSum (A r).rows (A r).cols (A r).data i j).sum =
          touchingSum testS.fs trialS.fs (fun c c' a b => if OwnerHas n G num c c' then
            singularPairValue env.cast F K geoS BT BR Q c c' a b else 0) (pT i) (pR j) ∧
        ((List.range n).map fun r => tripletSum (A r).rows (A r).cols (A r).data i j).sum +
          touchingSum testS.fs trialS.fs (fun c c' a b => if OwnerHas n G num c c' then 0 else
            singularPairValue env.cast F K geoS BT BR Q c c' a b) (pT i) (pR j) =
        tripletSum W.rows W.cols W.data (pT i) (pR j) := by
  refine ⟨fun r => Sparse.ofTriplets ((test r).fs.globalSize, (trial r).fs.globalSize)
      (singularTriplets env.cast F K (geo r) BT BR Q famT famR (trial r).fs (test r).fs),
    Sparse.ofTriplets (testS.fs.globalSize, trialS.fs.globalSize)
      (singularTriplets env.cast F K geoS BT BR Q famT famR trialS.fs testS.fs), ?_, ?_, ?_⟩
  · intro r hr out
    exact (h.onParts r hr).part hb out
  · exact h.onWhole.part hb
  · intro i j hi hj
    have key : ((List.range n).map fun r => tripletSum
        (Sparse.ofTriplets ((test r).fs.globalSize, (trial r).fs.globalSize)
          (singularTriplets env.cast F K (geo r) BT BR Q famT famR (trial r).fs (test r).fs)).rows
        (Sparse.ofTriplets ((test r).fs.globalSize, (trial r).fs.globalSize)
          (singularTriplets env.cast F K (geo r) BT BR Q famT famR (trial r).fs (test r).fs)).cols
        (Sparse.ofTriplets ((test r).fs.globalSize, (trial r).fs.globalSize)
          (singularTriplets env.cast F K (geo r) BT BR Q famT famR (trial r).fs (test r).fs)).data i j).sum =
          touchingSum testS.fs trialS.fs (fun c c' a b => if OwnerHas n G num c c' then
            singularPairValue env.cast F K geoS BT BR Q c c' a b else 0) (pT i) (pR j) := by
      rw [← h.touchingSum hT hR hi hj]
      congr 1
      refine List.map_congr_left fun r hr => ?_
      rw [tripletSum_ofTriplets, (h.onParts r (List.mem_range.mp hr)).tsum_eq]
    refine ⟨key, ?_⟩
    rw [key, tripletSum_ofTriplets, h.onWhole.tsum_eq]
    refine touchingSum_add _ _ _ _ _ (fun c c' a b => ?_) _ _
    by_cases hp : OwnerHas n G num c c'
    · simp only [if_pos hp, add_zero]
    · simp only [if_neg hp, zero_add]

end

/-! ### The ghost layer is needed -/

theorem touchingSum_congr {T : Type} [AddCommMonoid T] {ts rs : FunctionSpace} {f g : Entity → Entity → Nat → Nat → T}
    (h : ∀ c ∈ ts.grid.entityIter 2, ∀ c' ∈ rs.grid.entityIter 2, ∀ a b, f c c' a b = g c c' a b) (i j : Nat) :
    touchingSum ts rs f i j = touchingSum ts rs g i j := by
  unfold touchingSum
  congr 1
  refine List.map_congr_left fun c hc => ?_
  congr 1
  refine List.map_congr_left fun c' hc' => ?_
  simp only [h c (List.mem_filter.mp hc).1 c' (List.mem_filter.mp hc').1]

open Examples

/-- The two triangles of `twoWhole` on two processes. Each process has only its own triangle; vertices and the edge between the
triangles belong to process 0. -/
def bareParts (r : Nat) : Grid :=
  if r = 0 then mkGrid 13 3 [(.triangle, [0, 1, 2])] fun _ _ => .owned
  else mkGrid 14 3 [(.triangle, [0, 1, 2])] fun d i => match d, i with
    | 0, 0 => .ghost 0 1
    | 0, 2 => .ghost 0 2
    | 1, 1 => .ghost 0 0
    | _, _ => .owned

/-- The numbers of the entities on the whole grid. -/
def bareNum (r d e : Nat) : Nat :=
  if r = 0 then e else match d with
    | 0 => [1, 3, 2].getD e 0
    | 1 => [3, 0, 4].getD e 0
    | _ => 1 - e

theorem bareParts_wf : ∀ r, r < 2 → (bareParts r).WF := by
  apply lt2 <;> exact
    { tdim := rfl
      index := le2 (by decide) (by decide) (by decide)
      entity := le2 (by intro e he; fin_cases he <;> rfl) (by intro e he; fin_cases he <;> rfl)
        (by intro e he; fin_cases he <;> rfl)
      types := by decide
      sub_lt := by
        intro c hc
        apply le2 <;> revert c <;> decide
      sub_nodup := by
        intro c hc
        apply le2 <;> revert c <;> decide
      sub_length := by
        intro c hc
        apply le2 <;> revert c <;> decide
      sub_self := by decide
      cell_types := by decide
      types_nodup := by decide
      types0 := rfl
      types1 := rfl
      covered := le2 (by decide) (by decide) (by decide) }

theorem barePart : PartOf 2 bareParts twoWhole bareNum where
  pos := by decide
  whole := twoWhole_wf
  parts := bareParts_wf
  types := lt2 (by decide) (by decide)
  serial := le2 (by decide) (by decide) (by decide)
  inj := by
    apply lt2 <;> apply le2 <;> decide
  cell := by
    have key : ∀ r, r < 2 → ∀ c ∈ (bareParts r).entityIter 2, ∃ c0 ∈ twoWhole.entityIter 2,
        c0.localIndex = bareNum r 2 c.localIndex ∧ c0.entityType = c.entityType ∧
        c0.sub 0 = (c.sub 0).map (bareNum r 0) ∧ c0.sub 1 = (c.sub 1).map (bareNum r 1) ∧
        c0.sub 2 = (c.sub 2).map (bareNum r 2) := by
      apply lt2 <;> decide
    intro r hr c hc
    obtain ⟨c0, h1, h2, h3, h4, h5, h6⟩ := key r hr c hc
    exact ⟨c0, h1, h2, h3, le2 h4 h5 h6⟩
  ghost := by
    intro r hr d hd e he p i h
    have hm := mem_ghostsOf he h
    have key : ∀ r, r < 2 → ∀ d, d ≤ 2 → ∀ x ∈ ghostsOf (bareParts r) d, x.2.1 < 2 ∧ x.2.1 ≠ r ∧
        ∃ e' ∈ (bareParts x.2.1).entityIter d, e'.localIndex = x.2.2 ∧ e'.ownership = .owned ∧
          bareNum x.2.1 d x.2.2 = bareNum r d x.1 := by
      apply lt2 <;> apply le2 <;> decide
    exact key r hr d hd _ hm
  owner := by
    apply le2 <;> decide
  owner_unique := by
    intro d hd r hr r' hr'
    revert r' r d
    apply le2 <;> apply lt2 <;> apply lt2 <;> decide

theorem bareParts_vertices : ∀ r, r < 2 → (bareParts r).Vertices := by
  have h1 : ∀ r, r < 2 → ∀ v ∈ (bareParts r).entityIter 0, ∀ i ∈ v.connected 2, ∃ c ∈ (bareParts r).entityIter 2,
      c.localIndex = i ∧ v.localIndex ∈ c.sub 0 := by apply lt2 <;> decide
  have h2 : ∀ r, r < 2 → ∀ v ∈ (bareParts r).entityIter 0, ∀ c ∈ (bareParts r).entityIter 2,
      v.localIndex ∈ c.sub 0 → c.localIndex ∈ v.connected 2 := by apply lt2 <;> decide
  have h3 : ∀ r, r < 2 → ∀ v ∈ (bareParts r).entityIter 0, (v.connected 2).Nodup := by apply lt2 <;> decide
  intro r hr
  refine ⟨h3 r hr, ?_⟩
  intro v hv i
  exact ⟨h1 r hr v hv i, by rintro ⟨c, hc, rfl, h⟩; exact h2 r hr v hv c hc h⟩

/-- The vertices of the edges of a triangle. -/
def bareEdge (e : Nat) : Nat × Nat := (allEdges [(.triangle, [0, 1, 2])]).getD e (0, 0)

theorem bareParts_conforming : ∀ r, r < 2 → ∃ ev, (bareParts r).Edges ev ∧ (bareParts r).Conforming ev := by
  refine lt2
    ⟨bareEdge, by unfold bareParts; rw [if_pos rfl]; exact mkGrid_edges _ _ _ _ (by decide), by decide +kernel, ?_⟩
    ⟨bareEdge, by unfold bareParts; rw [if_neg (by decide)]; exact mkGrid_edges _ _ _ _ (by decide), by decide +kernel, ?_⟩
  · have h : ∀ c ∈ (bareParts 0).entityIter 2, ∀ c' ∈ (bareParts 0).entityIter 2, c.localIndex = c'.localIndex := by decide +kernel
    intro c hc c' hc' hn
    exact absurd (h c hc c' hc') hn
  · have h : ∀ c ∈ (bareParts 1).entityIter 2, ∀ c' ∈ (bareParts 1).entityIter 2, c.localIndex = c'.localIndex := by decide +kernel
    intro c hc c' hc' hn
    exact absurd (h c hc c' hc') hn

/-- The space on the whole grid. -/
def twoFs : FunctionSpace :=
  match FunctionSpace.new 0 1 twoWhole p1 with
  | .done s => s
  | _ => octFs

/-- The geometry of the part of a process. -/
def bareGeometry (r : Nat) : Geometry Rat :=
  { point := fun c => twoGeometry.point (bareNum r 2 c)
    normal := fun c => twoGeometry.normal (bareNum r 2 c)
    jacobian := fun c => twoGeometry.jacobian (bareNum r 2 c)
    jdet := fun c => twoGeometry.jdet (bareNum r 2 c) }

/-- Everything but the ghost layer is as in C22. -/
theorem bareSetting : ∃ trial : Nat → Space Rat Rat,
    SplitSetting sharpEnv (Laplace.singleLayer (kernelOf squareKernel) smallOptions) 2 bareParts twoWhole bareNum trial trial
      (Examples.spaceOf twoFs p1 twoGeometry p1Basis) (Examples.spaceOf twoFs p1 twoGeometry p1Basis) p1 p1 slF squareKernel
      bareGeometry twoGeometry p1Basis p1Basis smallRules := by
  have fo : FamilyOn twoWhole p1 (fun d _ => if d = 0 then 1 else 0) := p1_on (by decide)
  have dist := barePart.distributed fo
  obtain ⟨sp, hsp⟩ := finished_exists dist
  obtain ⟨fs, hfs, -⟩ := C18_serial_space twoWhole_wf fo barePart.serial
  have hy : (FunctionSpace.new 0 1 twoWhole p1).Yields fs := by rw [hfs]; exact .done fs
  have hg : fs.grid = twoWhole := by
    obtain ⟨_, _, _, _, _, hg, _⟩ := new_local hy
    exact hg
  have he : twoFs = fs := by unfold twoFs; rw [hfs]
  rw [he]
  have ho : (Laplace.singleLayer (kernelOf squareKernel) smallOptions).Computes slF squareKernel :=
    ⟨laplace_singleLayer_integrand _ _, kernelOf_computes _ _, rfl⟩
  have hq : SingularOk sharpEnv (Laplace.singleLayer (kernelOf squareKernel) smallOptions).options smallRules .triangle .triangle :=
    ⟨⟨4, by decide, fun _ _ => rfl⟩, exEnv_singular.points⟩
  have hgr : ∀ r, r < 2 → (sp r).grid = bareParts r := by
    intro r hr
    obtain ⟨_, _, _, _, _, hg, _⟩ := new_local (hsp.yields dist hr)
    exact hg
  refine ⟨fun r => Examples.spaceOf (sp r) p1 (bareGeometry r) p1Basis, barePart, hsp, hsp, hfs, hfs, ?_, ?_, ?_⟩
  · intro r hr
    obtain ⟨ev, he, hc⟩ := bareParts_conforming r hr
    refine triSetting ho hq (hgr r hr) ⟨?_, ?_, ?_⟩ ?_ (bareParts_vertices r hr) he hc ?_ _
    · rw [hgr r hr]; exact bareParts_wf r hr
    · rw [hgr r hr]
      refine ⟨_, .triangle, dist.family r hr, p1_lowest ?_ ⟨[0], rfl, by decide⟩⟩
      revert r; apply lt2 <;> (intros; rfl)
    · rw [hgr r hr]; exact ⟨r, 2, hsp.yields dist hr⟩
    · revert r; apply lt2 <;> intros <;> exact ⟨rfl, rfl⟩
    · revert r; apply lt2 <;> (intros; rfl)
  · refine triSetting ho hq hg ⟨?_, ?_, ?_⟩ ⟨rfl, rfl⟩ twoWhole_vertices (mkGrid_edges _ _ _ _ (by decide))
      twoWhole_conforming rfl _
    · rw [hg]; exact twoWhole_wf
    · rw [hg]; exact ⟨_, .triangle, fo, p1_lowest rfl ⟨[0], rfl, by decide⟩⟩
    · rw [hg]; exact ⟨0, 1, hy⟩
  · intro r hr c hc
    exact ⟨rfl, rfl, rfl, rfl⟩

/-- C22 is false without the ghost layer: on two triangles that are distributed over two processes without ghost cells, the matrices
of the processes do not add up to the matrix of the whole grid. -/
theorem C22_layer_needed : ∃ (env : Env Rat Rat) (asm : Assembler Rat Rat) (G : Nat → Grid) (S : Grid) (num : Nat → Nat → Nat → Nat)
    (trial : Nat → Space Rat Rat) (trialS : Space Rat Rat) (F : MathIntegrand Rat) (K : MathKernel Rat Rat)
    (geo : Nat → Geometry Rat) (geoS : Geometry Rat) (B : Basis Rat Rat) (Q : Quadrature Rat) (A : Nat → Sparse Rat)
    (W : Sparse Rat) (p : Nat → Nat),
    SplitSetting env asm 2 G S num trial trial trialS trialS p1 p1 F K geo geoS B B Q ∧ 0 < asm.options.batchSize ∧
    Renumbers 2 G num (fun r => (trial r).fs) trialS.fs p ∧
    (∀ r, r < 2 → AssembleSingularPart env asm ((trial r).fs.globalSize, (trial r).fs.globalSize) (trial r) (trial r)
      (some (A r))) ∧
    AssembleSingularPart env asm (trialS.fs.globalSize, trialS.fs.globalSize) trialS trialS (some W) ∧
    ∃ i j, i < trialS.fs.globalSize ∧ j < trialS.fs.globalSize ∧
      tripletSum (A 0).rows (A 0).cols (A 0).data i j + tripletSum (A 1).rows (A 1).cols (A 1).data i j ≠
        tripletSum W.rows W.cols W.data (p i) (p j) := by
  classical
  obtain ⟨trial, h⟩ := bareSetting
  obtain ⟨ndT, -, foT, -⟩ := h.onWhole.testSpace.family
  obtain ⟨p, hp⟩ := C45_renumbering h.part foT h.testParts h.testWhole
  obtain ⟨A, W, h1, h2, h3⟩ := C22_without_layer h (by decide) hp hp
  have hs : twoFs.globalSize = 4 := by decide +kernel
  obtain ⟨i, hi, ei⟩ := hp.onto 0 (by show 0 < twoFs.globalSize; rw [hs]; decide)
  obtain ⟨j, hj, ej⟩ := hp.onto 3 (by show 3 < twoFs.globalSize; rw [hs]; decide)
  refine ⟨_, _, _, _, _, trial, _, _, _, _, _, _, _, A, W, p, h, by decide, hp, fun r hr => (h1 r hr _).mpr rfl, (h2 _).mpr rfl,
    i, j, hi, hj, ?_⟩
  have key := (h3 i j hi hj).2
  intro heq
  rw [← heq, ei, ej] at key
  simp only [List.range_succ, List.range_zero, List.nil_append, List.cons_append, List.map_cons, List.map_nil, List.sum_cons,
    List.sum_nil, add_zero] at key
  have hz := add_eq_left.mp key
  rw [touchingSum_congr (g := fun c c' a b => if c.localIndex = c'.localIndex then 0 else
      singularPairValue sharpEnv.cast slF squareKernel twoGeometry p1Basis p1Basis smallRules c c' a b)] at hz
  · revert hz
    decide +kernel
  · intro c hc c' hc' a b
    have hown : ∀ c ∈ twoWhole.entityIter 2, ∀ c' ∈ twoWhole.entityIter 2, (∃ r, r < 2 ∧
        (∃ x ∈ (bareParts r).entityIter 2, x.ownership = .owned ∧ bareNum r 2 x.localIndex = c.localIndex) ∧
        ∃ x ∈ (bareParts r).entityIter 2, bareNum r 2 x.localIndex = c'.localIndex) ↔ c.localIndex = c'.localIndex := by
      decide +kernel
    have := hown c hc c' hc'
    simp only [OwnerHas, this]

/-- With ghosts C22 holds; its hypotheses are met by spheres of any level on any number of processes with any distribution of the
entities. -/
example (n N : Nat) (hN : 0 < N) (owner : Nat → Nat → Nat) (ho : ∀ d e, owner d e < N) :
    ∃ (sp : Nat → FunctionSpace) (fs : FunctionSpace) (A : Nat → Sparse Rat) (W : Sparse Rat) (p : Nat → Nat),
      fs.globalSize = 4 ^ (n + 1) + 2 ∧
      (∀ r, r < N → AssembleSingularPart sizedEnv (Laplace.singleLayer (sizedKernel squareKernel) smallOptions)
        ((sp r).globalSize, (sp r).globalSize) (sizedSpace (sp r) p1 octGeometry p1Basis) (sizedSpace (sp r) p1 octGeometry p1Basis)
        (some (A r))) ∧
      AssembleSingularPart sizedEnv (Laplace.singleLayer (sizedKernel squareKernel) smallOptions) (fs.globalSize, fs.globalSize)
        (sizedSpace fs p1 octGeometry p1Basis) (sizedSpace fs p1 octGeometry p1Basis) (some W) ∧
      ∀ i j, i < fs.globalSize → j < fs.globalSize →
        ((List.range N).map fun r => tripletSum (A r).rows (A r).cols (A r).data i j).sum =
          tripletSum W.rows W.cols W.data (p i) (p j) := by
  obtain ⟨s, S, pt, cl, sp, fs, hs, hb, h⟩ := exampleParts n N hN owner ho
  obtain ⟨ndT, -, foT, -⟩ := h.onWhole.testSpace.family
  rw [h.grids.1] at foT
  obtain ⟨p, hp⟩ := C45_renumbering h.part foT h.testParts h.testWhole
  obtain ⟨A, W, h1, h2, h3⟩ := C22_parts_add_up h (by decide) hp hp
  refine ⟨sp, fs, A, W, p, ?_, fun r hr => (h1 r hr _).mpr rfl, (h2 _).mpr rfl, h3⟩
  obtain ⟨fs', hn, hsize⟩ := C46_sphere (1 / 2 : Rat) (fun _ => 1) hs hb (p1_uniform .triangle (by simp))
  have he : FunctionSpace.new 0 1 S p1 = .done fs := h.testWhole
  rw [he] at hn
  cases hn
  rw [hsize]
  simp

end Bempp
