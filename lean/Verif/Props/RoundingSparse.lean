import Verif.Props.Rounding
import Verif.Props.Sparse
/-
Property C73: rounding errors of the sparse singular part.
-/
set_option linter.unusedSectionVars false

namespace Bempp

section
variable {𝕜 : Type} [NormedField 𝕜] [NormedAlgebra ℝ 𝕜] {u : ℝ} {A : Arith ℝ u} {B : Arith 𝕜 u}

/-! ### Specification -/

/-- Entry `(i, j)` of the singular part in exact arithmetic: the sum of the singular quadrature values over the pairs of
a cell that the process owns and a cell that touches it. -/
noncomputable def exactSingular (K : MathKernel ℝ 𝕜) (G : Geometry ℝ) (BT BR : Basis ℝ 𝕜) (Q : Quadrature ℝ)
    (test trial : FunctionSpace) (i j : Nat) (F : MathIntegrand 𝕜) : 𝕜 :=
  touchingSum test trial (singularPairValue (algebraMap ℝ 𝕜) F K G BT BR Q) i j

/-- The same sum with the absolute values of all terms. -/
noncomputable def absSingular (K : MathKernel ℝ 𝕜) (G : Geometry ℝ) (BT BR : Basis ℝ 𝕜) (Q : Quadrature ℝ)
    (test trial : FunctionSpace) (i j : Nat) (W : MathIntegrand ℝ) : ℝ :=
  touchingSum test trial (singularPairValue id W (fun x y i => ‖K x y i‖) G.abs (fun t a d x => ‖BT t a d x‖)
    (fun t a d x => ‖BR t a d x‖) Q.abs) i j

/-- The number of quadrature values that belong to entry `(i, j)`. -/
def singularTerms (test trial : FunctionSpace) (i j : Nat) : Nat := touchingSum test trial (fun _ _ _ _ => 1) i j

/-- The numbers of a matrix. -/
def Csr.val (m : Csr (Fl B)) : Csr 𝕜 := ⟨m.shape, m.indices, m.indptr, m.data.map Fl.val⟩

/-- The contract of `rlst`'s `CsrMatrix::from_aij` in floating point arithmetic: each entry is the sum of its triplets, in
any order, with one rounding per triplet. -/
def FromAijRounded (env : Env (Fl A) (Fl B)) : Prop :=
  ∀ (shape : Nat × Nat) (rows cols : List Nat) (data : List (Fl B)), rows.length = data.length →
    cols.length = data.length → (∀ r ∈ rows, r < shape.1) → (∀ c ∈ cols, c < shape.2) →
    ∃ m, env.fromAij shape rows cols data = some m ∧ m.shape = shape ∧
      m.indptr.length = shape.1 + 1 ∧ (∀ c ∈ m.indices, c < shape.2) ∧
      ∀ i j, i < shape.1 → ‖m.val.entry i j - tripletSum rows cols (data.map Fl.val) i j‖ ≤
        ((1 + u) ^ (rows.zip cols).count (i, j) - 1) * tripletSum rows cols (data.map fun x => ‖x.val‖) i j

/-! ### Sums over triplets -/

/-- The triplets with another value. -/
def mapTriplets {S T : Type} (φ : S → T) (l : List ((Nat × Nat) × S)) : List ((Nat × Nat) × T) :=
  l.map fun x => (x.1, φ x.2)

theorem mapTriplets_local {S T : Type} (φ : S → T) (test trial : FunctionSpace) (td rd : List Nat) (m : List (List S)) :
    mapTriplets φ (localTriplets test trial td rd m) = localTriplets test trial td rd (m.map fun c => c.map φ) := by
  unfold mapTriplets localTriplets
  rw [List.map_flatMap, List.zip_map_right, List.flatMap_map]
  congr 1
  funext c
  simp only [Prod.map, List.zip_map_right, List.map_map]
  rfl

theorem SingularSetting.tsum_map {R S T : Type} [Zero R] [Mul R] [Zero S] [Add S] [Mul S] [AddCommMonoid T]
    {env : Env R S} {asm : Assembler R S} {trial test : Space R S} {famT famR : CellType → ElementDofs}
    {F : MathIntegrand S} {K : MathKernel R S} {G : Geometry R} {BT BR : Basis R S} {Q : Quadrature R}
    (h : SingularSetting env asm trial test famT famR F K G BT BR Q) (φ : S → T) (i j : Nat) :
    tsum (mapTriplets φ (singularTriplets env.cast F K G BT BR Q famT famR trial.fs test.fs)) i j =
    touchingSum test.fs trial.fs (fun c c' a b => φ (singularPairValue env.cast F K G BT BR Q c c' a b)) i j := by
  unfold mapTriplets
  rw [tsum_perm (h.triplets_perm.map _), List.map_flatMap, tsum_flatMap]
  unfold adjacentPairs touchingSum
  rw [List.map_flatMap]
  have hsum : ∀ (l : List Entity) (f : Entity → List T), (l.flatMap f).sum =
      (l.map fun c => (f c).sum).sum := by
    intro l f
    induction l with
    | nil => rfl
    | cons x l ih => simp [List.flatMap_cons, ih]
  rw [hsum]
  congr 1
  apply List.map_congr_left
  intro c hc
  have hc := (List.mem_filter.mp hc).1
  rw [List.map_map, h.sameGrid]
  have hf : ((test.fs.grid.entityIter 2).filter fun c' => (c.sub 0).any fun v => (c'.sub 0).contains v) =
      (test.fs.grid.entityIter 2).filter fun c' => decide (c.Touches c') := by
    apply List.filter_congr
    intro c' _
    rw [Bool.eq_iff_iff, decide_eq_true_eq]
    simp [Entity.Touches]
  rw [hf]
  congr 1
  apply List.map_congr_left
  intro c' hc'
  have hc' := (List.mem_filter.mp hc').1
  have hc'' : c' ∈ trial.fs.grid.entityIter 2 := by rw [h.sameGrid]; exact hc'
  obtain ⟨td, _, t2, t3, _, _⟩ := h.testSpace.cell hc
  obtain ⟨rd, _, r2, r3, _, _⟩ := h.trialSpace.cell hc''
  simp only [Function.comp]
  unfold cellTriplets
  simp only [FunctionSpace.globalDofs_eq, t2, r2, ← t3, ← r3]
  have := mapTriplets_local φ test.fs trial.fs td rd ((List.range rd.length).map fun b => (List.range td.length).map fun a =>
    singularValue env.cast F K G G BT BR Q c.entityType c'.entityType (connectivity c c') c.localIndex c'.localIndex a b)
  unfold mapTriplets at this
  rw [this]
  simp only [List.map_map, Function.comp_def]
  exact tsum_local _ _ td rd (fun a b => φ (singularPairValue env.cast F K G BT BR Q c c' a b)) i j

theorem touchingSum_bound (test trial : FunctionSpace) (f g : Entity → Entity → Nat → Nat → 𝕜)
    (h : Entity → Entity → Nat → Nat → ℝ)
    (hl : ∀ c ∈ test.grid.entityIter 2, ∀ c' ∈ trial.grid.entityIter 2, c.Touches c' → ∀ a b,
      ‖f c c' a b - g c c' a b‖ ≤ h c c' a b)
    (i j : Nat) : ‖touchingSum test trial f i j - touchingSum test trial g i j‖ ≤ touchingSum test trial h i j := by
  unfold touchingSum
  refine list_sum_bound _ _ _ _ fun c hc => list_sum_bound _ _ _ _ fun c' hc' => list_sum_bound _ _ _ _ fun x _ =>
    list_sum_bound _ _ _ _ fun y _ => ?_
  obtain ⟨hc', ht⟩ := List.mem_filter.mp hc'
  split
  · exact hl c (List.mem_filter.mp hc).1 c' hc' (by simpa using ht) _ _
  · simp

theorem touchingSum_const_mul (test trial : FunctionSpace) (k : ℝ) (h : Entity → Entity → Nat → Nat → ℝ) (i j : Nat) :
    touchingSum test trial (fun c c' a b => k * h c c' a b) i j = k * touchingSum test trial h i j := by
  unfold touchingSum
  have e : ∀ (p : Prop) [Decidable p] (x : ℝ), (if p then k * x else 0) = k * (if p then x else 0) := by
    intro p _ x; split <;> simp
  simp only [e, List.sum_map_mul_left]

theorem tsum_one (l : List ((Nat × Nat) × Nat)) (h : ∀ x ∈ l, x.2 = 1) (i j : Nat) :
    tsum l i j = (l.map fun x => x.1).count (i, j) := by
  induction l with
  | nil => rfl
  | cons x l ih =>
    have e : tsum (x :: l) i j = (if x.1 = (i, j) then x.2 else 0) + tsum l i j := by simp [tsum]
    rw [e, ih fun y hy => h y (List.mem_cons_of_mem _ hy), h x (List.mem_cons_self ..), List.map_cons, List.count_cons,
      Nat.add_comm]
    simp

theorem tsum_le (l : List ((Nat × Nat) × ℝ)) {δ : ℝ} (h : ∀ x ∈ l, x.2 ≤ δ) (i j : Nat) :
    tsum l i j ≤ (l.map fun x => x.1).count (i, j) * δ := by
  induction l with
  | nil => simp [tsum]
  | cons x l ih =>
    have e : tsum (x :: l) i j = (if x.1 = (i, j) then x.2 else 0) + tsum l i j := by simp [tsum]
    have h1 := ih fun y hy => h y (List.mem_cons_of_mem _ hy)
    have h2 := h x (List.mem_cons_self ..)
    rw [e, List.map_cons, List.count_cons]
    by_cases hc : x.1 = (i, j)
    · rw [if_pos hc, if_pos (by simpa using hc)]
      push_cast
      linarith
    · rw [if_neg hc, if_neg (by simpa using hc), zero_add, Nat.add_zero]
      exact h1

theorem mapTriplets_fst {S T : Type} (φ : S → T) (l : List ((Nat × Nat) × S)) :
    ((mapTriplets φ l).map fun x => x.1) = l.map fun x => x.1 := by
  simp [mapTriplets]

theorem tripletSum_map {S T : Type} [AddCommMonoid T] (φ : S → T) (l : List ((Nat × Nat) × S)) (i j : Nat) :
    tripletSum (l.map fun x => x.1.1) (l.map fun x => x.1.2) ((l.map fun x => x.2).map φ) i j =
      tsum (mapTriplets φ l) i j := by
  have := tripletSum_ofTriplets (0, 0) (mapTriplets φ l) i j
  rw [← this]
  simp [Sparse.ofTriplets, mapTriplets, Function.comp_def]

variable {env : Env (Fl A) (Fl B)} {asm : Assembler (Fl A) (Fl B)} {trial test : Space (Fl A) (Fl B)}
  {famT famR : CellType → ElementDofs} {F : MathIntegrand (Fl B)} {F' : MathIntegrand 𝕜} {W : MathIntegrand ℝ}
  {n N : Nat} {K : MathKernel ℝ 𝕜} {G : Geometry ℝ} {BT BR : Basis ℝ 𝕜} {Q : Quadrature ℝ}

/-- Each singular quadrature value. -/
theorem singularPairValue_apx (hu : 0 ≤ u)
    (h : SingularSetting (R := Fl A) (T := Fl B) env asm trial test famT famR F K G BT BR Q) (hF : Rounded A B F F' W n)
    (hG : ∀ c ∈ test.fs.grid.entityIter 2, ∀ c' ∈ test.fs.grid.entityIter 2, ∀ con : Connectivity,
      con.Possible c.entityType c'.entityType → ∀ p ∈ Q.singular c.entityType c'.entityType con,
        G.jdet c.localIndex p.1 ≠ 0 ∧ G.jdet c'.localIndex p.2.1 ≠ 0)
    (hN : ∀ tt ∈ test.fs.grid.entityTypes 2, ∀ rt ∈ test.fs.grid.entityTypes 2, ∀ con, con.Possible tt rt →
      (Q.singular tt rt con).length ≤ N)
    {c c' : Entity} (hc : c ∈ test.fs.grid.entityIter 2) (hc' : c' ∈ trial.fs.grid.entityIter 2) (ht : c.Touches c')
    (a b : Nat) :
    Apx B (n + 3 + N) (singularPairValue (R := Fl A) (T := Fl B) castFl F K G BT BR Q c c' a b)
      (singularPairValue (algebraMap ℝ 𝕜) F' K G BT BR Q c c' a b)
      (singularPairValue id W (fun x y i => ‖K x y i‖) G.abs (fun t a d x => ‖BT t a d x‖)
        (fun t a d x => ‖BR t a d x‖) Q.abs c c' a b) := by
  rw [h.sameGrid] at hc'
  have wf := h.testSpace.wf
  obtain ⟨ev, ed, co⟩ := h.conforming
  obtain ⟨h1, h2⟩ := sharedVertices_possible wf ed co hc hc' ht
  obtain ⟨_, h3⟩ := possiblePairs_possible (wf.cell_types _ (wf.types c hc)) h1
  rw [h2] at h3
  refine (singularValue_apx hu hF _ _ _ (fun p hp => (hG c hc c' hc' _ h3 p hp).1)
    (fun p hp => (hG c hc c' hc' _ h3 p hp).2) a b).mono hu ?_
  have := hN _ (wf.types c hc) _ (wf.types c' hc') _ h3
  omega

/-- The triplets of the singular part. -/
theorem SingularSetting.triplets_apx (hu : 0 ≤ u)
    (h : SingularSetting (R := Fl A) (T := Fl B) env asm trial test famT famR F K G BT BR Q)
    (hcast : env.cast = castFl) (hF : Rounded A B F F' W n)
    (hG : ∀ c ∈ test.fs.grid.entityIter 2, ∀ c' ∈ test.fs.grid.entityIter 2, ∀ con : Connectivity,
      con.Possible c.entityType c'.entityType → ∀ p ∈ Q.singular c.entityType c'.entityType con,
        G.jdet c.localIndex p.1 ≠ 0 ∧ G.jdet c'.localIndex p.2.1 ≠ 0)
    (hN : ∀ tt ∈ test.fs.grid.entityTypes 2, ∀ rt ∈ test.fs.grid.entityTypes 2, ∀ con, con.Possible tt rt →
      (Q.singular tt rt con).length ≤ N) {l : List ((Nat × Nat) × Fl B)}
    (hl : l = singularTriplets (R := Fl A) (T := Fl B) env.cast F K G BT BR Q famT famR trial.fs test.fs) (i j : Nat) :
    (l.map fun x => x.1).count (i, j) = singularTerms test.fs trial.fs i j ∧
      ‖tsum (mapTriplets Fl.val l) i j - exactSingular K G BT BR Q test.fs trial.fs i j F'‖ ≤
          ((1 + u) ^ (n + 3 + N) - 1) * absSingular K G BT BR Q test.fs trial.fs i j W ∧
      tsum (mapTriplets (fun x => ‖x.val‖) l) i j ≤
          (1 + u) ^ (n + 3 + N) * absSingular K G BT BR Q test.fs trial.fs i j W := by
  subst hl
  refine ⟨?_, ?_, ?_⟩
  · have e := h.tsum_map (T := Nat) (fun _ => 1) i j
    rw [tsum_one _ (fun x hx => by obtain ⟨y, -, rfl⟩ := List.mem_map.mp hx; rfl), mapTriplets_fst] at e
    unfold singularTerms
    rw [← e]
  · rw [h.tsum_map Fl.val i j]
    unfold exactSingular absSingular
    rw [← touchingSum_const_mul, hcast]
    refine touchingSum_bound _ _ _ _ _ (fun c hc c' hc' ht a b => ?_) i j
    exact (singularPairValue_apx hu h hF hG hN hc hc' ht a b).1
  · rw [h.tsum_map (fun x => ‖x.val‖) i j]
    unfold absSingular
    rw [← touchingSum_const_mul, hcast]
    have := touchingSum_bound test.fs trial.fs
      (fun c c' a b => ‖(singularPairValue (R := Fl A) (T := Fl B) castFl F K G BT BR Q c c' a b).val‖)
      (fun _ _ _ _ => (0 : ℝ)) (fun c c' a b => (1 + u) ^ (n + 3 + N) *
        singularPairValue id W (fun x y i => ‖K x y i‖) G.abs (fun t a d x => ‖BT t a d x‖)
        (fun t a d x => ‖BR t a d x‖) Q.abs c c' a b) (fun c hc c' hc' ht a b => by
      rw [sub_zero, norm_norm]
      exact (singularPairValue_apx hu h hF hG hN hc hc' ht a b).size) i j
    have e0 : touchingSum test.fs trial.fs (fun _ _ _ _ => (0 : ℝ)) i j = 0 := by simp [touchingSum]
    rw [e0, sub_zero] at this
    exact (le_abs_self _).trans this

/-- C73, triplets: in any arithmetic whose operations have a relative error of at most `u`, the triplets of the singular
part of every operator, on a grid that may be distributed, are the same for all schedules, and the exact sum of those of
an entry differs from its value in exact arithmetic by at most `(1 + u) ^ k - 1` times the sum of the absolute values of
all terms; `k` is the number of roundings in the integrand plus 3 for the weight plus the number of points of the
largest singular rule. -/
theorem C73_triplets (hu : 0 ≤ u)
    (h : SingularSetting (R := Fl A) (T := Fl B) env asm trial test famT famR F K G BT BR Q)
    (hcast : env.cast = castFl) (hF : Rounded A B F F' W n) (hb : 0 < asm.options.batchSize)
    (hG : ∀ c ∈ test.fs.grid.entityIter 2, ∀ c' ∈ test.fs.grid.entityIter 2, ∀ con : Connectivity,
      con.Possible c.entityType c'.entityType → ∀ p ∈ Q.singular c.entityType c'.entityType con,
        G.jdet c.localIndex p.1 ≠ 0 ∧ G.jdet c'.localIndex p.2.1 ≠ 0)
    (hN : ∀ tt ∈ test.fs.grid.entityTypes 2, ∀ rt ∈ test.fs.grid.entityTypes 2, ∀ con, con.Possible tt rt →
      (Q.singular tt rt con).length ≤ N) :
    ∃ sp : Sparse (Fl B),
      (∀ out, AssembleSingularPart env asm (test.fs.globalSize, trial.fs.globalSize) trial test out ↔ out = some sp) ∧
      ∀ i j, (sp.rows.zip sp.cols).count (i, j) = singularTerms test.fs trial.fs i j ∧
        ‖tripletSum sp.rows sp.cols (sp.data.map Fl.val) i j - exactSingular K G BT BR Q test.fs trial.fs i j F'‖ ≤
          ((1 + u) ^ (n + 3 + N) - 1) * absSingular K G BT BR Q test.fs trial.fs i j W := by
  refine ⟨_, h.part hb, fun i j => ?_⟩
  obtain ⟨h1, h2, -⟩ := h.triplets_apx hu hcast hF hG hN rfl i j
  generalize singularTriplets (R := Fl A) (T := Fl B) env.cast F K G BT BR Q famT famR trial.fs test.fs = l at h1 h2
  refine ⟨?_, ?_⟩
  · rw [← h1]
    simp only [Sparse.ofTriplets, List.zip_map']
  · rw [← tripletSum_map] at h2
    exact h2

/-- C73: the matrix that `assemble_singular` returns. If only values of absolute value at most `δ` count as small (the
code has `δ = 1e-10`), each entry differs from the value of the singular part in exact arithmetic by at most
`(1 + u) ^ k - 1` times the sum of the absolute values of all terms, where `k` includes the number of quadrature values
of the entry, plus `δ` times that number. -/
theorem C73_matrix (hu : 0 ≤ u)
    (h : SingularSetting (R := Fl A) (T := Fl B) env asm trial test famT famR F K G BT BR Q)
    (hcast : env.cast = castFl) (hF : Rounded A B F F' W n) (hb : 0 < asm.options.batchSize)
    (hG : ∀ c ∈ test.fs.grid.entityIter 2, ∀ c' ∈ test.fs.grid.entityIter 2, ∀ con : Connectivity,
      con.Possible c.entityType c'.entityType → ∀ p ∈ Q.singular c.entityType c'.entityType con,
        G.jdet c.localIndex p.1 ≠ 0 ∧ G.jdet c'.localIndex p.2.1 ≠ 0)
    (hN : ∀ tt ∈ test.fs.grid.entityTypes 2, ∀ rt ∈ test.fs.grid.entityTypes 2, ∀ con, con.Possible tt rt →
      (Q.singular tt rt con).length ≤ N)
    (hbT : ∀ c ∈ test.fs.grid.entityIter 2, ∀ N ∈ test.fs.globalDofs c.localIndex, N < test.fs.globalSize)
    (hbR : ∀ c ∈ trial.fs.grid.entityIter 2, ∀ N ∈ trial.fs.globalDofs c.localIndex, N < trial.fs.globalSize)
    (hf : FromAijRounded env) {δ : ℝ} (hδ : 0 ≤ δ) (hsmall : ∀ x, env.isBig x = false → ‖x.val‖ ≤ δ) :
    ∃ M : Csr (Fl B), (∀ out, AssembleSingular env asm trial test out ↔ out = some M) ∧
      M.shape = (test.fs.globalSize, trial.fs.globalSize) ∧ M.indptr.length = test.fs.globalSize + 1 ∧
      (∀ c ∈ M.indices, c < trial.fs.globalSize) ∧
      ∀ i j, i < test.fs.globalSize →
        ‖M.val.entry i j - exactSingular K G BT BR Q test.fs trial.fs i j F'‖ ≤
          ((1 + u) ^ (n + 3 + N + singularTerms test.fs trial.fs i j) - 1) *
            absSingular K G BT BR Q test.fs trial.fs i j W + singularTerms test.fs trial.fs i j * δ := by
  have hpart := h.part hb
  have hbd : ∀ x ∈ singularTriplets (R := Fl A) (T := Fl B) env.cast F K G BT BR Q famT famR trial.fs test.fs,
      x.1.1 < test.fs.globalSize ∧ x.1.2 < trial.fs.globalSize := by
    intro x hx
    unfold singularTriplets at hx
    simp only [List.mem_flatMap, List.mem_map, List.mem_filter, decide_eq_true_eq] at hx
    obtain ⟨k, hk, p, ⟨e, ⟨he, rfl⟩, rfl⟩, hx⟩ := hx
    rw [(foundPairs_perm h.testSpace.wf h.vertices).mem_iff] at he
    obtain ⟨⟨c, c'⟩, hp, rfl⟩ := List.mem_map.mp he
    obtain ⟨h1, h2, _⟩ := mem_adjacentPairs.mp hp
    obtain ⟨⟨i, hi, e1⟩, j, hj, e2⟩ := mem_localTriplets hx
    refine ⟨hbT c h1 _ ?_, hbR c' (by rw [h.sameGrid]; exact h2) _ ?_⟩
    · rw [FunctionSpace.globalDofs_eq, e1]; exact List.mem_map_of_mem hi
    · rw [FunctionSpace.globalDofs_eq, e2]; exact List.mem_map_of_mem hj
  have hapx := fun i j => h.triplets_apx (F' := F') (W := W) (n := n) (N := N) hu hcast hF hG hN rfl i j
  generalize singularTriplets (R := Fl A) (T := Fl B) env.cast F K G BT BR Q famT famR trial.fs test.fs = l
    at hpart hbd hapx
  have hS : ∀ i j, 0 ≤ absSingular K G BT BR Q test.fs trial.fs i j W := by
    intro i j
    have h0 : 0 ≤ tsum (mapTriplets (fun x : Fl B => ‖x.val‖) l) i j := by
      unfold tsum mapTriplets
      refine List.sum_nonneg fun x hx => ?_
      simp only [List.map_map, List.mem_map, Function.comp] at hx
      obtain ⟨y, -, rfl⟩ := hx
      split
      · exact norm_nonneg _
      · exact le_refl _
    have p := one_le_pow_u hu (n + 3 + N)
    exact nonneg_of_mul_nonneg_right (h0.trans (hapx i j).2.2) (by linarith)
  by_cases hbig : ∃ x ∈ (Sparse.ofTriplets (test.fs.globalSize, trial.fs.globalSize) l).data, env.isBig x = true
  · obtain ⟨m, m1, m2, m3, m4, m5⟩ := hf (test.fs.globalSize, trial.fs.globalSize)
      (l.map fun x => x.1.1) (l.map fun x => x.1.2) (l.map fun x => x.2) (by simp) (by simp)
      (by
        intro r hr
        obtain ⟨x, hx, rfl⟩ := List.mem_map.mp hr
        exact (hbd x hx).1)
      (by
        intro r hr
        obtain ⟨x, hx, rfl⟩ := List.mem_map.mp hr
        exact (hbd x hx).2)
    refine ⟨m, ?_, m2, m3, m4, ?_⟩
    · intro out
      unfold AssembleSingular
      simp only [hpart, exists_eq_left]
      rw [if_neg]
      · show out = env.fromAij (test.fs.globalSize, trial.fs.globalSize)
          (l.map fun x => x.1.1) (l.map fun x => x.1.2) (l.map fun x => x.2) ↔ _
        rw [m1]
      · obtain ⟨x, hx, hxb⟩ := hbig
        rintro (he | he)
        · rw [List.isEmpty_iff] at he
          rw [he] at hx
          simp at hx
        · have := List.mem_filter.mpr ⟨hx, hxb⟩
          rw [List.eq_nil_of_length_eq_zero he] at this
          simp at this
    · intro i j hi
      have e := m5 i j hi
      obtain ⟨h1, h2, h3⟩ := hapx i j
      rw [List.zip_map', tripletSum_map, tripletSum_map] at e
      change _ ≤ ((1 + u) ^ (l.map fun x => x.1).count (i, j) - 1) * _ at e
      rw [h1] at e
      have p := one_le_pow_u hu (singularTerms test.fs trial.fs i j)
      have e4 := e.trans (mul_le_mul_of_nonneg_left h3 (sub_nonneg.mpr p))
      have tri : ∀ x y z : 𝕜, ‖x - z‖ ≤ ‖x - y‖ + ‖y - z‖ := fun x y z => by
        simpa using norm_add_le (x - y) (y - z)
      refine (tri _ _ _).trans ((add_le_add e4 h2).trans ?_)
      have : 0 ≤ (singularTerms test.fs trial.fs i j : ℝ) * δ := by positivity
      refine le_trans (le_of_eq ?_) (le_add_of_nonneg_right this)
      rw [pow_add _ (n + 3 + N)]
      ring
  · refine ⟨⟨(test.fs.globalSize, trial.fs.globalSize), [],
      List.replicate (test.fs.globalSize + 1) 0, []⟩, ?_, rfl, by simp, by simp, ?_⟩
    · intro out
      unfold AssembleSingular
      simp only [hpart, exists_eq_left]
      rw [if_pos]
      · rfl
      · right
        rw [List.length_eq_zero_iff, List.filter_eq_nil_iff]
        intro x hx hxb
        exact hbig ⟨x, hx, hxb⟩
    · intro i j _
      obtain ⟨h1, h2, -⟩ := hapx i j
      have e : Csr.entry (Csr.val (⟨(test.fs.globalSize, trial.fs.globalSize), [],
          List.replicate (test.fs.globalSize + 1) 0, []⟩ : Csr (Fl B))) i j = (0 : 𝕜) := by simp [Csr.entry, Csr.val]
      rw [e, zero_sub, norm_neg]
      have hv : ‖tsum (mapTriplets Fl.val l) i j‖ ≤ singularTerms test.fs trial.fs i j * δ := by
        have := tsum_bound (δ := δ) (mapTriplets Fl.val l) (fun x hx => by
          obtain ⟨y, hy, rfl⟩ := List.mem_map.mp hx
          refine hsmall y.2 ?_
          by_contra hne
          exact hbig ⟨y.2, List.mem_map_of_mem hy, Bool.eq_true_of_not_eq_false hne⟩) i j
        rw [← h1, ← mapTriplets_fst Fl.val l, List.count_eq_countP, List.countP_map, List.countP_eq_length_filter]
        simpa [Function.comp_def, beq_eq_decide] using this
      have p := pow_le_pow_right₀ (by linarith : 1 ≤ 1 + u) (Nat.le_add_right (n + 3 + N) (singularTerms test.fs trial.fs i j))
      have := mul_le_mul_of_nonneg_right (sub_le_sub_right p 1) (hS i j)
      have t : ‖exactSingular K G BT BR Q test.fs trial.fs i j F'‖ ≤ ‖tsum (mapTriplets Fl.val l) i j‖ +
          ‖tsum (mapTriplets Fl.val l) i j - exactSingular K G BT BR Q test.fs trial.fs i j F'‖ := by
        simpa using norm_sub_le (tsum (mapTriplets Fl.val l) i j)
          (tsum (mapTriplets Fl.val l) i j - exactSingular K G BT BR Q test.fs trial.fs i j F')
      linarith

end

/-! ### C73: the hypotheses can be met, with 53 binary digits -/

namespace Examples

theorem env53_fromAij : FromAijRounded env53 := by
  intro shape rows cols data h1 h2 h3 h4
  obtain ⟨m, m1, m2, m3, m4, m5⟩ := csrOf_ok realEnv rfl shape rows cols data h1 h2 h3 h4
  refine ⟨m, m1, m2, m3, m4, fun i j hi => ?_⟩
  have e : ∀ l : List ℝ, l.map (Fl.val (A := real53)) = l := fun l => List.map_id l
  have e1 : (Csr.val (B := real53) m) = m := by
    unfold Csr.val
    rw [e]
  have h0 : 0 ≤ tripletSum rows cols (data.map fun x => ‖x.val‖) i j := by
    unfold tripletSum
    refine List.sum_nonneg fun x hx => ?_
    obtain ⟨y, hy, rfl⟩ := List.mem_map.mp hx
    split
    · obtain ⟨z, -, e⟩ := List.mem_map.mp (List.of_mem_zip hy).2
      rw [← e]
      exact norm_nonneg _
    · exact le_refl _
  have e2 : (data.map Fl.val : List ℝ) = data := e data
  rw [e1, e2, m5 i j hi, sub_self, norm_zero]
  exact mul_nonneg (sub_nonneg.mpr (one_le_pow_u (by positivity) _)) h0

/-- The singular part of the Laplace hypersingular operator on the octahedron, with the cut-off of the code. -/
example : ∃ M : Csr (Fl real53), (∀ out, AssembleSingular env53
      (Laplace.hypersingular (T := Fl real53) (R := Fl real53) (kernelOf laplaceGreen) smallOptions) space53 space53 out ↔
      out = some M) ∧
    ∀ i j, i < octFs.globalSize →
      ‖M.val.entry i j - exactSingular laplaceGreen realOct realP1 realP1 realRules octFs octFs i j curlCurlF‖ ≤
        ((1 + 2⁻¹ ^ 53) ^ (10 + 3 + 2 + singularTerms octFs octFs i j) - 1) *
          absSingular laplaceGreen realOct realP1 realP1 realRules octFs octFs i j curlCurlAbsF +
        singularTerms octFs octFs i j * (1/10000000000) := by
  have hp : SpacePair (R := Fl real53) (T := Fl real53) env53 smallOptions space53 space53 p1 p1 realOct realOct realP1
      realP1 realRules .triangle := realPair octFs_space.1 realOct (Or.inl octFs_space.2)
  have ho : OperatorWith (R := Fl real53) (T := Fl real53) castFl smallOptions laplaceGreen
      (Laplace.hypersingular (kernelOf laplaceGreen) smallOptions) curlCurlF :=
    .laplaceHypersingular (kernelOf_computes laplaceGreen _)
  have h := (hp.dense rfl ho.computes.1).same rfl
  have hb : ∀ c ∈ octFs.grid.entityIter 2, ∀ N ∈ octFs.globalDofs c.localIndex, N < octFs.globalSize := by
    intro c hc N hN
    rw [FunctionSpace.globalDofs_eq] at hN
    obtain ⟨k, hk, rfl⟩ := List.mem_map.mp hN
    obtain ⟨e, hlt⟩ := octFs_space.1.gdof hc k hk
    rw [e]
    exact hlt
  obtain ⟨M, m1, -, -, -, m5⟩ := C73_matrix (A := real53) (B := real53) (env := env53) (test := space53)
    (trial := space53) (N := 2) (δ := 1/10000000000) (by positivity) h.1 rfl .hypersingular (by decide)
    (fun _ _ _ _ _ _ _ _ => ⟨(Real.sqrt_pos.mpr (by norm_num)).ne', (Real.sqrt_pos.mpr (by norm_num)).ne'⟩) (fun _ _ _ _ _ _ => by simp [realRules]) hb hb env53_fromAij
    (by norm_num) (fun x hx => by
      have : ¬ (1/10000000000 < |x.val|) := of_decide_eq_false hx
      rw [Real.norm_eq_abs]
      exact not_lt.mp this)
  exact ⟨M, m1, m5⟩

end Examples

end Bempp
