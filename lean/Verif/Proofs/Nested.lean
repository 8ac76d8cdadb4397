import Verif.Spec.Nested
import Verif.Props.Linear
import Mathlib.Tactic.Ring
/-
The Galerkin sum in terms of the global basis functions.
-/
set_option linter.unusedSectionVars false

namespace Bempp

variable {R T : Type}

/-- The integrand is a bilinear form in the values and the two first derivatives of the basis functions. -/
def MathIntegrand.Bilinear [CommRing T] (F : MathIntegrand T) : Prop :=
  ∀ K TG RG, ∃ m : Nat → Nat → T, ∀ U V, F K U V TG RG =
    ((List.range 3).map fun p => ((List.range 3).map fun q => m p q * U p * V q).sum).sum

section
variable [Field T]

theorem slF_bilinear : MathIntegrand.Bilinear (slF (T := T)) := by
  intro K TG RG
  refine ⟨fun p q => if p = 0 ∧ q = 0 then K 0 else 0, fun U V => ?_⟩
  simp [slF, List.range_succ]

theorem dlF_bilinear : MathIntegrand.Bilinear (dlF (T := T)) := by
  intro K TG RG
  refine ⟨fun p q => if p = 0 ∧ q = 0 then K 1 * RG.normal 0 + K 2 * RG.normal 1 + K 3 * RG.normal 2 else 0,
    fun U V => ?_⟩
  simp [dlF, List.range_succ]

theorem adlF_bilinear : MathIntegrand.Bilinear (adlF (T := T)) := by
  intro K TG RG
  refine ⟨fun p q => if p = 0 ∧ q = 0 then -(K 1 * TG.normal 0 + K 2 * TG.normal 1 + K 3 * TG.normal 2) else 0,
    fun U V => ?_⟩
  simp [adlF, List.range_succ]

theorem normalNormalF_bilinear : MathIntegrand.Bilinear (normalNormalF (T := T)) := by
  intro K TG RG
  refine ⟨fun p q => if p = 0 ∧ q = 0 then
    K 0 * (RG.normal 0 * TG.normal 0 + RG.normal 1 * TG.normal 1 + RG.normal 2 * TG.normal 2) else 0,
    fun U V => ?_⟩
  simp [normalNormalF, List.range_succ]

theorem curlCurlF_bilinear : MathIntegrand.Bilinear (curlCurlF (T := T)) := by
  intro K TG RG
  let s : PointData T → Nat → Nat → T := fun G p i =>
    if p = 1 then G.jacobian (3 + i) else if p = 2 then -G.jacobian i else 0
  refine ⟨fun p q => K 0 * (s TG p 0 * s RG q 0 + s TG p 1 * s RG q 1 + s TG p 2 * s RG q 2) / TG.jdet / RG.jdet,
    fun U V => ?_⟩
  simp [curlCurlF, surfaceCurl, List.range_succ, s]
  ring

theorem MathIntegrand.Bilinear.combine {F F' : MathIntegrand T} (h : F.Bilinear) (h' : F'.Bilinear) (s : T) :
    MathIntegrand.Bilinear (fun K U V TG RG => F K U V TG RG + s * F' K U V TG RG) := by
  intro K TG RG
  obtain ⟨m, hm⟩ := h K TG RG
  obtain ⟨n, hn⟩ := h' K TG RG
  refine ⟨fun p q => m p q + s * n p q, fun U V => ?_⟩
  simp only [hm, hn, List.range_succ, List.range_zero, List.nil_append, List.cons_append, List.map_cons, List.map_nil,
    List.sum_cons, List.sum_nil]
  ring

theorem OperatorWith.bilinear [Field R] {cast : R → T} {o : Options} {K : MathKernel R T} {asm : Assembler R T}
    {F : MathIntegrand T} (h : OperatorWith cast o K asm F) : F.Bilinear := by
  cases h
  case laplaceSingleLayer => exact slF_bilinear
  case laplaceDoubleLayer => exact dlF_bilinear
  case laplaceAdjoint => exact adlF_bilinear
  case laplaceHypersingular => exact curlCurlF_bilinear
  case helmholtzSingleLayer => exact slF_bilinear
  case helmholtzDoubleLayer => exact dlF_bilinear
  case helmholtzAdjoint => exact adlF_bilinear
  case helmholtzHypersingular => exact curlCurlF_bilinear.combine normalNormalF_bilinear _

end

section
variable [Mul R] [Field T]

theorem list_sum_flatMap {α : Type} (l : List α) (f : α → List T) :
    (l.flatMap f).sum = (l.map fun a => (f a).sum).sum := by
  rw [List.flatMap_def, List.sum_flatten, List.map_map]
  rfl

/-- The quadrature value of a pair of cells is a sum of products of a coefficient with a test and a trial basis function at
some points; coefficients and points do not depend on the basis functions. -/
theorem cellPair_terms {F : MathIntegrand T} (hF : F.Bilinear) (cast : R → T) (K : MathKernel R T) (GT GR : Geometry R)
    (Q : Quadrature R) (test trial : FunctionSpace) (c c' : Entity) :
    ∃ L : List (T × (Nat × List R) × (Nat × List R)), (∀ τ ∈ L, τ.2.1.1 < 3 ∧ τ.2.2.1 < 3) ∧
      ∀ (BT BR : Basis R T) (a b : Nat), cellPairValue cast F K GT GR BT BR Q test trial c c' a b =
        (L.map fun τ => τ.1 * BT c.entityType a τ.2.1.1 τ.2.1.2 * BR c'.entityType b τ.2.2.1 τ.2.2.2).sum := by
  choose m hm using hF
  by_cases ht : test.grid.addr = trial.grid.addr ∧ c.Touches c'
  · refine ⟨(Q.singular c.entityType c'.entityType (connectivity c c')).flatMap fun p => (List.range 3).flatMap fun u =>
      (List.range 3).map fun v => (m (K (GT.coords c.localIndex p.1) (GR.coords c'.localIndex p.2.1))
        (GT.data cast c.localIndex p.1) (GR.data cast c'.localIndex p.2.1) u v *
        cast (p.2.2 * (GT.jdet c.localIndex p.1 * GR.jdet c'.localIndex p.2.1)), (u, p.1), (v, p.2.1)), ?_, ?_⟩
    · simp only [List.mem_flatMap, List.mem_map, List.mem_range]
      rintro τ ⟨p, -, u, hu, v, hv, rfl⟩
      exact ⟨hu, hv⟩
    · intro BT BR a b
      unfold cellPairValue
      rw [if_pos ht, singularValue_eq, List.map_flatMap, list_sum_flatMap]
      congr 1
      apply List.map_congr_left
      intro p _
      unfold singularTerm
      rw [hm]
      simp only [List.range_succ, List.range_zero, List.nil_append, List.cons_append, List.map_cons, List.map_nil,
        List.sum_cons, List.sum_nil, List.flatMap_cons, List.flatMap_nil, List.append_nil]
      ring
  · refine ⟨(Q.regular c.entityType).flatMap fun p => (Q.regular c'.entityType).flatMap fun q => (List.range 3).flatMap fun u =>
      (List.range 3).map fun v => (m (K (GT.coords c.localIndex p.1) (GR.coords c'.localIndex q.1))
        (GT.data cast c.localIndex p.1) (GR.data cast c'.localIndex q.1) u v *
        cast (q.2 * GR.jdet c'.localIndex q.1) * cast (p.2 * GT.jdet c.localIndex p.1), (u, p.1), (v, q.1)), ?_, ?_⟩
    · simp only [List.mem_flatMap, List.mem_map, List.mem_range]
      rintro τ ⟨p, -, q, -, u, hu, v, hv, rfl⟩
      exact ⟨hu, hv⟩
    · intro BT BR a b
      unfold cellPairValue
      rw [if_neg ht, regularValue_eq, List.map_flatMap, list_sum_flatMap]
      congr 1
      apply List.map_congr_left
      intro p _
      rw [List.map_flatMap, list_sum_flatMap]
      congr 1
      apply List.map_congr_left
      intro q _
      unfold regularTerm
      rw [hm]
      simp only [List.range_succ, List.range_zero, List.nil_append, List.cons_append, List.map_cons, List.map_nil,
        List.sum_cons, List.sum_nil, List.flatMap_cons, List.flatMap_nil, List.append_nil]
      ring

theorem sum_product {α β : Type} (l : List α) (m : List β) (f : α → T) (g : β → T) :
    (l.map f).sum * (m.map g).sum = (l.map fun a => (m.map fun b => f a * g b).sum).sum := by
  rw [← List.sum_map_mul_right]
  simp only [List.sum_map_mul_left]

/-- The inner part of the Galerkin sum, for a value that is a sum of products. -/
theorem inner_terms (td rd : List Nat) (L : List (T × (Nat × List R) × (Nat × List R))) (f g : Nat → Nat × List R → T)
    (i j : Nat) :
    ((td.zipIdx).map fun (ia : Nat × Nat) => ((rd.zipIdx).map fun (jb : Nat × Nat) =>
      if ia.1 = i ∧ jb.1 = j then (L.map fun τ => τ.1 * f ia.2 τ.2.1 * g jb.2 τ.2.2).sum else 0).sum).sum =
    (L.map fun τ => τ.1 * (td.zipIdx.map fun (ia : Nat × Nat) => if ia.1 = i then f ia.2 τ.2.1 else 0).sum *
      (rd.zipIdx.map fun (jb : Nat × Nat) => if jb.1 = j then g jb.2 τ.2.2 else 0).sum).sum := by
  have h1 : ∀ ia jb : Nat × Nat, (if ia.1 = i ∧ jb.1 = j then (L.map fun τ => τ.1 * f ia.2 τ.2.1 * g jb.2 τ.2.2).sum else 0) =
      (L.map fun τ => τ.1 * ((if ia.1 = i then f ia.2 τ.2.1 else 0) * (if jb.1 = j then g jb.2 τ.2.2 else 0))).sum := by
    intro ia jb
    by_cases h1 : ia.1 = i <;> by_cases h2 : jb.1 = j <;> simp [h1, h2, mul_assoc]
  simp only [h1]
  have h2 : ∀ ia : Nat × Nat, (rd.zipIdx.map fun jb => (L.map fun τ => τ.1 * ((if ia.1 = i then f ia.2 τ.2.1 else 0) *
      (if jb.1 = j then g jb.2 τ.2.2 else 0))).sum).sum = (L.map fun τ => τ.1 * ((if ia.1 = i then f ia.2 τ.2.1 else 0) *
      (rd.zipIdx.map fun (jb : Nat × Nat) => if jb.1 = j then g jb.2 τ.2.2 else 0).sum)).sum := by
    intro ia
    rw [sum_swap]
    simp only [List.sum_map_mul_left]
  simp only [h2]
  rw [sum_swap]
  simp only [List.sum_map_mul_left, List.sum_map_mul_right, mul_assoc]

/-- The Galerkin sum in terms of the global basis functions. -/
theorem doubleSum_terms {F : MathIntegrand T} (hF : F.Bilinear) (cast : R → T) (K : MathKernel R T) (GT GR : Geometry R)
    (Q : Quadrature R) (g g' : Grid) :
    ∃ L : Entity → Entity → List (T × (Nat × List R) × (Nat × List R)), (∀ c c', ∀ τ ∈ L c c', τ.2.1.1 < 3 ∧ τ.2.2.1 < 3) ∧
      ∀ (test trial : FunctionSpace) (BT BR : Basis R T), test.grid = g → trial.grid = g' → ∀ i j,
        doubleSum test trial (cellPairValue cast F K GT GR BT BR Q test trial) i j =
        ((g.entityIter 2).map fun c => ((g'.entityIter 2).map fun c' => ((L c c').map fun τ =>
          τ.1 * test.basisOn BT i c τ.2.1.1 τ.2.1.2 * trial.basisOn BR j c' τ.2.2.1 τ.2.2.2).sum).sum).sum := by
  have key : ∀ c c', ∃ L : List (T × (Nat × List R) × (Nat × List R)), (∀ τ ∈ L, τ.2.1.1 < 3 ∧ τ.2.2.1 < 3) ∧
      ∀ (test trial : FunctionSpace) (BT BR : Basis R T) (a b : Nat), test.grid = g → trial.grid = g' →
        cellPairValue cast F K GT GR BT BR Q test trial c c' a b =
        (L.map fun τ => τ.1 * BT c.entityType a τ.2.1.1 τ.2.1.2 * BR c'.entityType b τ.2.2.1 τ.2.2.2).sum := by
    intro c c'
    by_cases h : ∃ test trial : FunctionSpace, test.grid = g ∧ trial.grid = g'
    · obtain ⟨test, trial, h1, h2⟩ := h
      obtain ⟨L, hL, hv⟩ := cellPair_terms hF cast K GT GR Q test trial c c'
      refine ⟨L, hL, fun test' trial' BT BR a b h1' h2' => ?_⟩
      rw [← hv]
      unfold cellPairValue
      rw [h1, h2, h1', h2']
    · exact ⟨[], by simp, fun test trial _ _ _ _ h1 h2 => absurd ⟨test, trial, h1, h2⟩ h⟩
  choose L hL hv using key
  refine ⟨L, hL, ?_⟩
  rintro test trial BT BR rfl rfl i j
  unfold doubleSum FunctionSpace.basisOn
  congr 1
  apply List.map_congr_left
  intro c _
  congr 1
  apply List.map_congr_left
  intro c' _
  simp only [hv c c' test trial BT BR _ _ rfl rfl]
  exact inner_terms _ _ (L c c') (fun a p => BT c.entityType a p.1 p.2) (fun b p => BR c'.entityType b p.1 p.2) i j

/-- Two combinations under a sum. -/
theorem combine_terms {α : Type} (L : List α) (m : α → T) (f g : Nat → α → T) (p s : Nat → T) (n n' : Nat) :
    (L.map fun τ => m τ * ((List.range n).map fun k => p k * f k τ).sum * ((List.range n').map fun l => s l * g l τ).sum).sum =
    ((List.range n).map fun k => ((List.range n').map fun l => p k * s l * (L.map fun τ => m τ * f k τ * g l τ).sum).sum).sum := by
  have h : ∀ τ, m τ * ((List.range n).map fun k => p k * f k τ).sum * ((List.range n').map fun l => s l * g l τ).sum =
      ((List.range n).map fun k => ((List.range n').map fun l => p k * s l * (m τ * f k τ * g l τ)).sum).sum := by
    intro τ
    rw [mul_assoc, sum_product, ← List.sum_map_mul_left]
    simp only [← List.sum_map_mul_left]
    congr! 6
    ring
  simp only [h]
  rw [sum_swap]
  congr! 3
  rw [sum_swap]
  simp only [List.sum_map_mul_left]

end

end Bempp
