import Verif.Proofs.Operators
import Verif.Proofs.CellPair
import Verif.Spec.ExamplesAssembly
/-
C24: the operators read only data that exists.
-/
namespace Bempp
open Examples

variable {R T : Type}

theorem get2_shape {α : Type} {n0 n1 : Nat} {a : List (List α)} (h : Shape2 n0 n1 a) {i j : Nat}
    (hi : i < n0) (hj : j < n1) : ∃ x, get2 a i j = some x := by
  have hj' : j < a.length := by rw [h.1]; exact hj
  have hi' : i < a[j].length := by rw [h.2 _ (List.getElem_mem hj')]; exact hi
  exact ⟨a[j][i], by simp [get2, hj', hi']⟩

theorem get3_shape {α : Type} {n0 n1 n2 : Nat} {a : List (List (List α))} (h : Shape3 n0 n1 n2 a)
    {i j k : Nat} (hi : i < n0) (hj : j < n1) (hk : k < n2) : ∃ x, get3 a i j k = some x := by
  have hk' : k < a.length := by rw [h.1]; exact hk
  obtain ⟨x, hx⟩ := get2_shape (h.2 _ (List.getElem_mem hk')) hi hj
  exact ⟨x, by simp [get3, hk', hx]⟩

theorem get4_shape {α : Type} {n0 n1 n2 n3 : Nat} {a : List (List (List (List α)))}
    (h : Shape4 n0 n1 n2 n3 a) {i j k l : Nat} (hi : i < n0) (hj : j < n1) (hk : k < n2) (hl : l < n3) :
    ∃ x, get4 a i j k l = some x := by
  have hl' : l < a.length := by rw [h.1]; exact hl
  obtain ⟨x, hx⟩ := get3_shape (h.2 _ (List.getElem_mem hl')) hi hj hk
  exact ⟨x, by simp [get4, hl', hx]⟩

/-- Total functions that agree with successful reads. -/
theorem exists_total [Zero T] {n : Nat} {k : Nat → Option T} (h : ∀ i, i < n → ∃ x, k i = some x) :
    ∃ K : Nat → T, ∀ i, i < n → k i = some (K i) :=
  ⟨fun i => (k i).getD 0, fun i hi => by obtain ⟨x, hx⟩ := h i hi; simp [hx]⟩

theorem exists_pointData [Zero T] (cast : R → T) {n p : Nat} {g : CellGeom R} (h : g.Shaped n)
    (hp : p < n) : ∃ G : PointData T,
      (∀ i, i < 3 → (g.at cast p).point i = some (G.point i)) ∧
      (∀ i, i < 3 → (g.at cast p).normal i = some (G.normal i)) ∧
      (∀ i, i < 6 → (g.at cast p).jacobian i = some (G.jacobian i)) ∧
      (g.at cast p).jdet = some G.jdet := by
  obtain ⟨P, hP⟩ := exists_total (n := 3) (k := (g.at cast p).point) fun i hi => by
    obtain ⟨x, hx⟩ := get2_shape h.points hi hp
    exact ⟨cast x, by simp [CellGeom.at, hx]⟩
  obtain ⟨N, hN⟩ := exists_total (n := 3) (k := (g.at cast p).normal) fun i hi => by
    obtain ⟨x, hx⟩ := get2_shape h.normals hi hp
    exact ⟨cast x, by simp [CellGeom.at, hx]⟩
  obtain ⟨J, hJ⟩ := exists_total (n := 6) (k := (g.at cast p).jacobian) fun i hi => by
    obtain ⟨x, hx⟩ := get2_shape h.jacobians hi hp
    exact ⟨cast x, by simp [CellGeom.at, hx]⟩
  have hd : p < g.jdets.length := by rw [h.jdets]; exact hp
  exact ⟨⟨P, N, J, cast g.jdets[p]⟩, hP, hN, hJ, by simp [CellGeom.at, hd]⟩

variable [Zero T] [Add T] [Sub T] [Mul T] [Div T] [Neg T] [Mul R] [Neg R]

/-- **C24.** Take any operator that the public constructors return. The kernel writes as many components
as the kernel array has room for. If the kernel arrays and the tables of basis functions have the sizes
that the constructor chose (`derivSize` kernel components, the derivatives up to order `tableDerivs`)
and the geometry arrays have the sizes that the cell-pair assemblers allocate, then each read made by
the integrand, at any quadrature point and for any pair of basis functions, is inside its array. -/
theorem C24_reads_in_bounds (cast : R → T) (asm : Assembler R T) (h : IsOperator cast asm) :
    asm.kernel.evalType.comps = asm.derivSize ∧
    (∀ (npts testDim trialDim pt a b : Nat) (k : List (List T))
      (testTable trialTable : List (List (List (List T)))) (testGeom trialGeom : CellGeom R),
      Shape2 asm.derivSize npts k →
      Shape4 (numDerivs asm.tableDerivs) npts testDim 1 testTable →
      Shape4 (numDerivs asm.tableDerivs) npts trialDim 1 trialTable →
      testGeom.Shaped npts → trialGeom.Shaped npts → pt < npts → a < testDim → b < trialDim →
      (evaluateSingular cast asm.integrand testTable trialTable pt a b k testGeom trialGeom).isSome) ∧
    (∀ (nptsTest nptsTrial testDim trialDim pt qt a b : Nat) (k : List (List (List T)))
      (testTable trialTable : List (List (List (List T)))) (testGeom trialGeom : CellGeom R),
      Shape3 asm.derivSize nptsTest nptsTrial k →
      Shape4 (numDerivs asm.tableDerivs) nptsTest testDim 1 testTable →
      Shape4 (numDerivs asm.tableDerivs) nptsTrial trialDim 1 trialTable →
      testGeom.Shaped nptsTest → trialGeom.Shaped nptsTrial → pt < nptsTest → qt < nptsTrial →
      a < testDim → b < trialDim →
      (evaluateNonsingular cast asm.integrand testTable trialTable pt qt a b k testGeom
        trialGeom).isSome) := by
  obtain ⟨F, hF, hc⟩ := h.computes
  refine ⟨hc, ?_, ?_⟩
  · intro npts dt dr pt a b k tt rt tg rg hk htt hrt htg hrg hpt ha hb
    obtain ⟨K, hK⟩ := exists_total (n := asm.derivSize) (k := fun i => get2 k i pt) fun i hi =>
      get2_shape hk hi hpt
    obtain ⟨U, hU⟩ := exists_total (n := numDerivs asm.tableDerivs) (k := fun i => get4 tt i pt a 0)
      fun i hi => get4_shape htt hi hpt ha (by omega)
    obtain ⟨V, hV⟩ := exists_total (n := numDerivs asm.tableDerivs) (k := fun i => get4 rt i pt b 0)
      fun i hi => get4_shape hrt hi hpt hb (by omega)
    obtain ⟨TG, t1, t2, t3, t4⟩ := exists_pointData cast htg hpt
    obtain ⟨RG, r1, r2, r3, r4⟩ := exists_pointData cast hrg hpt
    unfold evaluateSingular
    rw [hF _ _ _ _ _ K U V TG RG hK hU hV t1 r1 t2 r2 t3 r3 t4 r4]
    rfl
  · intro nt nr dt dr pt qt a b k tt rt tg rg hk htt hrt htg hrg hpt hqt ha hb
    obtain ⟨K, hK⟩ := exists_total (n := asm.derivSize) (k := fun i => get3 k i pt qt) fun i hi =>
      get3_shape hk hi hpt hqt
    obtain ⟨U, hU⟩ := exists_total (n := numDerivs asm.tableDerivs) (k := fun i => get4 tt i pt a 0)
      fun i hi => get4_shape htt hi hpt ha (by omega)
    obtain ⟨V, hV⟩ := exists_total (n := numDerivs asm.tableDerivs) (k := fun i => get4 rt i qt b 0)
      fun i hi => get4_shape hrt hi hqt hb (by omega)
    obtain ⟨TG, t1, t2, t3, t4⟩ := exists_pointData cast htg hpt
    obtain ⟨RG, r1, r2, r3, r4⟩ := exists_pointData cast hrg hqt
    unfold evaluateNonsingular
    rw [hF _ _ _ _ _ K U V TG RG hK hU hV t1 r1 t2 r2 t3 r3 t4 r4]
    rfl

omit [Zero T] in
/-- What is read is what the operator means: on data of at least the chosen sizes the integrand of every
operator has the value of its mathematical formula. -/
theorem C24_operator_formulas (cast : R → T) (K : Kernel R T) (KH : R → Kernel R T) (w : R)
    (o : Options) :
    (Laplace.singleLayer K o).integrand.Computes slF 1 1 ∧
    (Laplace.doubleLayer K o).integrand.Computes dlF 4 1 ∧
    (Laplace.adjointDoubleLayer K o).integrand.Computes adlF 4 1 ∧
    (Laplace.hypersingular K o).integrand.Computes curlCurlF 4 3 ∧
    (Helmholtz.singleLayer KH w o).integrand.Computes slF 1 1 ∧
    (Helmholtz.doubleLayer KH w o).integrand.Computes dlF 4 1 ∧
    (Helmholtz.adjointDoubleLayer KH w o).integrand.Computes adlF 4 1 ∧
    (Helmholtz.hypersingular cast KH w o).integrand.Computes
      (fun K U V TG RG => curlCurlF K U V TG RG + cast (-(w * w)) * normalNormalF K U V TG RG) 4 3 :=
  ⟨singleLayer_computes, doubleLayer_computes, adjointDoubleLayer_computes, curlCurl_computes,
    singleLayer_computes, doubleLayer_computes, adjointDoubleLayer_computes,
    Integrand.sum_computes curlCurl_computes
      (Integrand.timesScalar_computes _ normalNormal_computes)⟩

/-- The hypotheses can be met: the Helmholtz hypersingular operator with arrays for 5 and 7 points. -/
example : ∃ v, evaluateNonsingular id
    (Helmholtz.hypersingular id (fun _ => kernelOf squareKernel) (3 : Rat) smallOptions).integrand
    (p1Basis.table .triangle 3 3 (List.replicate 5 [0, 0]))
    (p1Basis.table .triangle 3 3 (List.replicate 7 [0, 0])) 4 6 2 0 (zeros3 4 5 7)
    (CellGeom.zeros 5) (CellGeom.zeros 7) = some v := by
  rw [← Option.isSome_iff_exists]
  have tab : ∀ n, Shape4 3 n 3 1 (p1Basis.table .triangle 3 3 (List.replicate n [0, 0])) := by
    intro n
    refine ⟨rfl, ?_⟩
    intro c hc
    simp only [Basis.table, List.mem_singleton] at hc
    subst hc
    refine ⟨by simp, ?_⟩
    intro c hc
    obtain ⟨a, _, rfl⟩ := List.mem_map.mp hc
    refine ⟨by simp, ?_⟩
    intro d hd
    obtain ⟨x, _, rfl⟩ := List.mem_map.mp hd
    simp
  exact (C24_reads_in_bounds id _ (.helmholtzHypersingular (fun _ => kernelOf squareKernel) 3
    smallOptions)).2.2 5 7 3 3 4 6 2 0 _ _ _ _ _ (shape3_zeros 4 5 7) (tab 5) (tab 7)
    (CellGeom.zeros_shaped 5) (CellGeom.zeros_shaped 7) (by omega) (by omega) (by omega) (by omega)

end Bempp
