import Verif.Proofs.ConvergentRules
import Verif.Props.Green
import Verif.Props.Vertices
import Mathlib.Analysis.SpecialFunctions.Exp
/-
C76. With more and more quadrature points the assembled matrices converge to the Galerkin matrix.
-/
namespace Bempp
open MeasureTheory Filter Topology

section
variable {T : Type} [RCLike T]

/-! ### The integrands are continuous -/

/-- The formulas of the eight operators, with any factor in the Helmholtz hypersingular operator. -/
inductive OperatorFormula : MathIntegrand T → Prop
  | singleLayer : OperatorFormula slF
  | doubleLayer : OperatorFormula dlF
  | adjoint : OperatorFormula adlF
  | hypersingular : OperatorFormula curlCurlF
  | helmholtzHypersingular (cast : ℝ → T) (w : ℝ) : OperatorFormula (helmholtzHypF cast w)

theorem OperatorWith.formula {cast : ℝ → T} {o : Options} {K : MathKernel ℝ T} {asm : Assembler ℝ T}
    {F : MathIntegrand T} (ho : OperatorWith cast o K asm F) : OperatorFormula F := by
  cases ho <;> constructor

theorem OperatorFormula.continuous {F : MathIntegrand T} (ho : OperatorFormula F) {X : Type} [TopologicalSpace X] {D : Set X}
    {k u v : Nat → X → T} {tg rg : X → PointData T}
    (hk : ∀ i, i < 4 → ContinuousOn (k i) D) (hu : ∀ i, i < 3 → ContinuousOn (u i) D)
    (hv : ∀ i, i < 3 → ContinuousOn (v i) D)
    (htn : ∀ i, i < 3 → ContinuousOn (fun x => (tg x).normal i) D)
    (hrn : ∀ i, i < 3 → ContinuousOn (fun x => (rg x).normal i) D)
    (htj : ∀ i, i < 6 → ContinuousOn (fun x => (tg x).jacobian i) D)
    (hrj : ∀ i, i < 6 → ContinuousOn (fun x => (rg x).jacobian i) D)
    (htd : ContinuousOn (fun x => (tg x).jdet) D) (hrd : ContinuousOn (fun x => (rg x).jdet) D)
    (ht0 : ∀ x ∈ D, (tg x).jdet ≠ 0) (hr0 : ∀ x ∈ D, (rg x).jdet ≠ 0) :
    ContinuousOn (fun x => F (fun i => k i x) (fun i => u i x) (fun i => v i x) (tg x) (rg x)) D := by
  have k0 := hk 0 (by decide); have k1 := hk 1 (by decide); have k2 := hk 2 (by decide); have k3 := hk 3 (by decide)
  have u0 := hu 0 (by decide); have u1 := hu 1 (by decide); have u2 := hu 2 (by decide)
  have v0 := hv 0 (by decide); have v1 := hv 1 (by decide); have v2 := hv 2 (by decide)
  have a0 := htn 0 (by decide); have a1 := htn 1 (by decide); have a2 := htn 2 (by decide)
  have b0 := hrn 0 (by decide); have b1 := hrn 1 (by decide); have b2 := hrn 2 (by decide)
  have hsl : ContinuousOn (fun x => slF (fun i => k i x) (fun i => u i x) (fun i => v i x) (tg x) (rg x)) D :=
    (k0.mul u0).mul v0
  have hdl : ContinuousOn (fun x => dlF (fun i => k i x) (fun i => u i x) (fun i => v i x) (tg x) (rg x)) D :=
    ((((k1.mul b0).add (k2.mul b1)).add (k3.mul b2)).mul u0).mul v0
  have hadl : ContinuousOn (fun x => adlF (fun i => k i x) (fun i => u i x) (fun i => v i x) (tg x) (rg x)) D :=
    ((((k1.mul a0).add (k2.mul a1)).add (k3.mul a2)).neg.mul u0).mul v0
  have hcurl : ∀ i, i < 3 → ContinuousOn (fun x => surfaceCurl (tg x) (fun i => u i x) i) D := fun i hi =>
    ((htj (3 + i) (by omega)).mul u1).sub ((htj i (by omega)).mul u2)
  have hcurl' : ∀ i, i < 3 → ContinuousOn (fun x => surfaceCurl (rg x) (fun i => v i x) i) D := fun i hi =>
    ((hrj (3 + i) (by omega)).mul v1).sub ((hrj i (by omega)).mul v2)
  have hcc : ContinuousOn (fun x => curlCurlF (fun i => k i x) (fun i => u i x) (fun i => v i x) (tg x) (rg x)) D :=
    (((k0.mul ((((hcurl 0 (by decide)).mul (hcurl' 0 (by decide))).add
      ((hcurl 1 (by decide)).mul (hcurl' 1 (by decide)))).add
        ((hcurl 2 (by decide)).mul (hcurl' 2 (by decide))))).div htd ht0).div hrd hr0)
  have hnn : ContinuousOn (fun x => normalNormalF (fun i => k i x) (fun i => u i x) (fun i => v i x) (tg x) (rg x)) D :=
    ((k0.mul (((b0.mul a0).add (b1.mul a1)).add (b2.mul a2))).mul u0).mul v0
  cases ho with
  | singleLayer => exact hsl
  | doubleLayer => exact hdl
  | adjoint => exact hadl
  | hypersingular => exact hcc
  | helmholtzHypersingular cast w => exact hcc.add (continuousOn_const.mul hnn)

theorem coords_eq (G : Geometry ℝ) (c : Nat) (x : List ℝ) : G.coords c x = [G.point c x 0, G.point c x 1, G.point c x 2] := rfl

/-- The integrand of a pair of cells is continuous if the kernel is continuous on them. -/
theorem pairIntegrand_continuous_of {K : MathKernel ℝ T} {F : MathIntegrand T} (ho : OperatorFormula F) {GT GR : Geometry ℝ}
    {BT BR : Basis ℝ T} {t : CellType} {c c' a b dT dR : Nat} (hT : ContinuousCell GT t c) (hR : ContinuousCell GR t c')
    (hBT : ContinuousBasis BT t dT) (hBR : ContinuousBasis BR t dR) (ha : a < dT) (hb : b < dR)
    (hk : ∀ i, i < 4 → ContinuousOn (fun z : (ℝ × ℝ) × (ℝ × ℝ) =>
      K (GT.coords c (pointList z.1)) (GR.coords c' (pointList z.2)) i) (refCell t ×ˢ refCell t)) :
    ContinuousOn (fun z : (ℝ × ℝ) × (ℝ × ℝ) => pairIntegrand F K GT GR BT BR t c c' a b (pointList z.1) (pointList z.2))
      (refCell t ×ˢ refCell t) := by
  have m1 : Set.MapsTo (Prod.fst : (ℝ × ℝ) × (ℝ × ℝ) → ℝ × ℝ) (refCell t ×ˢ refCell t) (refCell t) := fun z hz => hz.1
  have m2 : Set.MapsTo (Prod.snd : (ℝ × ℝ) × (ℝ × ℝ) → ℝ × ℝ) (refCell t ×ˢ refCell t) (refCell t) := fun z hz => hz.2
  have left : ∀ {Y : Type} [TopologicalSpace Y] {f : ℝ × ℝ → Y}, ContinuousOn f (refCell t) →
      ContinuousOn (fun z : (ℝ × ℝ) × (ℝ × ℝ) => f z.1) (refCell t ×ˢ refCell t) :=
    fun h => h.comp continuousOn_fst m1
  have right : ∀ {Y : Type} [TopologicalSpace Y] {f : ℝ × ℝ → Y}, ContinuousOn f (refCell t) →
      ContinuousOn (fun z : (ℝ × ℝ) × (ℝ × ℝ) => f z.2) (refCell t ×ˢ refCell t) :=
    fun h => h.comp continuousOn_snd m2
  have of : ∀ {f : (ℝ × ℝ) × (ℝ × ℝ) → ℝ}, ContinuousOn f (refCell t ×ˢ refCell t) →
      ContinuousOn (fun z => ((f z : ℝ) : T)) (refCell t ×ˢ refCell t) :=
    fun h => RCLike.continuous_ofReal.comp_continuousOn h
  refine ((ho.continuous (k := fun i z => K (GT.coords c (pointList z.1)) (GR.coords c' (pointList z.2)) i)
    (u := fun i z => BT t a i (pointList z.1)) (v := fun i z => BR t b i (pointList z.2))
    (tg := fun z => GT.data RCLike.ofReal c (pointList z.1)) (rg := fun z => GR.data RCLike.ofReal c' (pointList z.2))
    hk (fun i hi => left (hBT a ha i hi)) (fun i hi => right (hBR b hb i hi)) (fun i hi => of (left (hT.normal i hi)))
    (fun i hi => of (right (hR.normal i hi))) (fun i hi => of (left (hT.jacobian i hi)))
    (fun i hi => of (right (hR.jacobian i hi))) (of (left hT.jdet)) (of (right hR.jdet)) ?_ ?_).mul
      (of (left hT.jdet))).mul (of (right hR.jdet))
  · intro z hz
    exact RCLike.ofReal_ne_zero.mpr (hT.jdet_ne z.1 hz.1)
  · intro z hz
    exact RCLike.ofReal_ne_zero.mpr (hR.jdet_ne z.2 hz.2)

/-- The coordinates of a pair of points depend continuously on the reference points. -/
theorem pair_points_continuous {GT GR : Geometry ℝ} {t : CellType} {c c' : Nat} (hT : ContinuousCell GT t c)
    (hR : ContinuousCell GR t c') : ContinuousOn (fun z : (ℝ × ℝ) × (ℝ × ℝ) =>
      ((GT.point c (pointList z.1) 0, GT.point c (pointList z.1) 1, GT.point c (pointList z.1) 2),
        (GR.point c' (pointList z.2) 0, GR.point c' (pointList z.2) 1, GR.point c' (pointList z.2) 2)))
      (refCell t ×ˢ refCell t) := by
  have m1 : Set.MapsTo (Prod.fst : (ℝ × ℝ) × (ℝ × ℝ) → ℝ × ℝ) (refCell t ×ˢ refCell t) (refCell t) := fun z hz => hz.1
  have m2 : Set.MapsTo (Prod.snd : (ℝ × ℝ) × (ℝ × ℝ) → ℝ × ℝ) (refCell t ×ˢ refCell t) (refCell t) := fun z hz => hz.2
  have left : ∀ {f : ℝ × ℝ → ℝ}, ContinuousOn f (refCell t) →
      ContinuousOn (fun z : (ℝ × ℝ) × (ℝ × ℝ) => f z.1) (refCell t ×ˢ refCell t) :=
    fun h => h.comp continuousOn_fst m1
  have right : ∀ {f : ℝ × ℝ → ℝ}, ContinuousOn f (refCell t) →
      ContinuousOn (fun z : (ℝ × ℝ) × (ℝ × ℝ) => f z.2) (refCell t ×ˢ refCell t) :=
    fun h => h.comp continuousOn_snd m2
  exact ((left (hT.point 0 (by decide))).prodMk
      ((left (hT.point 1 (by decide))).prodMk (left (hT.point 2 (by decide))))).prodMk
    ((right (hR.point 0 (by decide))).prodMk
      ((right (hR.point 1 (by decide))).prodMk (right (hR.point 2 (by decide)))))

/-- The kernel on a pair of cells. -/
theorem kernel_pair_continuous {K : MathKernel ℝ T} {i : Nat} {D : Set ((ℝ × ℝ × ℝ) × (ℝ × ℝ × ℝ))}
    (hK : ContinuousOn (fun z : (ℝ × ℝ × ℝ) × (ℝ × ℝ × ℝ) =>
      K [z.1.1, z.1.2.1, z.1.2.2] [z.2.1, z.2.2.1, z.2.2.2] i) D) {GT GR : Geometry ℝ} {t : CellType} {c c' : Nat}
    (hT : ContinuousCell GT t c) (hR : ContinuousCell GR t c')
    (hD : ∀ x ∈ refCell t, ∀ y ∈ refCell t,
      ((GT.point c (pointList x) 0, GT.point c (pointList x) 1, GT.point c (pointList x) 2),
        (GR.point c' (pointList y) 0, GR.point c' (pointList y) 1, GR.point c' (pointList y) 2)) ∈ D) :
    ContinuousOn (fun z : (ℝ × ℝ) × (ℝ × ℝ) =>
      K (GT.coords c (pointList z.1)) (GR.coords c' (pointList z.2)) i) (refCell t ×ˢ refCell t) :=
  hK.comp (pair_points_continuous hT hR) fun z hz => hD z.1 hz.1 z.2 hz.2

/-- The integrand of a pair of disjoint cells is continuous. -/
theorem pairIntegrand_continuous {K : MathKernel ℝ T} {F : MathIntegrand T} (ho : OperatorFormula F) (hK : ContinuousKernel K) {GT GR : Geometry ℝ}
    {BT BR : Basis ℝ T} {t : CellType} {c c' a b dT dR : Nat} (hT : ContinuousCell GT t c) (hR : ContinuousCell GR t c')
    (hBT : ContinuousBasis BT t dT) (hBR : ContinuousBasis BR t dR) (ha : a < dT) (hb : b < dR)
    (hd : DisjointCells GT GR t c c') :
    ContinuousOn (fun z : (ℝ × ℝ) × (ℝ × ℝ) => pairIntegrand F K GT GR BT BR t c c' a b (pointList z.1) (pointList z.2))
      (refCell t ×ˢ refCell t) := by
  refine pairIntegrand_continuous_of ho hT hR hBT hBR ha hb fun i hi => kernel_pair_continuous (hK i hi) hT hR ?_
  intro x hx y hy e
  refine hd x hx y hy ?_
  simp only [Prod.mk.injEq] at e
  rw [coords_eq, coords_eq, e.1, e.2.1, e.2.2]

/-! ### Values of cell pairs -/

theorem regularValue_ruleSum {cast : ℝ → T} (hc : ∀ x, cast x = (x : T)) (F : MathIntegrand T) (K : MathKernel ℝ T)
    (GT GR : Geometry ℝ) (BT BR : Basis ℝ T) (Q : Quadrature ℝ) (t : CellType) (c c' a b : Nat) :
    regularValue cast F K GT GR BT BR Q t t c c' a b =
      ruleSum (Q.regular t) fun x => ruleSum (Q.regular t) fun y => pairIntegrand F K GT GR BT BR t c c' a b x y := by
  have hc' : cast = RCLike.ofReal := funext hc
  subst hc'
  rw [regularValue_eq]
  unfold ruleSum
  congr 1
  apply List.map_congr_left
  intro p _
  rw [← List.sum_map_mul_left]
  congr 1
  apply List.map_congr_left
  intro q _
  unfold regularTerm pairIntegrand
  push_cast
  ring

theorem singularValue_pairs {cast : ℝ → T} (hc : ∀ x, cast x = (x : T)) (F : MathIntegrand T) (K : MathKernel ℝ T)
    (GT GR : Geometry ℝ) (BT BR : Basis ℝ T) (Q : Quadrature ℝ) (t : CellType) (con : Connectivity) (c c' a b : Nat) :
    singularValue cast F K GT GR BT BR Q t t con c c' a b =
      ((Q.singular t t con).map fun p => ((p.2.2 : ℝ) : T) * pairIntegrand F K GT GR BT BR t c c' a b p.1 p.2.1).sum := by
  have hc' : cast = RCLike.ofReal := funext hc
  subst hc'
  rw [singularValue_eq]
  congr 1
  apply List.map_congr_left
  intro p _
  unfold singularTerm pairIntegrand
  push_cast
  ring

theorem tendsto_list_sum {α : Type} (l : List α) {f : Nat → α → T} {g : α → T}
    (h : ∀ x ∈ l, Tendsto (fun n => f n x) atTop (𝓝 (g x))) :
    Tendsto (fun n => (l.map (f n)).sum) atTop (𝓝 (l.map g).sum) := by
  induction l with
  | nil => simp
  | cons a l ih =>
    simp only [List.map_cons, List.sum_cons]
    exact (h a List.mem_cons_self).add (ih fun x hx => h x (List.mem_cons_of_mem _ hx))

/-- The exact values of the quadrature sums converge. -/
theorem doubleSum_tendsto {cast : ℝ → T} {Q : Nat → Quadrature ℝ} {test trial : FunctionSpace}
    {famT famR : CellType → ElementDofs} {F : MathIntegrand T} {K : MathKernel ℝ T}
    {GT GR : Geometry ℝ} {BT BR : Basis ℝ T} {t : CellType} (hcast : ∀ x, cast x = (x : T))
    (hsT : SerialSpace test famT) (hsR : SerialSpace trial famR)
    (htT : test.grid.entityTypes 2 = [t]) (htR : trial.grid.entityTypes 2 = [t])
    (ho : OperatorFormula F) (hK : ContinuousKernel K)
    (hT : ∀ c ∈ test.grid.entityIter 2, ContinuousCell GT t c.localIndex)
    (hR : ∀ c ∈ trial.grid.entityIter 2, ContinuousCell GR t c.localIndex)
    (hBT : ContinuousBasis BT t (famT t).dim) (hBR : ContinuousBasis BR t (famR t).dim)
    (hd : ∀ c ∈ test.grid.entityIter 2, ∀ c' ∈ trial.grid.entityIter 2,
      ¬ (test.grid.addr = trial.grid.addr ∧ c.Touches c') → DisjointCells GT GR t c.localIndex c'.localIndex)
    (hreg : RulesConverge (refCell t) fun n => (Q n).regular t)
    (hsing : ∀ c ∈ test.grid.entityIter 2, ∀ c' ∈ trial.grid.entityIter 2,
      test.grid.addr = trial.grid.addr → c.Touches c' → ∀ a b, a < (famT t).dim → b < (famR t).dim →
      PairRulesConverge (refCell t) (fun n => (Q n).singular t t (connectivity c c'))
        (pairIntegrand F K GT GR BT BR t c.localIndex c'.localIndex a b)) (i j : Nat) :
    Tendsto (fun n => doubleSum test trial (cellPairValue cast F K GT GR BT BR (Q n) test trial) i j) atTop
      (𝓝 (doubleSum test trial (pairIntegral F K GT GR BT BR t) i j)) := by
  unfold doubleSum
  refine tendsto_list_sum _ fun c hc => tendsto_list_sum _ fun c' hc' => tendsto_list_sum _ fun ia hia =>
    tendsto_list_sum _ fun jb hjb => ?_
  have htT : c.entityType = t := by
    have := hsT.wf.types c hc
    rw [htT] at this
    simpa using this
  have htR : c'.entityType = t := by
    have := hsR.wf.types c' hc'
    rw [htR] at this
    simpa using this
  have ha : ia.2 < (famT t).dim := by
    obtain ⟨cd, k1, k2, k3, _⟩ := hsT.cell hc
    rw [← htT, ← k3]
    have := List.snd_lt_of_mem_zipIdx hia
    have e : ((test.cellDofs c.localIndex).getD []) = cd := by
      rw [cellDofs_eq]; exact k2
    rw [e] at this
    simpa using this
  have hb' : jb.2 < (famR t).dim := by
    obtain ⟨cd, k1, k2, k3, _⟩ := hsR.cell hc'
    rw [← htR, ← k3]
    have := List.snd_lt_of_mem_zipIdx hjb
    have e : ((trial.cellDofs c'.localIndex).getD []) = cd := by
      rw [cellDofs_eq]; exact k2
    rw [e] at this
    simpa using this
  split
  · unfold cellPairValue
    rw [htT, htR]
    split
    · rename_i hs
      simp only [singularValue_pairs hcast]
      exact hsing c hc c' hc' hs.1 hs.2 _ _ ha hb'
    · rename_i hs
      simp only [regularValue_ruleSum hcast]
      exact hreg.product (refCell_isCompact t)
        (pairIntegrand_continuous ho hK (hT c hc) (hR c' hc') hBT hBR ha hb' (hd c hc c' hc' hs))
  · exact tendsto_const_nhds

/-! ### C76 -/

/-- **C76.** The user assembles an operator again and again, with more and more quadrature points (options `o n`, rules
`Q n`). If the regular rules converge for continuous functions, and the singular rules for the integrands of touching
cells, then every entry of the matrices converges to the double sum of the integrals over the cells. -/
theorem C76_convergence {env : Env ℝ T} {asm : Nat → Assembler ℝ T} {o : Nat → Options} {Q : Nat → Quadrature ℝ}
    {trial test : Space ℝ T} {famT famR : CellType → ElementDofs} {F : MathIntegrand T} {K : MathKernel ℝ T}
    {GT GR : Geometry ℝ} {BT BR : Basis ℝ T} {t : CellType} (hcast : ∀ x, env.cast x = (x : T))
    (h : ∀ n, SpacePair env (o n) trial test famT famR GT GR BT BR (Q n) t)
    (ho : ∀ n, OperatorWith env.cast (o n) K (asm n) F) (hb : ∀ n, 0 < (o n).batchSize)
    (hK : ContinuousKernel K)
    (hT : ∀ c ∈ test.fs.grid.entityIter 2, ContinuousCell GT t c.localIndex)
    (hR : ∀ c ∈ trial.fs.grid.entityIter 2, ContinuousCell GR t c.localIndex)
    (hBT : ContinuousBasis BT t (famT t).dim) (hBR : ContinuousBasis BR t (famR t).dim)
    (hd : ∀ c ∈ test.fs.grid.entityIter 2, ∀ c' ∈ trial.fs.grid.entityIter 2,
      ¬ (test.fs.grid.addr = trial.fs.grid.addr ∧ c.Touches c') → DisjointCells GT GR t c.localIndex c'.localIndex)
    (hreg : RulesConverge (refCell t) fun n => (Q n).regular t)
    (hsing : ∀ c ∈ test.fs.grid.entityIter 2, ∀ c' ∈ trial.fs.grid.entityIter 2,
      test.fs.grid.addr = trial.fs.grid.addr → c.Touches c' → ∀ a b, a < (famT t).dim → b < (famR t).dim →
      PairRulesConverge (refCell t) (fun n => (Q n).singular t t (connectivity c c'))
        (pairIntegrand F K GT GR BT BR t c.localIndex c'.localIndex a b)) :
    ∃ M : Nat → List T, (∀ n out, Assemble env (asm n) trial test out ↔ out = some (M n)) ∧
      ∀ i j, i < test.fs.globalSize → j < trial.fs.globalSize →
        Tendsto (fun n => (M n).getD (i + test.fs.globalSize * j) 0) atTop
          (𝓝 (doubleSum test.fs trial.fs (pairIntegral F K GT GR BT BR t) i j)) := by
  choose M h1 h2 h3 using fun n => C14_operators (h n) (ho n) (hb n)
  refine ⟨M, h1, fun i j hi hj => ?_⟩
  have e : ∀ n, (M n).getD (i + test.fs.globalSize * j) 0 =
      doubleSum test.fs trial.fs (cellPairValue env.cast F K GT GR BT BR (Q n) test.fs trial.fs) i j := by
    intro n
    rw [List.getD_eq_getElem?_getD, h3 n i j hi hj, Option.getD_some]
  simp only [e]
  exact doubleSum_tendsto hcast (h 0).testSpace (h 0).trialSpace (h 0).testType (h 0).trialType (ho 0).formula hK hT hR
    hBT hBR hd hreg hsing i j

end

/-! ### The Green's functions -/

theorem pointDist_three (z : (ℝ × ℝ × ℝ) × (ℝ × ℝ × ℝ)) :
    pointDist [z.1.1, z.1.2.1, z.1.2.2] [z.2.1, z.2.2.1, z.2.2.2] =
      Real.sqrt ((z.2.1 - z.1.1) ^ 2 + (z.2.2.1 - z.1.2.1) ^ 2 + (z.2.2.2 - z.1.2.2) ^ 2) := by
  rw [sub_sq_comm z.2.1, sub_sq_comm z.2.2.1, sub_sq_comm z.2.2.2]
  rfl

theorem pointDist_three_ne {z : (ℝ × ℝ × ℝ) × (ℝ × ℝ × ℝ)} (h : z.1 ≠ z.2) :
    pointDist [z.1.1, z.1.2.1, z.1.2.2] [z.2.1, z.2.2.1, z.2.2.2] ≠ 0 := by
  rw [pointDist_three]
  intro e
  rw [Real.sqrt_eq_zero (by positivity)] at e
  apply h
  have h1 := sq_nonneg (z.2.1 - z.1.1)
  have h2 := sq_nonneg (z.2.2.1 - z.1.2.1)
  have h3 := sq_nonneg (z.2.2.2 - z.1.2.2)
  have e1 : (z.2.1 - z.1.1) ^ 2 = 0 := by linarith
  have e2 : (z.2.2.1 - z.1.2.1) ^ 2 = 0 := by linarith
  have e3 : (z.2.2.2 - z.1.2.2) ^ 2 = 0 := by linarith
  ext
  · have := pow_eq_zero_iff (two_ne_zero) |>.mp e1; linarith
  · have := pow_eq_zero_iff (two_ne_zero) |>.mp e2; linarith
  · have := pow_eq_zero_iff (two_ne_zero) |>.mp e3; linarith

theorem pointDist_continuous : Continuous fun z : (ℝ × ℝ × ℝ) × (ℝ × ℝ × ℝ) =>
    pointDist [z.1.1, z.1.2.1, z.1.2.2] [z.2.1, z.2.2.1, z.2.2.2] := by
  simp only [pointDist_three]
  fun_prop

theorem pointDiff_continuous (i : Nat) : Continuous fun z : (ℝ × ℝ × ℝ) × (ℝ × ℝ × ℝ) =>
    pointDiff [z.1.1, z.1.2.1, z.1.2.2] [z.2.1, z.2.2.1, z.2.2.2] i := by
  unfold pointDiff
  match i with
  | 0 => simp only [List.getD_cons_zero]; fun_prop
  | 1 => simp only [List.getD_cons_zero, List.getD_cons_succ]; fun_prop
  | 2 => simp only [List.getD_cons_zero, List.getD_cons_succ]; fun_prop
  | _ + 3 => simp only [List.getD_cons_succ, List.getD_nil]; fun_prop

theorem laplaceGreen_continuous : ContinuousKernel laplaceGreen := by
  have hpi := Real.pi_pos.ne'
  intro i _
  match i with
  | 0 =>
    refine ContinuousOn.div continuousOn_const (continuousOn_const.mul pointDist_continuous.continuousOn) ?_
    intro z hz
    exact mul_ne_zero (mul_ne_zero (by norm_num) hpi) (pointDist_three_ne hz)
  | j + 1 =>
    refine ContinuousOn.div (pointDiff_continuous j).continuousOn
      (continuousOn_const.mul (pointDist_continuous.continuousOn.pow 3)) ?_
    intro z hz
    exact mul_ne_zero (mul_ne_zero (by norm_num) hpi) (pow_ne_zero _ (pointDist_three_ne hz))

theorem laplaceGreenC_continuous : ContinuousKernel laplaceGreenC := fun i hi =>
  Complex.continuous_ofReal.comp_continuousOn (laplaceGreen_continuous i hi)

theorem helmholtzGreen_continuous (w : ℝ) : ContinuousKernel (helmholtzGreen w) := by
  have hpi : (Real.pi : ℂ) ≠ 0 := by exact_mod_cast Real.pi_pos.ne'
  have hr : Continuous fun z : (ℝ × ℝ × ℝ) × (ℝ × ℝ × ℝ) =>
      ((pointDist [z.1.1, z.1.2.1, z.1.2.2] [z.2.1, z.2.2.1, z.2.2.2] : ℝ) : ℂ) :=
    Complex.continuous_ofReal.comp pointDist_continuous
  have hne : ∀ z ∈ {z : (ℝ × ℝ × ℝ) × (ℝ × ℝ × ℝ) | z.1 ≠ z.2},
      ((pointDist [z.1.1, z.1.2.1, z.1.2.2] [z.2.1, z.2.2.1, z.2.2.2] : ℝ) : ℂ) ≠ 0 := by
    intro z hz
    exact_mod_cast pointDist_three_ne hz
  have he := Complex.continuous_exp.comp (continuous_const (y := Complex.I * (w : ℂ)) |>.mul hr)
  intro i _
  match i with
  | 0 =>
    refine ContinuousOn.div he.continuousOn (continuousOn_const.mul hr.continuousOn) ?_
    intro z hz
    exact mul_ne_zero (mul_ne_zero (by norm_num) hpi) (hne z hz)
  | j + 1 =>
    refine ContinuousOn.div (((continuous_const.sub (continuous_const.mul hr)).mul he).mul
      (Complex.continuous_ofReal.comp (pointDiff_continuous j))).continuousOn
      (continuousOn_const.mul (hr.continuousOn.pow 3)) ?_
    intro z hz
    exact mul_ne_zero (mul_ne_zero (by norm_num) hpi) (pow_ne_zero _ (hne z hz))

/-! ### Surfaces given by vertices -/

/-- The shape functions and their derivatives are continuous. -/
structure ShapeFunctions.Continuous (N : ShapeFunctions) : Prop where
  value : ∀ k, _root_.Continuous fun z => N.value k (pointList z)
  deriv : ∀ j k, _root_.Continuous fun z => N.deriv j k (pointList z)

theorem triangleFunctions_continuous : triangleFunctions.Continuous where
  value k := by
    match k with
    | 0 => simp only [triangleFunctions, pointList, List.getD_cons_zero, List.getD_cons_succ]; fun_prop
    | 1 => simp only [triangleFunctions, pointList, List.getD_cons_zero]; fun_prop
    | _ + 2 => simp only [triangleFunctions, pointList, List.getD_cons_zero, List.getD_cons_succ]; fun_prop
  deriv j k := by
    match k, j with
    | 0, _ => exact continuous_const
    | 1, 0 => exact continuous_const
    | 1, _ + 1 => exact continuous_const
    | _ + 2, 0 => exact continuous_const
    | _ + 2, _ + 1 => exact continuous_const

theorem quadrilateralFunctions_continuous : quadrilateralFunctions.Continuous where
  value k := by
    simp only [quadrilateralFunctions, pointList, List.getD_cons_zero, List.getD_cons_succ]
    split <;> split <;> fun_prop
  deriv j k := by
    simp only [quadrilateralFunctions, pointList, List.getD_cons_zero, List.getD_cons_succ]
    split <;> split <;> split <;> fun_prop

theorem continuous_list_sum {X α : Type} [TopologicalSpace X] (l : List α) {f : α → X → ℝ}
    (h : ∀ a ∈ l, Continuous (f a)) : Continuous fun x => (l.map fun a => f a x).sum := by
  induction l with
  | nil => simpa using continuous_const
  | cons a l ih =>
    simp only [List.map_cons, List.sum_cons]
    exact (h a List.mem_cons_self).add (ih fun b hb => h b (List.mem_cons_of_mem _ hb))

/-- A cell that is not degenerate is a continuous cell. -/
theorem continuousCell_vertices {N : ShapeFunctions} (hN : N.Continuous) (V : Nat → Nat → Nat → ℝ) (t : CellType)
    (c : Nat) (hne : ∀ z ∈ refCell t, (vertexGeometry N V).jdet c (pointList z) ≠ 0) :
    ContinuousCell (vertexGeometry N V) t c := by
  have ht : ∀ j i, Continuous fun z => ((List.range N.n).map fun k => N.deriv j k (pointList z) * V c k i).sum :=
    fun j i => continuous_list_sum _ fun k _ => (hN.deriv j k).mul continuous_const
  have hc : ∀ i, Continuous fun z =>
      cross3 (fun i => ((List.range N.n).map fun k => N.deriv 0 k (pointList z) * V c k i).sum)
        (fun i => ((List.range N.n).map fun k => N.deriv 1 k (pointList z) * V c k i).sum) i := by
    intro i
    match i with
    | 0 => exact ((ht 0 1).mul (ht 1 2)).sub ((ht 0 2).mul (ht 1 1))
    | 1 => exact ((ht 0 2).mul (ht 1 0)).sub ((ht 0 0).mul (ht 1 2))
    | _ + 2 => exact ((ht 0 0).mul (ht 1 1)).sub ((ht 0 1).mul (ht 1 0))
  have hd : Continuous fun z => (vertexGeometry N V).jdet c (pointList z) :=
    Real.continuous_sqrt.comp ((((hc 0).mul (hc 0)).add ((hc 1).mul (hc 1))).add ((hc 2).mul (hc 2)))
  exact {
    point := fun i _ => (continuous_list_sum _ fun k _ => (hN.value k).mul continuous_const).continuousOn
    normal := fun i _ => (hc i).continuousOn.div hd.continuousOn hne
    jacobian := fun i _ => (ht (i / 3) (i % 3)).continuousOn
    jdet := hd.continuousOn
    jdet_ne := hne }

section
variable {asmR : Nat → Assembler ℝ ℝ} {asmC : Nat → Assembler ℝ ℂ} {o : Nat → Options} {Q : Nat → Quadrature ℝ}
  {famT famR : CellType → ElementDofs} {NT NR : ShapeFunctions} {VT VR : Nat → Nat → Nat → ℝ} {t : CellType}

/-- **C76** for the Laplace operators on surfaces of flat triangles or bilinear quadrilaterals: what is asked of the
surfaces is that no cell is degenerate and that cells which do not touch each other are disjoint. -/
theorem C76_laplace {env : Env ℝ ℝ} {trial test : Space ℝ ℝ} {F : MathIntegrand ℝ} {BT BR : Basis ℝ ℝ}
    (hcast : env.cast = id)
    (h : ∀ n, SpacePair env (o n) trial test famT famR (vertexGeometry NT VT) (vertexGeometry NR VR) BT BR (Q n) t)
    (ho : ∀ n, OperatorWith env.cast (o n) laplaceGreen (asmR n) F) (hb : ∀ n, 0 < (o n).batchSize)
    (hNT : NT = triangleFunctions ∨ NT = quadrilateralFunctions)
    (hNR : NR = triangleFunctions ∨ NR = quadrilateralFunctions)
    (hT : ∀ c ∈ test.fs.grid.entityIter 2, ∀ z ∈ refCell t, (vertexGeometry NT VT).jdet c.localIndex (pointList z) ≠ 0)
    (hR : ∀ c ∈ trial.fs.grid.entityIter 2, ∀ z ∈ refCell t, (vertexGeometry NR VR).jdet c.localIndex (pointList z) ≠ 0)
    (hBT : ContinuousBasis BT t (famT t).dim) (hBR : ContinuousBasis BR t (famR t).dim)
    (hd : ∀ c ∈ test.fs.grid.entityIter 2, ∀ c' ∈ trial.fs.grid.entityIter 2,
      ¬ (test.fs.grid.addr = trial.fs.grid.addr ∧ c.Touches c') →
        DisjointCells (vertexGeometry NT VT) (vertexGeometry NR VR) t c.localIndex c'.localIndex)
    (hreg : RulesConverge (refCell t) fun n => (Q n).regular t)
    (hsing : ∀ c ∈ test.fs.grid.entityIter 2, ∀ c' ∈ trial.fs.grid.entityIter 2,
      test.fs.grid.addr = trial.fs.grid.addr → c.Touches c' → ∀ a b, a < (famT t).dim → b < (famR t).dim →
      PairRulesConverge (refCell t) (fun n => (Q n).singular t t (connectivity c c'))
        (pairIntegrand F laplaceGreen (vertexGeometry NT VT) (vertexGeometry NR VR) BT BR t c.localIndex c'.localIndex a b)) :
    ∃ M : Nat → List ℝ, (∀ n out, Assemble env (asmR n) trial test out ↔ out = some (M n)) ∧
      ∀ i j, i < test.fs.globalSize → j < trial.fs.globalSize →
        Tendsto (fun n => (M n).getD (i + test.fs.globalSize * j) 0) atTop
          (𝓝 (doubleSum test.fs trial.fs
            (pairIntegral F laplaceGreen (vertexGeometry NT VT) (vertexGeometry NR VR) BT BR t) i j)) := by
  have hNT' : NT.Continuous := by
    rcases hNT with rfl | rfl
    · exact triangleFunctions_continuous
    · exact quadrilateralFunctions_continuous
  have hNR' : NR.Continuous := by
    rcases hNR with rfl | rfl
    · exact triangleFunctions_continuous
    · exact quadrilateralFunctions_continuous
  exact C76_convergence (fun x => by rw [hcast]; rfl) h ho hb laplaceGreen_continuous
    (fun c hc => continuousCell_vertices hNT' _ _ _ (hT c hc)) (fun c hc => continuousCell_vertices hNR' _ _ _ (hR c hc))
    hBT hBR hd hreg hsing

/-- **C76** for the Helmholtz operators. -/
theorem C76_helmholtz {env : Env ℝ ℂ} {trial test : Space ℝ ℂ} {F : MathIntegrand ℂ} {BT BR : Basis ℝ ℂ} {w : ℝ}
    (hcast : env.cast = Complex.ofReal)
    (h : ∀ n, SpacePair env (o n) trial test famT famR (vertexGeometry NT VT) (vertexGeometry NR VR) BT BR (Q n) t)
    (ho : ∀ n, OperatorWith env.cast (o n) (helmholtzGreen w) (asmC n) F) (hb : ∀ n, 0 < (o n).batchSize)
    (hNT : NT = triangleFunctions ∨ NT = quadrilateralFunctions)
    (hNR : NR = triangleFunctions ∨ NR = quadrilateralFunctions)
    (hT : ∀ c ∈ test.fs.grid.entityIter 2, ∀ z ∈ refCell t, (vertexGeometry NT VT).jdet c.localIndex (pointList z) ≠ 0)
    (hR : ∀ c ∈ trial.fs.grid.entityIter 2, ∀ z ∈ refCell t, (vertexGeometry NR VR).jdet c.localIndex (pointList z) ≠ 0)
    (hBT : ContinuousBasis BT t (famT t).dim) (hBR : ContinuousBasis BR t (famR t).dim)
    (hd : ∀ c ∈ test.fs.grid.entityIter 2, ∀ c' ∈ trial.fs.grid.entityIter 2,
      ¬ (test.fs.grid.addr = trial.fs.grid.addr ∧ c.Touches c') →
        DisjointCells (vertexGeometry NT VT) (vertexGeometry NR VR) t c.localIndex c'.localIndex)
    (hreg : RulesConverge (refCell t) fun n => (Q n).regular t)
    (hsing : ∀ c ∈ test.fs.grid.entityIter 2, ∀ c' ∈ trial.fs.grid.entityIter 2,
      test.fs.grid.addr = trial.fs.grid.addr → c.Touches c' → ∀ a b, a < (famT t).dim → b < (famR t).dim →
      PairRulesConverge (refCell t) (fun n => (Q n).singular t t (connectivity c c'))
        (pairIntegrand F (helmholtzGreen w) (vertexGeometry NT VT) (vertexGeometry NR VR) BT BR t c.localIndex
          c'.localIndex a b)) :
    ∃ M : Nat → List ℂ, (∀ n out, Assemble env (asmC n) trial test out ↔ out = some (M n)) ∧
      ∀ i j, i < test.fs.globalSize → j < trial.fs.globalSize →
        Tendsto (fun n => (M n).getD (i + test.fs.globalSize * j) 0) atTop
          (𝓝 (doubleSum test.fs trial.fs
            (pairIntegral F (helmholtzGreen w) (vertexGeometry NT VT) (vertexGeometry NR VR) BT BR t) i j)) := by
  have hNT' : NT.Continuous := by
    rcases hNT with rfl | rfl
    · exact triangleFunctions_continuous
    · exact quadrilateralFunctions_continuous
  have hNR' : NR.Continuous := by
    rcases hNR with rfl | rfl
    · exact triangleFunctions_continuous
    · exact quadrilateralFunctions_continuous
  exact C76_convergence (fun x => by rw [hcast]; rfl) h ho hb (helmholtzGreen_continuous w)
    (fun c hc => continuousCell_vertices hNT' _ _ _ (hT c hc)) (fun c hc => continuousCell_vertices hNR' _ _ _ (hR c hc))
    hBT hBR hd hreg hsing

end

/-! ### The hypotheses can be met -/

/-- Triangles on different sides of a plane are disjoint. -/
theorem disjoint_triangles {V V' : Nat → Nat → Nat → ℝ} {c c' : Nat} (s : Nat → ℝ) {α β : ℝ} (hαβ : α < β)
    (h : ∀ k, k < 3 → s 0 * V c k 0 + s 1 * V c k 1 + s 2 * V c k 2 ≤ α)
    (h' : ∀ k, k < 3 → β ≤ s 0 * V' c' k 0 + s 1 * V' c' k 1 + s 2 * V' c' k 2) :
    DisjointCells (vertexGeometry triangleFunctions V) (vertexGeometry triangleFunctions V') .triangle c c' := by
  rintro ⟨x, y⟩ ⟨hx, hy, hxy⟩ ⟨x', y'⟩ ⟨hx', hy', hxy'⟩ e
  dsimp only at hx hy hxy hx' hy' hxy'
  rw [coords_eq, coords_eq] at e
  simp only [vertexGeometry, triangleFunctions, List.range_succ, List.range_zero, List.nil_append, List.cons_append,
    List.map_cons, List.map_nil, List.sum_cons, List.sum_nil, pointList, List.getD_cons_zero, List.getD_cons_succ,
    List.cons.injEq, and_true] at e
  obtain ⟨e0, e1, e2⟩ := e
  have a0 := mul_le_mul_of_nonneg_left (h 0 (by decide)) (by linarith : 0 ≤ 1 - x - y)
  have a1 := mul_le_mul_of_nonneg_left (h 1 (by decide)) hx
  have a2 := mul_le_mul_of_nonneg_left (h 2 (by decide)) hy
  have b0 := mul_le_mul_of_nonneg_left (h' 0 (by decide)) (by linarith : 0 ≤ 1 - x' - y')
  have b1 := mul_le_mul_of_nonneg_left (h' 1 (by decide)) hx'
  have b2 := mul_le_mul_of_nonneg_left (h' 2 (by decide)) hy'
  have : β ≤ α := by
    linear_combination a0 + a1 + a2 + b0 + b1 + b2 - s 0 * e0 - s 1 * e1 - s 2 * e2
  linarith

namespace Examples

/-- The octahedron shifted by 5 in the first direction. -/
noncomputable def shiftedVertices (c k i : Nat) : ℝ := octVertices c k i + if i = 0 then 5 else 0

theorem oct_jdet (d : Nat → ℝ) {c : Nat} (hc : c < 8) (x : List ℝ) :
    (vertexGeometry triangleFunctions fun c k i => octVertices c k i + d i).jdet c x ≠ 0 := by
  have h : (vertexGeometry triangleFunctions fun c k i => octVertices c k i + d i).jdet c x = Real.sqrt 3 := by
    simp only [vertexGeometry, triangleFunctions, List.range_succ, List.range_zero, List.nil_append, List.cons_append,
      List.map_cons, List.map_nil, List.sum_cons, List.sum_nil, norm3, cross3]
    congr 1
    interval_cases c <;>
    · simp only [octVertices, octCell, octVertex, List.getD_cons_zero, List.getD_cons_succ]
      push_cast
      ring
  rw [h]
  exact Real.sqrt_ne_zero'.mpr (by norm_num)

theorem oct_cells : ∀ c ∈ octahedron.entityIter 2, c.localIndex < 8 := by decide

theorem realP1_continuous (t : CellType) : ContinuousBasis realP1 t (p1 t).dim := by
  intro a _ i _
  apply Continuous.continuousOn
  unfold realP1 pointList
  match a, i with
  | 0, 0 => simp only [List.getD_cons_zero, List.getD_cons_succ]; fun_prop
  | 1, 0 => simp only [List.getD_cons_zero]; fun_prop
  | 2, 0 => simp only [List.getD_cons_zero, List.getD_cons_succ]; fun_prop
  | 0, 1 => exact continuous_const
  | 0, 2 => exact continuous_const
  | 1, 1 => exact continuous_const
  | 2, 2 => exact continuous_const
  | 1, 2 => exact continuous_const
  | 2, 1 => exact continuous_const
  | 0, _ + 3 => exact continuous_const
  | 1, _ + 3 => exact continuous_const
  | 2, _ + 3 => exact continuous_const
  | _ + 3, 0 => exact continuous_const
  | _ + 3, _ + 1 => exact continuous_const

/-- A convergent sequence of rules on the triangle. -/
noncomputable def triangleRule : Nat → List (List ℝ × ℝ) := (refCell_rules (t := .triangle) (.inl rfl)).choose

theorem triangleRule_converges : RulesConverge (refCell .triangle) triangleRule :=
  (refCell_rules (t := .triangle) (.inl rfl)).choose_spec.1

theorem triangleRule_length : StrictMono fun n => (triangleRule n).length :=
  (refCell_rules (t := .triangle) (.inl rfl)).choose_spec.2

/-- The same rules, both for cells that touch each other and for cells that do not. -/
noncomputable def latticeRules (n : Nat) : Quadrature ℝ :=
  { regular := fun _ => triangleRule n
    singular := fun _ _ _ => (triangleRule n).flatMap fun p => (triangleRule n).map fun q => (p.1, q.1, p.2 * q.2) }

open Classical in
/-- The rule with `m` points. -/
noncomputable def ruleWith (m : Nat) : Quadrature ℝ :=
  if h : ∃ n, (triangleRule n).length = m then latticeRules h.choose else realRules

theorem ruleWith_length (n : Nat) : ruleWith (triangleRule n).length = latticeRules n := by
  have h : ∃ k, (triangleRule k).length = (triangleRule n).length := ⟨n, rfl⟩
  unfold ruleWith
  rw [dif_pos h, triangleRule_length.injective h.choose_spec]

open Classical in
noncomputable def latticeEnv : Env ℝ ℝ :=
  { realEnv with
    simplexRule := fun t m => some ⟨((ruleWith m).regular t).flatMap Prod.fst, ((ruleWith m).regular t).map Prod.snd⟩
    triangleDuffy := fun con m => some ⟨((ruleWith m).singular .triangle .triangle con).flatMap fun p => p.1,
      ((ruleWith m).singular .triangle .triangle con).flatMap fun p => p.2.1,
      ((ruleWith m).singular .triangle .triangle con).map fun p => p.2.2⟩ }

/-- Options with the numbers of points of the rules. -/
noncomputable def latticeOptions (n : Nat) : Options :=
  (smallOptions.setRegularQuadratureDegree .triangle (triangleRule n).length).setSingularQuadratureDegree
    (.triangle, .triangle) (triangleRule n).length

theorem lattice_points (n : Nat) : ∀ p ∈ triangleRule n, p.1.length = 2 := by
  intro p hp
  obtain ⟨z, _, e⟩ := triangleRule_converges.nodes n p hp
  rw [e]; rfl

theorem lattice_regular (n : Nat) : RegularOk latticeEnv (latticeOptions n) (latticeRules n) .triangle where
  degree := rfl
  rule := by
    show some _ = _
    rw [show ((latticeRules n).regular .triangle).length = (triangleRule n).length from rfl, ruleWith_length]
  points := lattice_points n

theorem lattice_singular (n : Nat) : SingularOk latticeEnv (latticeOptions n) (latticeRules n) .triangle .triangle where
  degree := ⟨(triangleRule n).length, rfl, fun con _ => by
    show some _ = _
    rw [ruleWith_length]⟩
  points := by
    intro con _ p hp
    simp only [latticeRules, List.mem_flatMap, List.mem_map] at hp
    obtain ⟨a, ha, b, hb, rfl⟩ := hp
    exact ⟨lattice_points n a ha, lattice_points n b hb⟩

/-- The space of continuous functions on the octahedron and on the shifted octahedron. -/
theorem lattice_pair {fs fs' : FunctionSpace} (h : SerialSpace fs p1) (h' : SerialSpace fs' p1)
    (hg : fs.grid = octahedron) (hg' : fs'.grid = octahedron') (n : Nat) :
    SpacePair latticeEnv (latticeOptions n)
      (Examples.spaceOf fs p1 (vertexGeometry triangleFunctions octVertices) realP1)
      (Examples.spaceOf fs' p1 (vertexGeometry triangleFunctions shiftedVertices) realP1) p1 p1
      (vertexGeometry triangleFunctions shiftedVertices) (vertexGeometry triangleFunctions octVertices) realP1 realP1
      (latticeRules n) .triangle where
  testSpace := h'
  trialSpace := h
  testType := by show fs'.grid.entityTypes 2 = _; rw [hg']; decide
  trialType := by show fs.grid.entityTypes 2 = _; rw [hg]; decide
  testSurface := by show Surface fs'.grid; rw [hg']; exact ⟨rfl, rfl⟩
  trialSurface := by show Surface fs.grid; rw [hg]; exact ⟨rfl, rfl⟩
  testGeometry := spaceOf_geometry fs' p1 _ realP1
  trialGeometry := spaceOf_geometry fs p1 _ realP1
  testBasis := spaceOf_tabulate fs' p1 _ realP1
  trialBasis := spaceOf_tabulate fs p1 _ realP1
  rule := lattice_regular n
  same := fun e => absurd e (by
    show fs'.grid.addr ≠ fs.grid.addr
    rw [hg, hg']; decide)

theorem shifted_jdet {c : Entity} (hc : c ∈ octahedron'.entityIter 2) (z : ℝ × ℝ) :
    (vertexGeometry triangleFunctions shiftedVertices).jdet c.localIndex (pointList z) ≠ 0 :=
  oct_jdet (fun i => if i = 0 then 5 else 0) (oct_cells c hc) _

theorem unshifted_jdet {c : Entity} (hc : c ∈ octahedron.entityIter 2) (z : ℝ × ℝ) :
    (vertexGeometry triangleFunctions octVertices).jdet c.localIndex (pointList z) ≠ 0 := by
  have := oct_jdet (fun _ => 0) (oct_cells c hc) (pointList z)
  simpa only [add_zero] using this

theorem shifted_disjoint {c c' : Entity} (hc : c ∈ octahedron'.entityIter 2) (hc' : c' ∈ octahedron.entityIter 2) :
    DisjointCells (vertexGeometry triangleFunctions shiftedVertices) (vertexGeometry triangleFunctions octVertices)
      .triangle c.localIndex c'.localIndex := by
  have hv : ∀ c, c < 8 → ∀ k, k < 3 → |octVertices c k 0| ≤ 1 := by
    intro c hc k hk
    have : ∀ c, c < 8 → ∀ k, k < 3 → |octVertex (octCell c k) 0| ≤ 1 := by decide +kernel
    have := this c hc k hk
    unfold octVertices
    exact_mod_cast this
  refine disjoint_triangles (fun i => if i = 0 then -1 else 0) (α := -4) (β := -1) (by norm_num) (fun k hk => ?_)
    (fun k hk => ?_)
  · have := abs_le.mp (hv c.localIndex (oct_cells c hc) k hk)
    simp only [shiftedVertices]
    norm_num
    linarith [this.1]
  · have := abs_le.mp (hv c'.localIndex (oct_cells c' hc') k hk)
    norm_num
    exact this.2

/-- C76: the Laplace double layer matrices for two octahedra. -/
example : ∃ fs fs', SerialSpace fs p1 ∧ SerialSpace fs' p1 ∧ fs.grid = octahedron ∧ fs'.grid = octahedron' ∧
    ∃ M : Nat → List ℝ, (∀ n out, Assemble latticeEnv (Laplace.doubleLayer (kernelOf laplaceGreen) (latticeOptions n))
        (Examples.spaceOf fs p1 (vertexGeometry triangleFunctions octVertices) realP1)
        (Examples.spaceOf fs' p1 (vertexGeometry triangleFunctions shiftedVertices) realP1) out ↔ out = some (M n)) ∧
      ∀ i j, i < fs'.globalSize → j < fs.globalSize →
        Tendsto (fun n => (M n).getD (i + fs'.globalSize * j) 0) atTop
          (𝓝 (doubleSum fs' fs (pairIntegral dlF laplaceGreen (vertexGeometry triangleFunctions shiftedVertices)
            (vertexGeometry triangleFunctions octVertices) realP1 realP1 .triangle) i j)) := by
  obtain ⟨fs, h, hg⟩ := octSpace
  obtain ⟨fs', h', hg'⟩ := octSpace'
  have hne : fs'.grid.addr ≠ fs.grid.addr := by rw [hg, hg']; decide
  obtain ⟨M, h1, h2⟩ := C76_laplace rfl (lattice_pair h h' hg hg')
    (fun n => .laplaceDoubleLayer (k := kernelOf laplaceGreen) (kernelOf_computes laplaceGreen _)) (fun _ => by show 0 < 128; decide)
    (.inl rfl) (.inl rfl)
    (fun c hc z _ => shifted_jdet (hg' ▸ hc) z) (fun c hc z _ => unshifted_jdet (hg ▸ hc) z)
    (realP1_continuous _) (realP1_continuous _)
    (fun c hc c' hc' _ => shifted_disjoint (hg' ▸ hc) (hg ▸ hc'))
    triangleRule_converges
    (fun c _ c' _ e => absurd e hne)
  exact ⟨fs, fs', h, h', hg, hg', M, h1, h2⟩

/-- A kernel that is continuous everywhere: the square of the distance. -/
noncomputable def smoothKernel : MathKernel ℝ ℝ := fun x y i =>
  match i with
  | 0 => pointDist x y ^ 2
  | j + 1 => - 2 * pointDiff x y j

theorem smoothKernel_continuous (i : Nat) : Continuous fun z : (ℝ × ℝ × ℝ) × (ℝ × ℝ × ℝ) =>
    smoothKernel [z.1.1, z.1.2.1, z.1.2.2] [z.2.1, z.2.2.1, z.2.2.2] i := by
  match i with
  | 0 => exact pointDist_continuous.pow 2
  | j + 1 => exact continuous_const.mul (pointDiff_continuous j)

/-- Cells of the octahedron that do not touch each other are on different sides of a plane. -/
theorem oct_separated : ∀ c ∈ octahedron.entityIter 2, ∀ c' ∈ octahedron.entityIter 2, ¬ c.Touches c' →
    ∃ s ∈ ([[1, 1, 1], [1, 1, -1], [1, -1, 1], [1, -1, -1], [-1, 1, 1], [-1, 1, -1], [-1, -1, 1], [-1, -1, -1]] :
      List (List Rat)),
      (∀ k, k < 3 → s.getD 0 0 * octVertex (octCell c.localIndex k) 0 + s.getD 1 0 * octVertex (octCell c.localIndex k) 1 +
        s.getD 2 0 * octVertex (octCell c.localIndex k) 2 ≤ -1) ∧
      ∀ k, k < 3 → 1 ≤ s.getD 0 0 * octVertex (octCell c'.localIndex k) 0 +
        s.getD 1 0 * octVertex (octCell c'.localIndex k) 1 + s.getD 2 0 * octVertex (octCell c'.localIndex k) 2 := by
  decide +kernel

/-- C76: one octahedron, with a smooth kernel. -/
example : ∃ fs, SerialSpace fs p1 ∧ fs.grid = octahedron ∧
    ∃ M : Nat → List ℝ, (∀ n out, Assemble latticeEnv (Laplace.hypersingular (kernelOf smoothKernel) (latticeOptions n))
        (Examples.spaceOf fs p1 (vertexGeometry triangleFunctions octVertices) realP1)
        (Examples.spaceOf fs p1 (vertexGeometry triangleFunctions octVertices) realP1) out ↔ out = some (M n)) ∧
      ∀ i j, i < fs.globalSize → j < fs.globalSize →
        Tendsto (fun n => (M n).getD (i + fs.globalSize * j) 0) atTop
          (𝓝 (doubleSum fs fs (pairIntegral curlCurlF smoothKernel (vertexGeometry triangleFunctions octVertices)
            (vertexGeometry triangleFunctions octVertices) realP1 realP1 .triangle) i j)) := by
  obtain ⟨fs, h, hg⟩ := octSpace
  have pair : ∀ n, SpacePair latticeEnv (latticeOptions n)
      (Examples.spaceOf fs p1 (vertexGeometry triangleFunctions octVertices) realP1)
      (Examples.spaceOf fs p1 (vertexGeometry triangleFunctions octVertices) realP1) p1 p1
      (vertexGeometry triangleFunctions octVertices) (vertexGeometry triangleFunctions octVertices) realP1 realP1
      (latticeRules n) .triangle := fun n =>
    { testSpace := h
      trialSpace := h
      testType := by show fs.grid.entityTypes 2 = _; rw [hg]; decide
      trialType := by show fs.grid.entityTypes 2 = _; rw [hg]; decide
      testSurface := by show Surface fs.grid; rw [hg]; exact ⟨rfl, rfl⟩
      trialSurface := by show Surface fs.grid; rw [hg]; exact ⟨rfl, rfl⟩
      testGeometry := spaceOf_geometry fs p1 _ realP1
      trialGeometry := spaceOf_geometry fs p1 _ realP1
      testBasis := spaceOf_tabulate fs p1 _ realP1
      trialBasis := spaceOf_tabulate fs p1 _ realP1
      rule := lattice_regular n
      same := fun _ => ⟨rfl, rfl, by show fs.grid.Vertices; rw [hg]; exact octahedron_vertices, by
        show ∃ ev, fs.grid.Edges ev ∧ fs.grid.Conforming ev
        rw [hg]; exact ⟨_, octahedron_edges, octahedron_conforming⟩, lattice_singular n⟩ }
  have op : ∀ n, OperatorWith latticeEnv.cast (latticeOptions n) smoothKernel
      (Laplace.hypersingular (kernelOf smoothKernel) (latticeOptions n)) curlCurlF := fun n =>
    .laplaceHypersingular (kernelOf_computes smoothKernel _)
  have hcell : ∀ c ∈ fs.grid.entityIter 2,
      ContinuousCell (vertexGeometry triangleFunctions octVertices) .triangle c.localIndex := by
    rw [hg]
    intro c hc
    refine continuousCell_vertices triangleFunctions_continuous _ _ _ fun z _ => ?_
    have := oct_jdet (fun _ => 0) (oct_cells c hc) (pointList z)
    simpa only [add_zero] using this
  obtain ⟨M, h1, h2⟩ := C76_convergence (fun x => rfl) pair op (fun _ => by show 0 < 128; decide)
    (fun i _ => (smoothKernel_continuous i).continuousOn) hcell hcell (realP1_continuous _) (realP1_continuous _)
    (fun c hc c' hc' hn => by
      have hc : c ∈ fs.grid.entityIter 2 := hc
      have hc' : c' ∈ fs.grid.entityIter 2 := hc'
      rw [hg] at hc hc'
      obtain ⟨s, _, k1, k2⟩ := oct_separated c hc c' hc' fun e => hn ⟨rfl, e⟩
      refine disjoint_triangles (fun i => ((s.getD i 0 : Rat) : ℝ)) (α := -1) (β := 1) (by norm_num) (fun k hk => ?_)
        (fun k hk => ?_)
      · have := k1 k hk
        simp only [octVertices]
        exact_mod_cast this
      · have := k2 k hk
        simp only [octVertices]
        exact_mod_cast this)
    triangleRule_converges
    (fun c hc c' hc' _ _ a b ha hb => by
      have := triangleRule_converges.product (refCell_isCompact .triangle)
        (pairIntegrand_continuous_of (op 0).formula (hcell c hc) (hcell c' hc') (realP1_continuous .triangle)
          (realP1_continuous .triangle) ha hb
          fun i _ => kernel_pair_continuous (smoothKernel_continuous i).continuousOn (hcell c hc) (hcell c' hc')
            fun _ _ _ _ => Set.mem_univ _)
      refine this.congr fun n => ?_
      simp only [latticeRules, ruleSum, List.flatMap_def, List.map_flatten, List.sum_flatten, List.map_map]
      congr 1
      apply List.map_congr_left
      intro p _
      simp only [Function.comp, List.map_map]
      rw [← List.sum_map_mul_left]
      congr 1
      apply List.map_congr_left
      intro q _
      simp only [Function.comp]
      push_cast
      ring)
  exact ⟨fs, h, hg, M, h1, h2⟩

end Examples
end Bempp
