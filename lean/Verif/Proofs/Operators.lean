import Verif.Spec.Operators
/-
The integrands of the code are the mathematical ones.
-/
namespace Bempp
variable {R T : Type}

theorem singleLayer_computes [Mul T] : (singleLayer : Integrand T).Computes slF 1 1 := by
  intro k u v tg rg K U V TG RG hk hu hv _ _ _ _ _ _ _ _
  unfold singleLayer slF
  rw [hk 0 (by omega), hu 0 (by omega), hv 0 (by omega)]
  rfl

theorem doubleLayer_computes [Add T] [Mul T] : (doubleLayer : Integrand T).Computes dlF 4 1 := by
  intro k u v tg rg K U V TG RG hk hu hv _ _ _ hn _ _ _ _
  unfold doubleLayer dlF
  rw [hk 1 (by omega), hk 2 (by omega), hk 3 (by omega), hu 0 (by omega), hv 0 (by omega),
    hn 0 (by omega), hn 1 (by omega), hn 2 (by omega)]
  rfl

theorem adjointDoubleLayer_computes [Add T] [Mul T] [Neg T] :
    (adjointDoubleLayer : Integrand T).Computes adlF 4 1 := by
  intro k u v tg rg K U V TG RG hk hu hv _ _ hn _ _ _ _ _
  unfold adjointDoubleLayer adlF
  rw [hk 1 (by omega), hk 2 (by omega), hk 3 (by omega), hu 0 (by omega), hv 0 (by omega),
    hn 0 (by omega), hn 1 (by omega), hn 2 (by omega)]
  rfl

theorem curlCurl_computes [Add T] [Sub T] [Mul T] [Div T] :
    (hypersingularCurlCurl : Integrand T).Computes curlCurlF 4 3 := by
  intro k u v tg rg K U V TG RG hk hu hv _ _ _ _ ht hr hdt hdr
  unfold hypersingularCurlCurl curlCurlF
  rw [hk 0 (by omega), hu 1 (by omega), hu 2 (by omega), hv 1 (by omega), hv 2 (by omega),
    ht 0 (by omega), ht 1 (by omega), ht 2 (by omega), ht 3 (by omega), ht 4 (by omega), ht 5 (by omega),
    hr 0 (by omega), hr 1 (by omega), hr 2 (by omega), hr 3 (by omega), hr 4 (by omega), hr 5 (by omega),
    hdt, hdr]
  rfl

theorem normalNormal_computes [Add T] [Mul T] :
    (hypersingularNormalNormal : Integrand T).Computes normalNormalF 4 3 := by
  intro k u v tg rg K U V TG RG hk hu hv _ _ ht hr _ _ _ _
  unfold hypersingularNormalNormal normalNormalF
  rw [hk 0 (by omega), hu 0 (by omega), hv 0 (by omega), ht 0 (by omega), ht 1 (by omega),
    ht 2 (by omega), hr 0 (by omega), hr 1 (by omega), hr 2 (by omega)]
  rfl

theorem Integrand.sum_computes [Add T] {f f' : Integrand T} {F F' : MathIntegrand T} {nk nd : Nat}
    (h : f.Computes F nk nd) (h' : f'.Computes F' nk nd) :
    (f.sum f').Computes (fun K U V TG RG => F K U V TG RG + F' K U V TG RG) nk nd := by
  intro k u v tg rg K U V TG RG h1 h2 h3 h4 h5 h6 h7 h8 h9 h10 h11
  unfold Integrand.sum
  rw [h k u v tg rg K U V TG RG h1 h2 h3 h4 h5 h6 h7 h8 h9 h10 h11,
    h' k u v tg rg K U V TG RG h1 h2 h3 h4 h5 h6 h7 h8 h9 h10 h11]
  rfl

theorem Integrand.timesScalar_computes [Mul T] {f : Integrand T} {F : MathIntegrand T} {nk nd : Nat}
    (s : T) (h : f.Computes F nk nd) :
    (f.timesScalar s).Computes (fun K U V TG RG => s * F K U V TG RG) nk nd := by
  intro k u v tg rg K U V TG RG h1 h2 h3 h4 h5 h6 h7 h8 h9 h10 h11
  unfold Integrand.timesScalar
  rw [h k u v tg rg K U V TG RG h1 h2 h3 h4 h5 h6 h7 h8 h9 h10 h11]
  rfl

theorem numDerivs_zero : numDerivs 0 = 1 := by decide
theorem numDerivs_one : numDerivs 1 = 3 := by decide


theorem laplace_singleLayer_integrand [Mul T] (K : Kernel R T) (o : Options) :
    (Laplace.singleLayer K o).integrand.Computes slF (Laplace.singleLayer K o).derivSize
      (numDerivs (Laplace.singleLayer K o).tableDerivs) := by
  show Integrand.Computes _ slF 1 (numDerivs 0)
  rw [numDerivs_zero]; exact singleLayer_computes

theorem laplace_doubleLayer_integrand [Add T] [Mul T] (K : Kernel R T) (o : Options) :
    (Laplace.doubleLayer K o).integrand.Computes dlF (Laplace.doubleLayer K o).derivSize
      (numDerivs (Laplace.doubleLayer K o).tableDerivs) := by
  show Integrand.Computes _ dlF 4 (numDerivs 0)
  rw [numDerivs_zero]; exact doubleLayer_computes

theorem laplace_adjoint_integrand [Add T] [Mul T] [Neg T] (K : Kernel R T) (o : Options) :
    (Laplace.adjointDoubleLayer K o).integrand.Computes adlF
      (Laplace.adjointDoubleLayer K o).derivSize
      (numDerivs (Laplace.adjointDoubleLayer K o).tableDerivs) := by
  show Integrand.Computes _ adlF 4 (numDerivs 0)
  rw [numDerivs_zero]; exact adjointDoubleLayer_computes

theorem laplace_hypersingular_integrand [Add T] [Sub T] [Mul T] [Div T] (K : Kernel R T) (o : Options) :
    (Laplace.hypersingular K o).integrand.Computes curlCurlF (Laplace.hypersingular K o).derivSize
      (numDerivs (Laplace.hypersingular K o).tableDerivs) := by
  show Integrand.Computes _ curlCurlF 4 (numDerivs 1)
  rw [numDerivs_one]; exact curlCurl_computes

theorem helmholtz_singleLayer_integrand [Mul T] (K : R → Kernel R T) (w : R) (o : Options) :
    (Helmholtz.singleLayer K w o).integrand.Computes slF (Helmholtz.singleLayer K w o).derivSize
      (numDerivs (Helmholtz.singleLayer K w o).tableDerivs) := by
  show Integrand.Computes _ slF 1 (numDerivs 0)
  rw [numDerivs_zero]; exact singleLayer_computes

theorem helmholtz_doubleLayer_integrand [Add T] [Mul T] (K : R → Kernel R T) (w : R) (o : Options) :
    (Helmholtz.doubleLayer K w o).integrand.Computes dlF (Helmholtz.doubleLayer K w o).derivSize
      (numDerivs (Helmholtz.doubleLayer K w o).tableDerivs) := by
  show Integrand.Computes _ dlF 4 (numDerivs 0)
  rw [numDerivs_zero]; exact doubleLayer_computes

theorem helmholtz_adjoint_integrand [Add T] [Mul T] [Neg T] (K : R → Kernel R T) (w : R) (o : Options) :
    (Helmholtz.adjointDoubleLayer K w o).integrand.Computes adlF
      (Helmholtz.adjointDoubleLayer K w o).derivSize
      (numDerivs (Helmholtz.adjointDoubleLayer K w o).tableDerivs) := by
  show Integrand.Computes _ adlF 4 (numDerivs 0)
  rw [numDerivs_zero]; exact adjointDoubleLayer_computes

theorem helmholtz_hypersingular_integrand [Add T] [Sub T] [Mul T] [Div T] [Mul R] [Neg R] {cast : R → T}
    (K : R → Kernel R T) (w : R) (o : Options) :
    (Helmholtz.hypersingular cast K w o).integrand.Computes (helmholtzHypF cast w)
      (Helmholtz.hypersingular cast K w o).derivSize
      (numDerivs (Helmholtz.hypersingular cast K w o).tableDerivs) := by
  show Integrand.Computes _ (helmholtzHypF cast w) 4 (numDerivs 1)
  rw [numDerivs_one]
  exact Integrand.sum_computes curlCurl_computes
    (Integrand.timesScalar_computes _ normalNormal_computes)

section
set_option linter.unusedSectionVars false
variable [Add T] [Sub T] [Mul T] [Div T] [Neg T] [Mul R] [Neg R] {cast : R → T}

/-- Each public constructor chooses sizes that suffice for its integrand and fit its kernel. -/
theorem IsOperator.computes {asm : Assembler R T} (h : IsOperator cast asm) :
    ∃ F, asm.integrand.Computes F asm.derivSize (numDerivs asm.tableDerivs) ∧
      asm.kernel.evalType.comps = asm.derivSize := by
  cases h with
  | laplaceSingleLayer K o => exact ⟨_, laplace_singleLayer_integrand K o, rfl⟩
  | laplaceDoubleLayer K o => exact ⟨_, laplace_doubleLayer_integrand K o, rfl⟩
  | laplaceAdjoint K o => exact ⟨_, laplace_adjoint_integrand K o, rfl⟩
  | laplaceHypersingular K o => exact ⟨_, laplace_hypersingular_integrand K o, rfl⟩
  | helmholtzSingleLayer K w o => exact ⟨_, helmholtz_singleLayer_integrand K w o, rfl⟩
  | helmholtzDoubleLayer K w o => exact ⟨_, helmholtz_doubleLayer_integrand K w o, rfl⟩
  | helmholtzAdjoint K w o => exact ⟨_, helmholtz_adjoint_integrand K w o, rfl⟩
  | helmholtzHypersingular K w o => exact ⟨_, helmholtz_hypersingular_integrand K w o, rfl⟩

/-- Each public constructor returns an assembler for the operator it is named after. -/
theorem OperatorWith.computes {asm : Assembler R T} {o : Options} {K : MathKernel R T} {F : MathIntegrand T}
    (h : OperatorWith cast o K asm F) : asm.Computes F K ∧ asm.options = o := by
  cases h with
  | laplaceSingleLayer hk => exact ⟨⟨laplace_singleLayer_integrand _ o, hk, rfl⟩, rfl⟩
  | laplaceDoubleLayer hk => exact ⟨⟨laplace_doubleLayer_integrand _ o, hk, rfl⟩, rfl⟩
  | laplaceAdjoint hk => exact ⟨⟨laplace_adjoint_integrand _ o, hk, rfl⟩, rfl⟩
  | laplaceHypersingular hk => exact ⟨⟨laplace_hypersingular_integrand _ o, hk, rfl⟩, rfl⟩
  | helmholtzSingleLayer hk => exact ⟨⟨helmholtz_singleLayer_integrand _ _ o, hk, rfl⟩, rfl⟩
  | helmholtzDoubleLayer hk => exact ⟨⟨helmholtz_doubleLayer_integrand _ _ o, hk, rfl⟩, rfl⟩
  | helmholtzAdjoint hk => exact ⟨⟨helmholtz_adjoint_integrand _ _ o, hk, rfl⟩, rfl⟩
  | helmholtzHypersingular hk => exact ⟨⟨helmholtz_hypersingular_integrand _ _ o, hk, rfl⟩, rfl⟩

end
end Bempp
