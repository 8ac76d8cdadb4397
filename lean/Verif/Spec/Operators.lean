import Verif.Spec.Assembly
/-
The integrands of the operators in mathematical form, and the list of public operator constructors.
`K` are the kernel value (0) and its derivatives (1, 2, 3); `U`, `V` the test and trial basis function
(0) and its reference derivatives (1, 2).
-/
namespace Bempp

variable {R T : Type}

/-- Kernel times test function times trial function. -/
def slF [Mul T] : MathIntegrand T := fun K U V _ _ => K 0 * U 0 * V 0

/-- Normal derivative of the kernel on the trial side. -/
def dlF [Add T] [Mul T] : MathIntegrand T := fun K U V _ RG =>
  (K 1 * RG.normal 0 + K 2 * RG.normal 1 + K 3 * RG.normal 2) * U 0 * V 0

/-- Minus the derivative of the kernel along the test normal. -/
def adlF [Add T] [Mul T] [Neg T] : MathIntegrand T := fun K U V TG _ =>
  -(K 1 * TG.normal 0 + K 2 * TG.normal 1 + K 3 * TG.normal 2) * U 0 * V 0

/-- Component `i` of the (unnormalised) surface curl of a basis function. -/
def surfaceCurl [Sub T] [Mul T] (G : PointData T) (U : Nat → T) (i : Nat) : T :=
  G.jacobian (3 + i) * U 1 - G.jacobian i * U 2

/-- Kernel times the scalar product of the surface curls. -/
def curlCurlF [Add T] [Sub T] [Mul T] [Div T] : MathIntegrand T := fun K U V TG RG =>
  K 0 * (surfaceCurl TG U 0 * surfaceCurl RG V 0 + surfaceCurl TG U 1 * surfaceCurl RG V 1
    + surfaceCurl TG U 2 * surfaceCurl RG V 2) / TG.jdet / RG.jdet

/-- Kernel times the scalar product of the normals times the basis functions. -/
def normalNormalF [Add T] [Mul T] : MathIntegrand T := fun K U V TG RG =>
  K 0 * (RG.normal 0 * TG.normal 0 + RG.normal 1 * TG.normal 1 + RG.normal 2 * TG.normal 2) * U 0 * V 0

/-- The integrand of the Helmholtz hypersingular operator. -/
def helmholtzHypF [Add T] [Sub T] [Mul T] [Div T] [Mul R] [Neg R] (cast : R → T) (w : R) :
    MathIntegrand T := fun K U V TG RG =>
  curlCurlF K U V TG RG + cast (-(w * w)) * normalNormalF K U V TG RG

/-- The assemblers that the public constructors of `laplace::assembler` and `helmholtz::assembler`
return. -/
inductive IsOperator [Add T] [Sub T] [Mul T] [Div T] [Neg T] [Mul R] [Neg R] (cast : R → T) :
    Assembler R T → Prop
  | laplaceSingleLayer (K : Kernel R T) (o : Options) : IsOperator cast (Laplace.singleLayer K o)
  | laplaceDoubleLayer (K : Kernel R T) (o : Options) : IsOperator cast (Laplace.doubleLayer K o)
  | laplaceAdjoint (K : Kernel R T) (o : Options) : IsOperator cast (Laplace.adjointDoubleLayer K o)
  | laplaceHypersingular (K : Kernel R T) (o : Options) : IsOperator cast (Laplace.hypersingular K o)
  | helmholtzSingleLayer (K : R → Kernel R T) (w : R) (o : Options) :
      IsOperator cast (Helmholtz.singleLayer K w o)
  | helmholtzDoubleLayer (K : R → Kernel R T) (w : R) (o : Options) :
      IsOperator cast (Helmholtz.doubleLayer K w o)
  | helmholtzAdjoint (K : R → Kernel R T) (w : R) (o : Options) :
      IsOperator cast (Helmholtz.adjointDoubleLayer K w o)
  | helmholtzHypersingular (K : R → Kernel R T) (w : R) (o : Options) :
      IsOperator cast (Helmholtz.hypersingular cast K w o)

/-- The operators with their formulas: `asm` is returned by the constructor of the operator with integrand `F`, with
options `o` and a kernel object that evaluates the function `K` (its value for the single layer operators, its value
and its gradient for the others). -/
inductive OperatorWith [Add T] [Sub T] [Mul T] [Div T] [Neg T] [Mul R] [Neg R] (cast : R → T) (o : Options)
    (K : MathKernel R T) : Assembler R T → MathIntegrand T → Prop
  | laplaceSingleLayer {k : Kernel R T} : k.Computes .value K →
      OperatorWith cast o K (Laplace.singleLayer k o) slF
  | laplaceDoubleLayer {k : Kernel R T} : k.Computes .valueDeriv K →
      OperatorWith cast o K (Laplace.doubleLayer k o) dlF
  | laplaceAdjoint {k : Kernel R T} : k.Computes .valueDeriv K →
      OperatorWith cast o K (Laplace.adjointDoubleLayer k o) adlF
  | laplaceHypersingular {k : Kernel R T} : k.Computes .valueDeriv K →
      OperatorWith cast o K (Laplace.hypersingular k o) curlCurlF
  | helmholtzSingleLayer {k : R → Kernel R T} {w : R} : (k w).Computes .value K →
      OperatorWith cast o K (Helmholtz.singleLayer k w o) slF
  | helmholtzDoubleLayer {k : R → Kernel R T} {w : R} : (k w).Computes .valueDeriv K →
      OperatorWith cast o K (Helmholtz.doubleLayer k w o) dlF
  | helmholtzAdjoint {k : R → Kernel R T} {w : R} : (k w).Computes .valueDeriv K →
      OperatorWith cast o K (Helmholtz.adjointDoubleLayer k w o) adlF
  | helmholtzHypersingular {k : R → Kernel R T} {w : R} : (k w).Computes .valueDeriv K →
      OperatorWith cast o K (Helmholtz.hypersingular cast k w o) (helmholtzHypF cast w)

end Bempp
