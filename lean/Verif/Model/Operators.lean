import Verif.Model.Assembly
/-
Model of the operator constructors in `src/laplace.rs` and `src/helmholtz.rs`.
-/
namespace Bempp
namespace Laplace
variable {R T : Type}

/-- `laplace::assembler::single_layer`, `src/laplace.rs:34-39`. -/
def singleLayer [Mul T] (kernel : Kernel R T) (options : Options) : Assembler R T :=
  ⟨Bempp.singleLayer, ⟨kernel, .value⟩, options, 1, 0⟩

/-- `laplace::assembler::double_layer`, `src/laplace.rs:42-48`. -/
def doubleLayer [Add T] [Mul T] (kernel : Kernel R T) (options : Options) : Assembler R T :=
  ⟨Bempp.doubleLayer, ⟨kernel, .valueDeriv⟩, options, 4, 0⟩

/-- `laplace::assembler::adjoint_double_layer`, `src/laplace.rs:51-63`. -/
def adjointDoubleLayer [Add T] [Mul T] [Neg T] (kernel : Kernel R T) (options : Options) :
    Assembler R T :=
  ⟨Bempp.adjointDoubleLayer, ⟨kernel, .valueDeriv⟩, options, 4, 0⟩

/-- `laplace::assembler::hypersingular`, `src/laplace.rs:66-78`. -/
def hypersingular [Add T] [Sub T] [Mul T] [Div T] (kernel : Kernel R T) (options : Options) :
    Assembler R T :=
  ⟨hypersingularCurlCurl, ⟨kernel, .valueDeriv⟩, options, 4, 1⟩

end Laplace

namespace Helmholtz
variable {R T : Type}

/-- `helmholtz::assembler::single_layer`, `src/helmholtz.rs:44-54`. `kernel` is
`Helmholtz3dKernel::new(wavenumber)`. -/
def singleLayer [Mul T] (kernel : R → Kernel R T) (wavenumber : R) (options : Options) :
    Assembler R T :=
  ⟨Bempp.singleLayer, ⟨kernel wavenumber, .value⟩, options, 1, 0⟩

/-- `helmholtz::assembler::double_layer`, `src/helmholtz.rs:57-67`. -/
def doubleLayer [Add T] [Mul T] (kernel : R → Kernel R T) (wavenumber : R) (options : Options) :
    Assembler R T :=
  ⟨Bempp.doubleLayer, ⟨kernel wavenumber, .valueDeriv⟩, options, 4, 0⟩

/-- `helmholtz::assembler::adjoint_double_layer`, `src/helmholtz.rs:70-86`. -/
def adjointDoubleLayer [Add T] [Mul T] [Neg T] (kernel : R → Kernel R T) (wavenumber : R)
    (options : Options) : Assembler R T :=
  ⟨Bempp.adjointDoubleLayer, ⟨kernel wavenumber, .valueDeriv⟩, options, 4, 0⟩

/-- `helmholtz::assembler::hypersingular`, `src/helmholtz.rs:89-107`; `wavenumber.powi(2)` is
`wavenumber * wavenumber`. -/
def hypersingular [Add T] [Sub T] [Mul T] [Div T] [Mul R] [Neg R] (cast : R → T)
    (kernel : R → Kernel R T) (wavenumber : R) (options : Options) : Assembler R T :=
  ⟨hypersingularCurlCurl.sum
      (hypersingularNormalNormal.timesScalar (cast (-(wavenumber * wavenumber)))),
    ⟨kernel wavenumber, .valueDeriv⟩, options, 4, 1⟩

end Helmholtz
end Bempp
