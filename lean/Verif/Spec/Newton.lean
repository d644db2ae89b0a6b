import Verif.Model.Newton
import Mathlib.Algebra.BigOperators.Fin
/-! Specification vocabulary for linear systems and minimisation. -/
namespace Cmm.Newton
variable {K : Type} {N : Nat} [Field K] [LinearOrder K]

/-- `H` is symmetric. -/
def Symmetric (H : Sq N K) : Prop := ∀ i j, H i j = H j i

/-- `H` is positive definite. -/
def PosDef (H : Sq N K) : Prop := ∀ x : Vec N K, x ≠ 0 → 0 < ∑ i, ∑ j, x i * H i j * x j

/-- `H x = b`. -/
def Solves (H : Sq N K) (x b : Vec N K) : Prop := ∀ i, ∑ j, H i j * x j = b i

/-- What is used of `std::sqrt`: it is the positive square root of every positive number. -/
def IsSqrt (sqrt : K → K) : Prop := ∀ x, 0 < x → 0 < sqrt x ∧ sqrt x * sqrt x = x

/-- The quadratic function `x ↦ ∑ a i j x i x j + ∑ b i x i + c`. -/
def quadratic (a : Sq N K) (b : Vec N K) (c : K) (x : Vec N K) : K :=
  ∑ i, ∑ j, a i j * x i * x j + ∑ i, b i * x i + c

end Cmm.Newton
