import Verif.Model.Vec
import Verif.Spec.BSpline
import Verif.Spec.Knots
import Mathlib.Algebra.Polynomial.Derivative
import Mathlib.Algebra.MvPolynomial.PDeriv
/-! Splines as sums of textbook basis functions, and their pieces as polynomials. -/
namespace Cmm.Nurbs
open Polynomial
variable {K : Type} [Field K] [LinearOrder K]

/-- `Σ_{j < n} N_{a+j,p}(t) P_j`, with the basis functions over the knots `U`. -/
def splineSum (U : Nat → K) (p a n : Nat) (P : Nat → K) (t : K) : K := ∑ j ∈ Finset.range n, coxDeBoor U p (a + j) t * P j

/-- `Σ_{i < n} Σ_{j < m} N_{a+i,p}(s) M_{b+j,q}(t) P_{i,j}`, with the basis functions over the knots `U` and `V`. -/
def tensorSum (U V : Nat → K) (p q a b n m : Nat) (P : Nat → Nat → K) (s t : K) : K :=
  ∑ i ∈ Finset.range n, ∑ j ∈ Finset.range m, coxDeBoor U p (a + i) s * coxDeBoor V q (b + j) t * P i j

/-- On the knot span `[U_i, U_{i+1})` the function `f` is the polynomial `F`. -/
def PieceOn (U : Nat → K) (i : Nat) (f : K → K) (F : K[X]) : Prop := ∀ t, U i ≤ t → t < U (i + 1) → f t = F.eval t

/-- On the rectangle `[U_i, U_{i+1}) × [V_j, V_{j+1})` the function `f` is the polynomial `F` in two variables. -/
def PieceOn2 (U V : Nat → K) (i j : Nat) (f : K → K → K) (F : MvPolynomial (Fin 2) K) : Prop :=
  ∀ s t, U i ≤ s → s < U (i + 1) → V j ≤ t → t < V (j + 1) → f s t = MvPolynomial.eval ![s, t] F

/-- One of the four coordinates. -/
def IsCoord (φ : Vec4 K → K) : Prop := φ = Vec4.x ∨ φ = Vec4.y ∨ φ = Vec4.z ∨ φ = Vec4.w

end Cmm.Nurbs
