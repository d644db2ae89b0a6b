import Verif.Model.Integrate
import Mathlib.Algebra.Polynomial.Derivative
/-! Numerical integration, stated independently of the recursion. -/
namespace Cmm.Num

/-- Adjacent intervals leading from `a` to `b`. -/
def Tiles {K : Type} : K → K → List (K × K) → Prop
  | a, b, [] => a = b
  | a, b, p :: l => p.1 = a ∧ Tiles p.2 b l

variable {K : Type} [Field K] [LinearOrder K]

/-- Composite Simpson rule with two panels on `[a, b]`. -/
def twoPanel (f : K → K) (a b : K) : K :=
  (b - a) / 12 * (f a + 4 * f ((3 * a + b) / 4) + 2 * f ((a + b) / 2) + 4 * f ((a + 3 * b) / 4) + f b)

/-- Simpson's rule with one panel. -/
def onePanel (f : K → K) (a b : K) : K := (b - a) / 6 * (f a + 4 * f ((a + b) / 2) + f b)

/-- The sum of the two-panel rule over a list of intervals. -/
def composite (f : K → K) (l : List (K × K)) : K := (l.map fun p => twoPanel f p.1 p.2).sum

end Cmm.Num
