import Verif.Spec.Format
import Verif.Spec.Integrate
/-! Numerical integration in floating-point arithmetic, stated independently of the recursion. -/
namespace Cmm.Num
variable {K : Type} [Field K] [LinearOrder K]

/-- A binary number format as `double`: it contains the numbers 1 to 15 and with every number its double. -/
structure BinaryFormat (R : Rounding K) (u : K) : Prop extends FormatOk R u where
  nat15 : ∀ n : Nat, 1 ≤ n → n ≤ 15 → R.rnd n = n
  double : ∀ x, R.rnd x = x → R.rnd (2 * x) = 2 * x

variable {R : Rounding K}

/-- The computed middle of two numbers. -/
def midF (a b : Fp R) : Fp R := 1 / 2 * (a + b)

/-- The composite Simpson rule with two panels on `[a, b]`, evaluated without rounding; the integrand is taken at the computed quarter points. -/
def twoPanelF (f : Fp R → Fp R) (a b : Fp R) : K :=
  (b.val - a.val) / 12 *
    ((f a).val + 4 * (f (midF a (midF a b))).val + 2 * (f (midF a b)).val + 4 * (f (midF (midF a b) b)).val + (f b).val)

/-- The sum of this rule over a list of intervals, without rounding. -/
def compositeF (f : Fp R → Fp R) (l : List (Fp R × Fp R)) : K := (l.map fun p => twoPanelF f p.1 p.2).sum

end Cmm.Num
