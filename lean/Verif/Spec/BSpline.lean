import Mathlib.Algebra.Order.Field.Basic
/-! Textbook B-spline basis functions, stated independently of the code. -/
namespace Cmm.Nurbs
variable {K : Type}

/-- The Cox-de Boor recursion: `coxDeBoor U p k u` is the B-spline basis function `N_{k,p}(u)` over the knots `U`, with the
usual convention that a quotient with denominator zero is zero (which is how division is defined here). -/
def coxDeBoor [Field K] [LinearOrder K] (U : Nat → K) : Nat → Nat → K → K
  | 0, k, u => if U k ≤ u ∧ u < U (k + 1) then 1 else 0
  | p + 1, k, u =>
    (u - U k) / (U (k + p + 1) - U k) * coxDeBoor U p k u +
    (U (k + p + 2) - u) / (U (k + p + 2) - U (k + 1)) * coxDeBoor U p (k + 1) u

/-- The polynomial that the basis function `N_{k,p}` equals on knot span number `i` (used at the right end of the domain,
where no half-open span contains the parameter). -/
def coxDeBoorPiece [Field K] (U : Nat → K) (i : Nat) : Nat → Nat → K → K
  | 0, k, _ => if k = i then 1 else 0
  | p + 1, k, u =>
    (u - U k) / (U (k + p + 1) - U k) * coxDeBoorPiece U i p k u +
    (U (k + p + 2) - u) / (U (k + p + 2) - U (k + 1)) * coxDeBoorPiece U i p (k + 1) u

end Cmm.Nurbs
