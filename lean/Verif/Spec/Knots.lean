import Verif.Model.Knots
/-! Specification vocabulary for knot vectors. -/
namespace Cmm.Nurbs
variable {K : Type}

/-- A non-decreasing knot vector. -/
def SortedKnots [LE K] (l : List K) : Prop := l.Pairwise (· ≤ ·)

/-- The list described by runs `(value, multiplicity)`. -/
def expandRuns : List (K × Nat) → List K
  | [] => []
  | (k, c) :: r => List.replicate c k ++ expandRuns r

/-- Different entries are at least `tol` apart. -/
def Separated [Field K] [LinearOrder K] (tol : K) (l : List K) : Prop :=
  ∀ a ∈ l, ∀ b ∈ l, a ≠ b → tol ≤ |a - b|

end Cmm.Nurbs
