import Verif.Spec.Knots
import Mathlib.Algebra.Field.Basic
import Mathlib.Algebra.Order.Group.Abs
/-! The parameters at which a knot refinement is requested. -/
namespace Cmm.Nurbs
variable {K : Type} [Field K] [LinearOrder K]

/-- The parameters named by the caller: those of the list, or without a list all knots but the `p` first and the `p` last, and the additional ones. -/
def NamedAt (p : Nat) (U knotList addList : List K) (x : K) : Prop :=
  (knotList ≠ [] ∧ x ∈ knotList) ∨ (knotList = [] ∧ ∃ i, p ≤ i ∧ i + p < U.length ∧ U[i]? = some x) ∨ x ∈ addList

/-- The named parameters and the points that divide each interval between two neighbouring ones into `2 ^ (density - 1)` equal parts. -/
def RefineAt (p : Nat) (U knotList addList : List K) (density : Nat) (x : K) : Prop :=
  NamedAt p U knotList addList x ∨
    ∃ y z, NamedAt p U knotList addList y ∧ NamedAt p U knotList addList z ∧ y < z ∧ (∀ w, NamedAt p U knotList addList w → w ≤ y ∨ z ≤ w) ∧
      ∃ j : Nat, j ≤ 2 ^ (density - 1) ∧ x = y + (z - y) * j / 2 ^ (density - 1)

/-- The requested parameters lie apart from each other and from the knots. -/
def ApartBy (tol : K) (U : List K) (R : K → Prop) : Prop := ∀ x, R x → ∀ y, y ∈ U ∨ R y → y ≠ x → tol ≤ |y - x|

end Cmm.Nurbs
