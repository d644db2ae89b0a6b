import Verif.Model.Boundary
import Verif.Spec.Detect
/-! Specification vocabulary for the ends of reported patches. -/
namespace Cmm.Gauss
open Cmm.Nurbs
variable {K : Type} [Field K] [LinearOrder K]

/-- The end `e` of a reported patch, on the border of `own` with the parameters `mine` and on `other` with the parameters `its`. The position is a point
of `own`, and `other` has a point within the tolerance at the parameters stored for it. On the borders with fixed u (numbers 0 and 1) the position is the
point of `own` at the parameters stored for it. On the borders with fixed v (numbers 2 and 3) the stored v is right and the stored u is the relative
position between the ends `e.iv.1` of the u interval of the searched part. -/
structure TrueEnd (sqrt : K → K) (tol : K) (own other : Surface K) (mine its : K × K) (e : Bnd.Point K) : Prop where
  border : e.boundary < 4
  part : own.u0 ≤ e.iv.1.1 ∧ e.iv.1.1 ≤ e.iv.1.2 ∧ e.iv.1.2 ≤ own.u1
  fixed_u : e.boundary < 2 → Inside own mine.1 mine.2 ∧ own.evaluate mine.1 mine.2 = .ok e.point
  fixed_v : 2 ≤ e.boundary → (0 ≤ mine.1 ∧ mine.1 ≤ 1) ∧ Inside own (e.iv.1.1 + mine.1 * (e.iv.1.2 - e.iv.1.1)) mine.2 ∧
    own.evaluate (e.iv.1.1 + mine.1 * (e.iv.1.2 - e.iv.1.1)) mine.2 = .ok e.point
  far : Inside other its.1 its.2 ∧ ∃ q, other.evaluate its.1 its.2 = .ok q ∧ sqrt (e.point - q).sqLength ≤ tol

/-- An end of a patch reported for `s1` and `s2`. -/
def TrueEndOf (sqrt : K → K) (tol : K) (s1 s2 : Surface K) (e : Bnd.Point K) : Prop :=
  if e.fromFirst then TrueEnd sqrt tol s1 s2 e.params1 e.params2 e else TrueEnd sqrt tol s2 s1 e.params2 e.params1 e

end Cmm.Gauss
