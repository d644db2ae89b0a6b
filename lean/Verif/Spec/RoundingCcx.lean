import Verif.Spec.Ccx
import Verif.Spec.RoundingDecompose
/-! Specification vocabulary for curve-curve intersection in floating-point arithmetic. -/
namespace Cmm.Ccx
open Cmm.Nurbs
variable {K : Type} [Field K] [LinearOrder K] {R : Rounding K}

/-- `std::sqrt` is nearly exact. -/
def SqrtNear (u : K) (sqrt : Fp R → Fp R) : Prop := ∀ x : Fp R, 0 ≤ x.val → 0 ≤ (sqrt x).val ∧ |(sqrt x).val ^ 2 - x.val| ≤ 3 * u * x.val

/-- A Bézier curve in floating-point arithmetic: degree between one and eight, weights one, coordinates of size at most `M`, and an interval of numbers of size at
most `L`. -/
structure FloatBezier (L M : K) (c : Curve (Fp R)) : Prop where
  valid : ValidCurve c.exact
  bezier : IsBezier c.exact
  weights : ∀ q ∈ c.exact.cpts, q.w = 1
  bounded : ∀ q ∈ c.exact.cpts, Bounded M (Vec4.pos q)
  interval : |c.lo.val| ≤ L ∧ |c.hi.val| ≤ L

/-- The points of the two curves, evaluated without rounding, at the reported parameters exist and differ by at most `e` in each coordinate. -/
def MeetsWithin (e : K) (c1 c2 : Curve (Fp R)) (p : Fp R × Fp R) : Prop :=
  (c1.lo ≤ p.1 ∧ p.1 ≤ c1.hi) ∧ (c2.lo ≤ p.2 ∧ p.2 ≤ c2.hi) ∧
    ∃ P Q, c1.exact.evaluate p.1.val = .ok P ∧ c2.exact.evaluate p.2.val = .ok Q ∧ |P.x - Q.x| ≤ e ∧ |P.y - Q.y| ≤ e ∧ |P.z - Q.z| ≤ e

end Cmm.Ccx
