import Verif.Spec.RoundingEval
import Verif.Spec.Decompose
/-! Specification vocabulary for the decomposition into Bézier pieces with rounded operations. -/
namespace Cmm.Nurbs
variable {K : Type} [Field K] [LinearOrder K] {R : Rounding K}

/-- The computed curve `q` stands for the Bézier piece of the curve `c` over `[lo, hi]`: same degree `p`, `p + 1` control points with weight one and coordinates of
size at most `B`, `p + 1` knots at either end, the interval `[lo, hi]`, and, without rounding in the evaluation, the same points up to `e` in each coordinate. -/
structure BezierNear (c : Curve K) (q : Curve (Fp R)) (lo hi e B : K) : Prop where
  valid : ValidCurve q.exact
  weights : ∀ x ∈ q.exact.cpts, x.w = 1
  bounded : ∀ x ∈ q.exact.cpts, Bounded B (Vec4.pos x)
  interval : q.lo.val = lo ∧ q.hi.val = hi
  degree : q.degree = c.degree
  points : q.cpts.length = c.degree + 1
  knots : q.exact.knots = List.replicate (c.degree + 1) lo ++ List.replicate (c.degree + 1) hi
  domain : ∀ t, InDomain q.exact t ↔ lo ≤ t ∧ t ≤ hi
  near : ∀ t, lo ≤ t → t ≤ hi → ∃ r r', q.exact.evaluate t = .ok r ∧ c.evaluate t = .ok r' ∧ |r.x - r'.x| ≤ e ∧ |r.y - r'.y| ≤ e ∧ |r.z - r'.z| ≤ e

end Cmm.Nurbs
