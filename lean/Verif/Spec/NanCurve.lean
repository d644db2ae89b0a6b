import Verif.Spec.Nan
import Verif.Spec.Derivative
/-! Curves whose numbers may be NaN. -/
namespace Cmm
variable {K : Type}

/-- A control point without NaN. -/
def Vec4.dbl (q : Vec4 K) : Vec4 (Dbl K) := ⟨.num q.x, .num q.y, .num q.z, .num q.w⟩

/-- A curve without NaN. -/
def Nurbs.Curve.dbl (c : Nurbs.Curve K) : Nurbs.Curve (Dbl K) :=
  ⟨c.cpts.map Vec4.dbl, c.degree, c.knots.map .num, c.periodic, .num c.lo, .num c.hi⟩

/-- The point with three NaN. -/
def allNan : Vec3 (Dbl K) := ⟨.nan, .nan, .nan⟩

namespace Nurbs

/-- The sizes of a curve fit together (nothing is said about the values): a degree from 1 to 8, more control points than the degree, and as many knots as both
together and one more. -/
structure ShapeOk (c : Curve (Dbl K)) : Prop where
  deg_pos : 1 ≤ c.degree
  deg_le : c.degree ≤ 8
  enough : c.degree < c.cpts.length
  len : c.knots.length = c.cpts.length + c.degree + 1

/-- Piece number `k` of a spline with `n` control points, degree `p` and knots `U` is in charge of the parameter `t`: the knots after the first piece up to `U_k` are
at most `t`, and `t` is before `U_{k+1}`, unless the piece is the last one. -/
structure InPiece [LE K] [LT K] (U : Nat → K) (n p k : Nat) (t : K) : Prop where
  deg_le : p ≤ k
  lt_len : k < n
  left : ∀ j, p < j → j ≤ k → U j ≤ t
  right : k + 1 = n ∨ t < U (k + 1)

end Nurbs
end Cmm
