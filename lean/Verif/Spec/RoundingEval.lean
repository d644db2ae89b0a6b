import Verif.Spec.Rounding
import Verif.Spec.Surface
/-! Curves and surfaces whose numbers belong to a number format, and the exact curves and surfaces they stand for. -/
namespace Cmm.Nurbs
variable {K : Type} [Field K] [LinearOrder K] {R : Rounding K}

/-- The values of the four coordinates. -/
def exact4 (q : Vec4 (Fp R)) : Vec4 K := ⟨q.x.val, q.y.val, q.z.val, q.w.val⟩

/-- The same curve, for exact arithmetic. -/
def Curve.exact (c : Curve (Fp R)) : Curve K :=
  ⟨c.cpts.map exact4, c.degree, c.knots.map Fp.val, c.periodic, c.lo.val, c.hi.val⟩

/-- The same surface, for exact arithmetic. -/
def Surface.exact (s : Surface (Fp R)) : Surface K :=
  ⟨s.cpts.map (·.map exact4), s.du, s.dv, s.su, s.sv, s.ku.map Fp.val, s.kv.map Fp.val, s.u0.val, s.u1.val, s.v0.val, s.v1.val⟩

/-- The computed point differs from the exact one by at most `e` in each coordinate. -/
def Within (e : K) (r : Vec3 (Fp R)) (r' : Vec3 K) : Prop :=
  |r.x.val - r'.x| ≤ e ∧ |r.y.val - r'.y| ≤ e ∧ |r.z.val - r'.z| ≤ e

/-- No coordinate is larger than `M`. -/
def Bounded (M : K) (q : Vec3 K) : Prop := |q.x| ≤ M ∧ |q.y| ≤ M ∧ |q.z| ≤ M

end Cmm.Nurbs
