import Verif.Model.Derivative
import Verif.Model.Surface
import Verif.Model.Plane
/-! Model of the finite-difference derivatives and the normal of `NURBSSurface` (cmmcore/nurbs.h). -/
namespace Cmm.Nurbs
variable {K : Type} [Field K] [LinearOrder K]

/-- nurbs.h 817-824 `derivative_u`: central difference with step `1e-5`. -/
def Surface.derivativeU (s : Surface K) (u v : K) : Res (Vec3 K) := do
  let temp1 ← s.evaluate (u - fdStep) v
  let temp2 ← s.evaluate (u + fdStep) v
  .ok ((temp2 - temp1).sdiv (2 * fdStep))

/-- nurbs.h 826-833 `derivative_v`. -/
def Surface.derivativeV (s : Surface K) (u v : K) : Res (Vec3 K) := do
  let temp1 ← s.evaluate u (v - fdStep)
  let temp2 ← s.evaluate u (v + fdStep)
  .ok ((temp2 - temp1).sdiv (2 * fdStep))

/-- nurbs.h 835-841 `normal`: the cross product of the two derivatives, `normalize`d (vec.h 420-431: only vectors longer than 1
change). -/
def Surface.normal (sqrt : K → K) (s : Surface K) (u v : K) : Res (Vec3 K) := do
  let temp1 ← s.derivativeU u v
  let temp2 ← s.derivativeV u v
  .ok (Geom.unitize3 sqrt (temp1.cross temp2))

end Cmm.Nurbs
