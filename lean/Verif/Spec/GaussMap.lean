import Verif.Spec.Geometry
/-! Specification vocabulary for Gauss maps. -/
namespace Cmm.Gauss
variable {K : Type} [Field K] [LinearOrder K]

/-- The point `(x, y, 0)` of the plane `z = 0` is on the line through `o` and `p`. -/
def OnRay (o p : Vec3 K) (q : Vec2 K) : Prop :=
  ∃ t, q.x = o.x + t * (p.x - o.x) ∧ q.y = o.y + t * (p.y - o.y) ∧ 0 = o.z + t * (p.z - o.z)

/-- Neither vector is zero and one is a multiple of the other. -/
def Parallel (a b : Vec3 K) : Prop := a ≠ 0 ∧ b ≠ 0 ∧ ∃ t, a = b.smul t

end Cmm.Gauss
