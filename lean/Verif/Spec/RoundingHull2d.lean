import Verif.Model.Vec
import Verif.Spec.Rounding
import Verif.Spec.Separability
/-! Points of the plane with floating-point coordinates. -/
namespace Cmm.Hull2d
variable {K : Type} [Field K] [LinearOrder K]

/-- The point in the plane that a pair of numbers of the format stands for. -/
def value {R : Rounding K} (p : Vec2 (Fp R)) : Vec2 K := ⟨p.x.val, p.y.val⟩

end Cmm.Hull2d

namespace Cmm.Sep
variable {K : Type} [Field K] [LinearOrder K]

/-- The position of the point `v` in the direction normal to the edge from `p` to `q`, times the length of the edge, without rounding. -/
def along {R : Rounding K} (p q v : Vec2 (Fp R)) : K := v.x.val * -(q.y.val - p.y.val) + v.y.val * (q.x.val - p.x.val)

/-- The horizontal line through `p` meets no edge of the polygon within the distance `d` of `p` (an edge includes its lower end and not its upper one). -/
def Clear (d : K) (poly : List (Vec2 K)) (p : Vec2 K) : Prop :=
  ∀ a b, Geom.IsEdge poly a b → ((a.y ≤ p.y ∧ p.y < b.y) ∨ (b.y ≤ p.y ∧ p.y < a.y)) → d ≤ |p.x - (b.x + (a.x - b.x) * (p.y - b.y) / (a.y - b.y))|

end Cmm.Sep
