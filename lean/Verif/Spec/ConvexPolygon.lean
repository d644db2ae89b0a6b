import Verif.Spec.Hull2d
import Verif.Spec.Separability
/-!
What a convex polygon of either orientation is, and what the interior of a convex hull is.
-/
namespace Cmm.Geom
variable {K : Type} [Field K] [LinearOrder K]

/-- A strictly convex polygon with at least three vertices, in counterclockwise or in clockwise order. -/
def ConvexPolygon (l : List (Vec2 K)) : Prop := 3 ≤ l.length ∧ (ConvexCCW l ∨ ConvexCCW l.reverse)

/-- The point is in the interior of the convex hull: in every direction there is a point of the list beyond it. -/
def Interior2 (l : List (Vec2 K)) (p : Vec2 K) : Prop :=
  ∀ n : Vec2 K, n ≠ ⟨0, 0⟩ → ∃ v ∈ l, p.x * n.x + p.y * n.y < v.x * n.x + v.y * n.y

end Cmm.Geom
