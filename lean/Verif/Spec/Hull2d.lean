import Verif.Spec.Geometry
/-!
What a counterclockwise convex polygon is.
-/
namespace Cmm.Geom
variable {K : Type} [Field K] [LinearOrder K]

/-- Twice the signed area of the triangle `a`, `b`, `c`: positive if it is passed counterclockwise. -/
def turn (a b c : Vec2 K) : K := (b.x - a.x) * (c.y - a.y) - (b.y - a.y) * (c.x - a.x)

/-- The list is a strictly convex polygon, in counterclockwise order: any three of its vertices, taken in order, make a left turn. -/
def ConvexCCW (l : List (Vec2 K)) : Prop := ∀ a b c, [a, b, c].Sublist l → 0 < turn a b c

/-- All the points are on one line. -/
def AllCollinear (l : List (Vec2 K)) : Prop := ∀ a ∈ l, ∀ b ∈ l, ∀ c ∈ l, turn a b c = 0

/-- The points are coarse enough for the tolerance `e`: a triangle of three of them is flat or has twice its area at least `e`, and two of
them are at the same height or at least `e` apart in height. -/
def Resolved (e : K) (l : List (Vec2 K)) : Prop :=
  (∀ a ∈ l, ∀ b ∈ l, ∀ c ∈ l, turn a b c = 0 ∨ e ≤ |turn a b c|) ∧ ∀ a ∈ l, ∀ b ∈ l, a.y = b.y ∨ e ≤ |a.y - b.y|

end Cmm.Geom
