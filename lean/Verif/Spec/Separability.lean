import Verif.Spec.Geometry
/-!
What separation along a direction is.
-/
namespace Cmm.Geom
variable {K : Type} [Field K] [LinearOrder K]

/-- In the direction `n` all points of one list come strictly before all points of the other. -/
def SeparatedAlong (a b : List (Vec2 K)) (n : Vec2 K) : Prop :=
  (∀ p ∈ a, ∀ q ∈ b, p.x * n.x + p.y * n.y < q.x * n.x + q.y * n.y) ∨ (∀ p ∈ a, ∀ q ∈ b, q.x * n.x + q.y * n.y < p.x * n.x + p.y * n.y)

/-- In the direction `n` no point of one list comes after a point of the other. -/
def WeaklySeparatedAlong (a b : List (Vec2 K)) (n : Vec2 K) : Prop :=
  (∀ p ∈ a, ∀ q ∈ b, p.x * n.x + p.y * n.y ≤ q.x * n.x + q.y * n.y) ∨ (∀ p ∈ a, ∀ q ∈ b, q.x * n.x + q.y * n.y ≤ p.x * n.x + p.y * n.y)

/-- `p` and `q` are successive vertices of the closed polygon. -/
def IsEdge (poly : List (Vec2 K)) (p q : Vec2 K) : Prop :=
  ∃ i, i < poly.length ∧ poly[i]? = some p ∧ poly[(i + 1) % poly.length]? = some q

/-- No point belongs to the convex hulls of both lists. -/
def Disjoint2 (a b : List (Vec2 K)) : Prop := ∀ p, ¬ (InHull2 a p ∧ InHull2 b p)

end Cmm.Geom
