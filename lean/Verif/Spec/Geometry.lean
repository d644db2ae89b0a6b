import Verif.Model.Vec
/-!
What the geometric properties are stated with: distances, segments, lines and triangles, written in coordinates.
-/
namespace Cmm.Geom
variable {K : Type} [Field K] [LinearOrder K]

/-- Square of the distance of two points. -/
def sqDist (p q : Vec3 K) : K := (p.x - q.x) ^ 2 + (p.y - q.y) ^ 2 + (p.z - q.z) ^ 2

/-- The point with weights `1 - t` and `t` on the line through `a` and `b`. -/
def along (a b : Vec3 K) (t : K) : Vec3 K := ⟨(1 - t) * a.x + t * b.x, (1 - t) * a.y + t * b.y, (1 - t) * a.z + t * b.z⟩

/-- The infinite line through `a` and `b`. -/
def OnLine (a b p : Vec3 K) : Prop := ∃ t, p = along a b t

/-- The ray from `a` through `b`. -/
def OnRay (a b p : Vec3 K) : Prop := ∃ t, 0 ≤ t ∧ p = along a b t

/-- The closed segment from `a` to `b`. -/
def OnSegment (a b p : Vec3 K) : Prop := ∃ t, 0 ≤ t ∧ t ≤ 1 ∧ p = along a b t

/-- The closed triangle with corners `a`, `b`, `c`. -/
def OnTriangle (a b c p : Vec3 K) : Prop :=
  ∃ u v w, 0 ≤ u ∧ 0 ≤ v ∧ 0 ≤ w ∧ u + v + w = 1 ∧
    p = ⟨u * a.x + v * b.x + w * c.x, u * a.y + v * b.y + w * c.y, u * a.z + v * b.z + w * c.z⟩

/-- The three points are on one line. -/
def Collinear (a b c : Vec3 K) : Prop :=
  (b.y - a.y) * (c.z - a.z) = (b.z - a.z) * (c.y - a.y) ∧ (b.z - a.z) * (c.x - a.x) = (b.x - a.x) * (c.z - a.z) ∧
    (b.x - a.x) * (c.y - a.y) = (b.y - a.y) * (c.x - a.x)

/-- `p` belongs to the set `S` and no point of `S` is closer to `o`. -/
def Closest (S : Vec3 K → Prop) (o p : Vec3 K) : Prop := S p ∧ ∀ q, S q → sqDist o p ≤ sqDist o q

/-- The point satisfies the plane equation `x X + y Y + z Z + w = 0`. -/
def OnPlane (e : Vec4 K) (p : Vec3 K) : Prop := e.x * p.x + e.y * p.y + e.z * p.z + e.w = 0

/-- The normals of the two planes are linearly dependent. -/
def ParallelPlanes (e f : Vec4 K) : Prop := e.y * f.z = e.z * f.y ∧ e.z * f.x = e.x * f.z ∧ e.x * f.y = e.y * f.x

/-- The convex hull of finitely many points: the weighted means `Σ wᵢ pᵢ` with weights `wᵢ ≥ 0` of sum 1. The weights are given as a list
of the same length. -/
def InHull (pts : List (Vec3 K)) (p : Vec3 K) : Prop :=
  ∃ w : List K, w.length = pts.length ∧ (∀ x ∈ w, 0 ≤ x) ∧ w.sum = 1 ∧
    p.x = (List.zipWith (fun a v => a * v.x) w pts).sum ∧ p.y = (List.zipWith (fun a v => a * v.y) w pts).sum ∧
    p.z = (List.zipWith (fun a v => a * v.z) w pts).sum

/-- The convex hull of finitely many points of the plane. -/
def InHull2 (pts : List (Vec2 K)) (p : Vec2 K) : Prop :=
  ∃ w : List K, w.length = pts.length ∧ (∀ x ∈ w, 0 ≤ x) ∧ w.sum = 1 ∧
    p.x = (List.zipWith (fun a v => a * v.x) w pts).sum ∧ p.y = (List.zipWith (fun a v => a * v.y) w pts).sum

end Cmm.Geom
