import Verif.Model.Vec
import Mathlib.Algebra.Order.Ring.Int
import Mathlib.Algebra.Order.Group.Unbundled.Abs
/-!
Which side of the plane through three points a fourth one is on.
-/
namespace Cmm.Geom
variable {K : Type} [Field K] [LinearOrder K]

/-- Six times the signed volume of the tetrahedron `a b c p`: positive if `p` is on the side of the plane `a b c` from which the triangle runs
counterclockwise, zero if the four points are in a plane. -/
def orient (a b c p : Vec3 K) : K :=
  (b.x - a.x) * ((c.y - a.y) * (p.z - a.z) - (c.z - a.z) * (p.y - a.y)) + (b.y - a.y) * ((c.z - a.z) * (p.x - a.x) - (c.x - a.x) * (p.z - a.z)) +
    (b.z - a.z) * ((c.x - a.x) * (p.y - a.y) - (c.y - a.y) * (p.x - a.x))

/-- No four of the points are in a plane. -/
def NoFourCoplanar (pts : List (Vec3 K)) : Prop :=
  ∀ (i j k l : Nat) (a b c p : Vec3 K), pts[i]? = some a → pts[j]? = some b → pts[k]? = some c → pts[l]? = some p →
    i < j → j < k → k < l → orient a b c p ≠ 0

/-- The coordinates of all points are integers of absolute value at most `bound`. -/
def IntegerPoints (bound : ℤ) (pts : List (Vec3 K)) : Prop :=
  ∀ p ∈ pts, ∃ x y z : ℤ, p = ⟨x, y, z⟩ ∧ |x| ≤ bound ∧ |y| ≤ bound ∧ |z| ≤ bound

/-- All points are on one line (or there is one point only). -/
def OnOneLine (pts : List (Vec3 K)) : Prop := ∃ a d : Vec3 K, ∀ p ∈ pts, ∃ t : K, p = a + d.smul t

/-- All points are in one plane. -/
def InOnePlane (pts : List (Vec3 K)) : Prop := ∃ (m : Vec3 K) (c : K), (m.x ≠ 0 ∨ m.y ≠ 0 ∨ m.z ≠ 0) ∧ ∀ p ∈ pts, m.dot p = c

/-- Three points of the list, given by their places, that make a face of the convex hull: all other points are strictly on the side of their plane from which the
triangle runs clockwise. -/
def HullFace (pts : List (Vec3 K)) (i j k : Nat) : Prop :=
  i ≠ j ∧ j ≠ k ∧ i ≠ k ∧ ∃ a b c, pts[i]? = some a ∧ pts[j]? = some b ∧ pts[k]? = some c ∧
    ∀ (l : Nat) (p : Vec3 K), pts[l]? = some p → l ≠ i → l ≠ j → l ≠ k → orient a b c p < 0

end Cmm.Geom
