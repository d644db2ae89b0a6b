import Verif.Model.AABB
/-! Specification vocabulary for boxes: points of a box, valid boxes, inclusion by coordinates. -/
namespace Cmm
variable {K : Type}

/-- `p` lies in the closed box `b`. -/
def InBox [LE K] (p : Vec3 K) (b : AABB K) : Prop :=
  b.min.x ≤ p.x ∧ p.x ≤ b.max.x ∧ b.min.y ≤ p.y ∧ p.y ≤ b.max.y ∧ b.min.z ≤ p.z ∧ p.z ≤ b.max.z

/-- The box is not inverted on any axis. -/
def ValidBox [LE K] (b : AABB K) : Prop :=
  b.min.x ≤ b.max.x ∧ b.min.y ≤ b.max.y ∧ b.min.z ≤ b.max.z

/-- `a` is inside `b`, bound by bound (for valid boxes: `a ⊆ b` as sets of points, see `boxLe_iff_subset`). -/
def BoxLe [LE K] (a b : AABB K) : Prop :=
  b.min.x ≤ a.min.x ∧ a.max.x ≤ b.max.x ∧ b.min.y ≤ a.min.y ∧ a.max.y ≤ b.max.y ∧
  b.min.z ≤ a.min.z ∧ a.max.z ≤ b.max.z

/-- All bounds are within the range `[low, big]` of the number format. -/
def InRange [LE K] (big low : K) (b : AABB K) : Prop :=
  b.min.x ≤ big ∧ b.min.y ≤ big ∧ b.min.z ≤ big ∧ low ≤ b.max.x ∧ low ≤ b.max.y ∧ low ≤ b.max.z

end Cmm
