import Verif.Model.Polyline
/-! Specification vocabulary for polyline assembly. -/
namespace Cmm.Poly
variable {K : Type} [Field K] [LinearOrder K]

/-- Two points closer than the machine epsilon. -/
def Near (p q : Vec3 K) : Prop := (p - q).dot (p - q) < (1 / 2 ^ 52) ^ 2

/-- The edge from `p` to `q` is the segment `s`, in one of the two directions and up to the tolerance. -/
def Matches (s : Segment K) (p q : Vec3 K) : Prop := Near p s.p1 ∧ Near q s.p2 ∨ Near p s.p2 ∧ Near q s.p1

/-- The edges of the path are, in this order, the segments with these positions. -/
def Traces (segments : List (Segment K)) : List (Vec3 K) → List Nat → Prop
  | [_], [] => True
  | p :: q :: path, i :: ids => (∃ s, segments[i]? = some s ∧ Matches s p q) ∧ Traces segments (q :: path) ids
  | _, _ => False

/-- `p` is an end of the segment at position `i`. -/
def IsEndOf (segments : List (Segment K)) (i : Nat) (p : Vec3 K) : Prop := ∃ s, segments[i]? = some s ∧ (p = s.p1 ∨ p = s.p2)

/-- No segment of `ids` can be attached to an end of the path: none of their ends passes the proximity test. -/
def Exhausted (length : Vec3 K → K) (segments : List (Segment K)) (path : List (Vec3 K)) (ids : List Nat) : Prop :=
  ∀ i ∈ ids, ∀ p, IsEndOf segments i p → ∀ e, path.head? = some e ∨ path.getLast? = some e → ¬ length (p - e) < 1 / 2 ^ 52

/-- What is used of `length`: it does not report less than the machine epsilon for a longer vector. -/
def LengthOk (length : Vec3 K → K) : Prop := ∀ v, length v < 1 / 2 ^ 52 → v.dot v < (1 / 2 ^ 52) ^ 2

end Cmm.Poly
