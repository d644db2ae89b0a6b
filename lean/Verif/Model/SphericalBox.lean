import Verif.Model.Plane
/-!
Model of `SphericalAABB` (cmmcore/aabb.h) and `SphericalAABBTest` (cmmcore/separability.h) in exact arithmetic. The square root, `std::atan2` and the value of
`2 * M_PI` are parameters. Angles are not NaN, so `std::sort` has one result, computed here by insertion.
-/
namespace Cmm.SBox
variable {K : Type} [Field K] [LinearOrder K]

/-- `std::sort` on numbers: insertion of one number. -/
def ascInsert (x : K) : List K → List K
  | [] => [x]
  | y :: l => if x ≤ y then x :: y :: l else y :: ascInsert x l

/-- aabb.h 359 `std::sort(angles.begin(), angles.end())`. -/
def ascSort : List K → List K
  | [] => []
  | x :: l => ascInsert x (ascSort l)

/-- aabb.h 362, the elements of `std::adjacent_difference` after the first. -/
def adjacentDiffs : List K → List K
  | a :: b :: l => (b - a) :: adjacentDiffs (b :: l)
  | _ => []

/-- aabb.h 361-363 `angle_diffs` for a vector that is not empty. -/
def angleDiffs (twoPi a : K) (l : List K) : List K := (a + twoPi - (a :: l).getLastD a) :: adjacentDiffs (a :: l)

/-- `std::max_element`: the position of the first largest element, given the largest so far `m` at position `pos` and the position `i` of the next one. -/
def maxIdx (m : K) (pos i : Nat) : List K → Nat
  | [] => pos
  | x :: l => if m < x then maxIdx x i (i + 1) l else maxIdx m pos (i + 1) l

/-- aabb.h 354-370 `find_smallest_wedge` for the angles: the pair `start[dim]`, `end[dim]`. Without points `angle_diffs[0]` does not exist. -/
def smallestWedge (twoPi : K) (angles : List K) : Res (K × K) :=
  match ascSort angles with
  | [] => .ub
  | a :: l =>
    let diffs := angleDiffs twoPi a l
    let idx := maxIdx (diffs.headD 0) 0 1 diffs.tail
    .ok ((a :: l).getD idx 0, (a :: l).getD ((idx + 1) % (a :: l).length) 0)

/-- aabb.h 301-305 `class SphericalAABB`: the angles at which the wedges of the three axes begin and end. -/
structure SBox (K : Type) where
  start : Vec3 K
  stop : Vec3 K
  deriving DecidableEq

/-- aabb.h 355-358: the angles of the points in the plane of an axis (312-322). -/
def axisAngles (atan2 : K → K → K) (axis : Nat) (pts : List (Vec3 K)) : List K :=
  pts.map fun p => match axis with
    | 0 => atan2 p.z p.y
    | 1 => atan2 p.x p.z
    | _ => atan2 p.y p.x

/-- aabb.h 344-352 `project_to_sphere`. -/
def projectToSphere (sqrt : K → K) (pts : List (Vec3 K)) (center : Vec3 K) : List (Vec3 K) := pts.map fun p => Geom.unitize3 sqrt (p - center)

/-- aabb.h 308-326, the constructor. -/
def SBox.ofPoints (sqrt : K → K) (atan2 : K → K → K) (twoPi : K) (pts : List (Vec3 K)) (center : Vec3 K) : Res (SBox K) := do
  let s := projectToSphere sqrt pts center
  let x ← smallestWedge twoPi (axisAngles atan2 0 s)
  let y ← smallestWedge twoPi (axisAngles atan2 1 s)
  let z ← smallestWedge twoPi (axisAngles atan2 2 s)
  .ok ⟨⟨x.1, y.1, z.1⟩, ⟨x.2, y.2, z.2⟩⟩

/-- aabb.h 331-332, the test for one axis. -/
def axisSeparable (s e os oe : K) : Bool := (decide (e < os) && decide (oe > s)) || (decide (oe < s) && decide (e > os))

/-- aabb.h 328-337 `separable`. -/
def SBox.separable (a b : SBox K) : Bool :=
  axisSeparable a.start.x a.stop.x b.start.x b.stop.x || axisSeparable a.start.y a.stop.y b.start.y b.stop.y ||
    axisSeparable a.start.z a.stop.z b.start.z b.stop.z

/-- aabb.h 339-341 `intersects`. -/
def SBox.intersects (a b : SBox K) : Bool := !a.separable b

/-- separability.h 280-284 `SphericalAABBTest`, with the default centre 0. -/
def sphericalAABBTest (sqrt : K → K) (atan2 : K → K → K) (twoPi : K) (pts1 pts2 : List (Vec3 K)) : Res Bool := do
  let a ← SBox.ofPoints sqrt atan2 twoPi pts1 ⟨0, 0, 0⟩
  let b ← SBox.ofPoints sqrt atan2 twoPi pts2 ⟨0, 0, 0⟩
  .ok (a.separable b)

end Cmm.SBox
