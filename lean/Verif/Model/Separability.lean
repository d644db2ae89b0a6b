import Verif.Model.AABB
import Verif.Model.Arith
import Verif.Model.Knots
import Verif.Model.Plane
import Verif.Model.GJK
/-!
Model of the separation tests of cmmcore/separability.h and cmmcore/polygon.h, those in the plane for any arithmetic. `big` is
`std::numeric_limits<double>::max()`; `none` is NaN.
-/
namespace Cmm.Sep
open Cmm.Geom
variable {K : Type} [Field K] [LinearOrder K]

/-- separability.h 21-25 `AABBTest`. -/
def aabbTest (pts1 pts2 : List (Vec3 K)) : Res Bool := do
  let bb1 ← AABB.ofPoints pts1
  let bb2 ← AABB.ofPoints pts2
  pure (!bb1.intersects bb2)

section sat
/- Only the operations of `Arith` and the order are used in this part, so that the same text is also the rounded one (C152). -/
variable {K : Type} [Arith K] [LinearOrder K]

/-- vec.h 103-108 `vec2::operator==`. -/
def tolEq (a b : Vec2 K) : Bool :=
  decide (Nurbs.absA (a.x - b.x) < 1 / ((2 ^ 52 : Nat) : K)) && decide (Nurbs.absA (a.y - b.y) < 1 / ((2 ^ 52 : Nat) : K))

/-- vec.h 69, 178-180 `vec2::projection`. -/
def projection (a d : Vec2 K) : Option K := if d.dot d = 0 then none else some (a.dot d / d.dot d)

/-- polygon.h 45-47 `contains(UnorderedNormal2Set, vec2)`: `std::find`, hence `operator==` and not the equality of the set. -/
def contains (s : List (Vec2 K)) (v : Vec2 K) : Bool := s.any fun e => tolEq e v

/-- separability.h 26-34 `polygonProject`: least and greatest projection. `std::min(m, r)` and `std::max(m, r)` return `m` for a NaN `r`. -/
def polygonProject (big : K) (polygon : List (Vec2 K)) (direction : Vec2 K) : K × K :=
  polygon.foldl (fun m p =>
    match projection p direction with
    | none => m
    | some r => (min m.1 r, max m.2 r)) (big, -big)

/-- separability.h 37-41 `swapIntervals`. -/
def swapIntervals (mm1 mm2 : K × K) : (K × K) × (K × K) := if mm2.2 < mm1.2 then (mm2, mm1) else (mm1, mm2)

/-- separability.h 63-69 and 86-92: the test of one normal. -/
def apart (big : K) (a b : List (Vec2 K)) (n : Vec2 K) : Bool :=
  let m := swapIntervals (polygonProject big a n) (polygonProject big b n)
  decide (m.1.2 < m.2.1)

omit [Arith K] [LinearOrder K] in
/-- The pairs of successive vertices `(i, (i + 1) % size)`. -/
def edges (polygon : List (Vec2 K)) : List (Vec2 K × Vec2 K) := polygon.zip (polygon.drop 1 ++ polygon.take 1)

/-- The normals of separability.h 57-58 and 80-81, in the order of the loop. -/
def normals (polygon : List (Vec2 K)) : List (Vec2 K) := (edges polygon).map fun e => ⟨e.2.y - e.1.y, e.1.x - e.2.x⟩

/-- The loops of separability.h 55-75 and 78-97 over the normals. `set` is the content of the hash set. Whether `insert` adds a normal depends
on the hash function and on the numbers of buckets; `ins` decides it. Inserting the zero vector throws (polygon.h 22, vec.h 193-195). -/
def satLoop (big : K) (ins : List (Vec2 K) → Vec2 K → Bool) (a b : List (Vec2 K)) : List (Vec2 K) → List (Vec2 K) → Res Bool
  | [], _ => .ok false
  | n :: ns, set =>
    if contains set n then satLoop big ins a b ns set
    else if apart big a b n then .ok true
    else if n.sqLength = 0 then .throws
    else satLoop big ins a b ns (if ins set n then n :: set else set)

/-- separability.h 43-98 `SAT2D`. -/
def sat2d (big : K) (ins : List (Vec2 K) → Vec2 K → Bool) (a b : List (Vec2 K)) : Res Bool :=
  match a, b with
  | [], _ => .throws
  | _, [] => .throws
  | [p], [q] => .ok (!tolEq q p)
  | [p], b => satLoop big ins [p] b (normals b) []
  | a, b => satLoop big ins a b (normals a) []

end sat

/-- separability.h 222-264 `SAT3D`. `convex_hull3d` and the length (which uses `sqrtf`) are parameters; NaN is not greater than `eps`. -/
def sat3d (hull : List (Vec3 K) → List (Vec3 K)) (length : Vec3 K → K) (pts1 pts2 : List (Vec3 K)) (eps : K) : Res Bool := do
  let r ← Gjk.gjk (hull pts1) (hull pts2) [] (some 0) eps 25
  match r.closest with
  | none => pure false
  | some p => pure (decide (eps < length p))

/-- polygon.h 49-53 `PolygonRelationship2D`. -/
inductive Relationship where
  | intersect
  | touch
  | distance
  deriving DecidableEq, Repr

section relationship
/- Only the operations of `Arith` and the order are used in this part, so that the same text is also the rounded one (C150). -/
variable {K : Type} [Arith K] [LinearOrder K]

/-- polygon.h 57-69 `pointInPolygon2D`: the condition for one edge, `i` the current and `j` the previous vertex. -/
def crossesRight (p i j : Vec2 K) : Bool :=
  ((decide (i.y ≤ p.y) && decide (p.y < j.y)) || (decide (j.y ≤ p.y) && decide (p.y < i.y))) &&
    decide (p.x < (j.x - i.x) * (p.y - i.y) / (j.y - i.y) + i.x)

/-- polygon.h 60-67: the loop; `j` is the previous vertex. -/
def insideLoop (p : Vec2 K) : Vec2 K → List (Vec2 K) → Bool → Bool
  | _, [], inside => inside
  | j, i :: rest, inside => insideLoop p i rest (if crossesRight p i j then !inside else inside)

/-- polygon.h 57-69 `pointInPolygon2D`. -/
def pointInPolygon (polygon : List (Vec2 K)) (p : Vec2 K) : Bool :=
  match polygon.getLast? with
  | none => false
  | some l => insideLoop p l polygon false

/-- polygon.h 72-81 `projectPolygon`. -/
def projectPolygon (big : K) (poly : List (Vec2 K)) (axis : Vec2 K) : K × K :=
  poly.foldl (fun m p => (min m.1 (p.dot axis), max m.2 (p.dot axis))) (big, -big)

/-- polygon.h 83-85 `checkOverlap`. -/
def checkOverlap (proj1 proj2 : K × K) : Bool := decide (proj1.1 ≤ proj2.2) && decide (proj2.1 ≤ proj1.2)

/-- polygon.h 88-91: the axes of a polygon. -/
def axes (poly : List (Vec2 K)) : List (Vec2 K) := (edges poly).map fun e => ⟨-(e.2.y - e.1.y), e.2.x - e.1.x⟩

/-- polygon.h 97-109: the loop over the axes; `none` is the early return of `DISTANCE`, otherwise the value of `touching`. -/
def axisLoop (big : K) (poly1 poly2 : List (Vec2 K)) : List (Vec2 K) → Bool → Option Bool
  | [], touching => some touching
  | axis :: rest, touching =>
    let proj1 := projectPolygon big poly1 axis
    let proj2 := projectPolygon big poly2 axis
    if !checkOverlap proj1 proj2 then none
    else axisLoop big poly1 poly2 rest (if proj1.1 = proj2.2 ∨ proj1.2 = proj2.1 then true else touching)

/-- polygon.h 71-122 `polygonRelationship2D`. -/
def polygonRelationship (big : K) (poly1 poly2 : List (Vec2 K)) : Relationship :=
  match axisLoop big poly1 poly2 (axes poly1 ++ axes poly2) false with
  | none => .distance
  | some touching =>
    if poly1.all (pointInPolygon poly2) || poly2.all (pointInPolygon poly1) then .intersect
    else if touching then .touch else .intersect

end relationship

end Cmm.Sep
