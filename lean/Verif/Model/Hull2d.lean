import Verif.Model.Knots
/-!
Model of cmmcore/_convexhull/convexhull2d.h (Graham scan). Only the operations of `Arith` and the order are used, so that the same text is also the rounded one (C149). `int` sizes are natural numbers. `std::sort` is a parameter with
its contract. Only the returned hull; the in-place changes of the argument are in `Model/Hull2dArg`.
-/
namespace Cmm.Hull2d
variable {K : Type}

/-- The requirement of `std::sort` on a comparator, for the elements of the range: a strict weak ordering. -/
structure StrictWeak {α : Type} (cmp : α → α → Bool) (l : List α) : Prop where
  irrefl : ∀ a ∈ l, cmp a a = false
  trans : ∀ a ∈ l, ∀ b ∈ l, ∀ c ∈ l, cmp a b = true → cmp b c = true → cmp a c = true
  incomp : ∀ a ∈ l, ∀ b ∈ l, ∀ c ∈ l, cmp a b = false → cmp b a = false → cmp b c = false → cmp c b = false →
    cmp a c = false ∧ cmp c a = false

/-- `std::sort(first, last, comp)` (convexhull2d.h 87): if the comparator is a strict weak ordering of the elements, the result is a
rearrangement in which no element is less than an earlier one. Nothing is known otherwise. -/
structure StdSort (α : Type) where
  run : (α → α → Bool) → List α → List α
  perm : ∀ cmp l, StrictWeak cmp l → (run cmp l).Perm l
  sorted : ∀ cmp l, StrictWeak cmp l → (run cmp l).Pairwise (fun a b => cmp b a = false)

variable [Arith K] [LinearOrder K]
open Cmm.Nurbs (absA)

/-- The literal `1e-9` of convexhull2d.h 42 and 75. -/
def eps : K := 1 / ((10 ^ 9 : Nat) : K)

/-- convexhull2d.h 40-45 `orientation`: 0 collinear, 1 clockwise, 2 counterclockwise. -/
def orientation (p q r : Vec2 K) : Nat :=
  let val := (q.y - p.y) * (r.x - q.x) - (q.x - p.x) * (r.y - q.y)
  if absA val < eps then 0 else if 0 < val then 1 else 2

/-- convexhull2d.h 30-32 `distSq`. -/
def distSq (p1 p2 : Vec2 K) : K := (p1.x - p2.x) * (p1.x - p2.x) + (p1.y - p2.y) * (p1.y - p2.y)

/-- convexhull2d.h 55-61 `PointComparator::operator()`. -/
def comparator (p0 p1 p2 : Vec2 K) : Bool :=
  let o := orientation p0 p1 p2
  if o = 0 then decide (distSq p0 p1 < distSq p0 p2) else decide (o = 2)

/-- convexhull2d.h 71-77: the loop that looks for the lowest point; `i` is the index of the first point of the list, `best` the index found so
far and `b` the point there. -/
def lowestGo : List (Vec2 K) → Nat → Nat → Vec2 K → Nat
  | [], _, best, _ => best
  | p :: rest, i, best, b =>
    if p.y < b.y ∨ (absA (p.y - b.y) < eps ∧ p.x < b.x) then lowestGo rest (i + 1) i p else lowestGo rest (i + 1) best b

/-- convexhull2d.h 90-97: of successive points in the same direction only the last one is kept. (The loop writes `points[m]` with `m ≤ i`, so
that what it reads later is unchanged.) -/
def farthest (p0 : Vec2 K) : List (Vec2 K) → List (Vec2 K)
  | [] => []
  | [a] => [a]
  | a :: b :: rest => if orientation p0 a b = 0 then farthest p0 (b :: rest) else a :: farthest p0 (b :: rest)

/-- convexhull2d.h 110-112: the inner loop of the scan. The stack is listed from its top; `nextToTop` (15-21) is its second element. -/
def popWhile (q : Vec2 K) : List (Vec2 K) → List (Vec2 K)
  | t :: n :: rest => if orientation n t q ≠ 2 then popWhile q (n :: rest) else t :: n :: rest
  | s => s

/-- convexhull2d.h 109-114: the scan over the remaining points. -/
def scan : List (Vec2 K) → List (Vec2 K) → List (Vec2 K)
  | [], stack => stack
  | q :: rest, stack => scan rest (q :: popWhile q stack)

/-- convexhull2d.h 79-116: what is done once the lowest point is first. -/
def hullFrom (sort : StdSort (Vec2 K)) (p0 : Vec2 K) (tail : List (Vec2 K)) : List (Vec2 K) :=
  match farthest p0 (sort.run (comparator p0) tail) with
  | q1 :: q2 :: rest => (scan rest [q2, q1, p0]).reverse
  | _ => []

/-- convexhull2d.h 65-116 `convex_hull2d`: the returned list. The lowest point is swapped to the front (80, `swap` 24-28). -/
def convexHull2d (sort : StdSort (Vec2 K)) (points : List (Vec2 K)) : List (Vec2 K) :=
  match points with
  | p :: q :: r :: rest =>
    let k := lowestGo (q :: r :: rest) 1 0 p
    let pk := points.getD k p
    match (points.set 0 pk).set k p with
    | [] => []
    | p0 :: tail => hullFrom sort p0 tail
  | _ => points

end Cmm.Hull2d
