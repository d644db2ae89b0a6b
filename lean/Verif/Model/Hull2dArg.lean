import Verif.Model.Hull2d
/-!
Model of cmmcore/_convexhull/convexhull2d.h with its effect on the argument: `convex_hull2d` takes the vector by reference, rearranges it and overwrites it.
-/
namespace Cmm.Hull2d
variable {K : Type} [Field K] [LinearOrder K]

/-- convexhull2d.h 90-97: both loops, on the vector itself; `k` points are left, `i` is the place of the first of them. The inner loop goes on while there is
a next point in the same direction from the front of the vector (`i < n - 1` is `k ≠ 0` after the point at `i`); otherwise the point is written to place `m`.
The answer is the vector and the number of points kept. -/
def keepLoop (blank : Vec2 K) : Nat → List (Vec2 K) → Nat → Nat → List (Vec2 K) × Nat
  | 0, v, _, m => (v, m)
  | k + 1, v, i, m =>
    if k ≠ 0 ∧ orientation (v.getD 0 blank) (v.getD i blank) (v.getD (i + 1) blank) = 0 then keepLoop blank k v (i + 1) m
    else keepLoop blank k (v.set m (v.getD i blank)) (i + 1) (m + 1)

/-- convexhull2d.h 65-116 `convex_hull2d`: the returned hull and the contents of the argument afterwards. -/
def convexHull2dRef (sort : StdSort (Vec2 K)) (points : List (Vec2 K)) : List (Vec2 K) × List (Vec2 K) :=
  match points with
  | p :: q :: r :: rest =>
    let k := lowestGo (q :: r :: rest) 1 0 p
    match (points.set 0 (points.getD k p)).set k p with
    | [] => ([], [])
    | p0 :: tail =>
      let sorted := p0 :: sort.run (comparator p0) tail
      let (v, m) := keepLoop p (sorted.length - 1) sorted 1 1
      match v.take m with
      | a :: b :: c :: kept => ((scan kept [c, b, a]).reverse, v)
      | _ => ([], v)
  | _ => (points, points)

end Cmm.Hull2d
