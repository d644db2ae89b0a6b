import Verif.Model.Hull2d
import Verif.Model.Plane
import Verif.Model.Surface
/-!
Model of cmmcore/convexhull.h and of the wrapper `convex_hull3d` of cmmcore/_convexhull/quickhull.hpp. The third-party class `quick_hull` is a parameter
here (it is modelled in Model/QuickHull); its points are numbered by their place in the input. Results of type `int`/`size_t` are natural numbers.
-/
namespace Cmm.Hull3d
open Cmm.Hull2d Cmm.Geom Cmm.Nurbs
variable {K : Type} [Field K] [LinearOrder K]

/-- convexhull.h 12-14 `ConvexHullResult`. -/
inductive Kind where
  | volume
  | flat
  | line
  | point
  | empty
  deriving DecidableEq, Repr

/-- quickhull.hpp, `quick_hull<...>{3, eps}` after `add_points`: what `get_affine_basis` answers, and the vertices of the facets after
`create_initial_simplex` and `create_convex_hull`, both as places in the list of points. -/
structure QuickHull (K : Type) where
  basis : List (Vec3 K) → List Nat
  facets : List (Vec3 K) → List (List Nat)

/-- quickhull.hpp 1096-1104: the vertices of the facets in the order of their first occurrence (`unique_points` holds the ones seen). -/
def firstSeen : List Nat → List Nat → List Nat
  | [], _ => []
  | i :: rest, seen => if i ∈ seen then firstSeen rest seen else i :: firstSeen rest (i :: seen)

/-- quickhull.hpp 1046-1106 `convex_hull3d`: the contents of `hull` afterwards, from its contents `out` before. -/
def convexHull3d (qh : QuickHull K) (pts out : List (Vec3 K)) : List (Vec3 K) :=
  if pts.isEmpty then out
  else if pts.length < 5 then pts
  else if (qh.basis pts).length < 4 then (qh.basis pts).map fun i => pts.getD i ⟨0, 0, 0⟩
  else out ++ (firstSeen (qh.facets pts).flatten []).map fun i => pts.getD i ⟨0, 0, 0⟩

/-- convexhull.h 29: `*std::find(pts1.begin(), pts1.end(), i)` with a `vec2`, compared by vec.h 349-351; the end of the vector must not be read. -/
def findXY (pts : List (Vec3 K)) (q : Vec2 K) : Res (Vec3 K) :=
  match pts.find? fun p => decide (q.x = p.x) && decide (q.y = p.y) with
  | some p => .ok p
  | none => .ub

/-- convexhull.h 40-45. -/
def kindOfSize : Nat → Kind
  | 1 => .point
  | 2 => .line
  | 3 => .flat
  | _ => .volume

/-- convexhull.h 16-47 `convex_hull` of points in space: the answer and the contents of `pts1hull` afterwards, from its contents `out` before. -/
def convexHull (sqrt fl : K → K) (sort : StdSort (Vec2 K)) (qh : QuickHull K) (pts out : List (Vec3 K)) : Res (Kind × List (Vec3 K)) :=
  if pts.isEmpty then .ok (.empty, out)
  else if isPtsCoplanar sqrt fl pts machEps then
    if 3 < pts.length then do
      let found ← mapRes (findXY pts) (convexHull2d sort (pts.map fun p => ⟨p.x, p.y⟩))
      .ok (kindOfSize (out ++ found).length, out ++ found)
    else .ok (kindOfSize pts.length, pts)
  else .ok (kindOfSize (convexHull3d qh pts out).length, convexHull3d qh pts out)

/-- convexhull.h 49-64 `convex_hull` of points in the plane; the vector `pts1hull` is replaced, except in the first case. -/
def convexHullPlane (sort : StdSort (Vec2 K)) (pts out : List (Vec2 K)) : Kind × List (Vec2 K) :=
  if pts.isEmpty then (.empty, out)
  else
    let hull := convexHull2d sort pts
    (match hull.length with | 1 => .point | 2 => .line | _ => .flat, hull)

end Cmm.Hull3d
