import Verif.Model.CsxCode
import Verif.Model.Hull3d
import Verif.Model.QuickHull
/-!
Model of the search of cmmcore/ssx.h with the functions it calls filled in: curve-surface intersection (csx.h) and the hull of points in space (quickhull.hpp).
-/
namespace Cmm.Gauss
open Cmm.Nurbs
variable {K : Type} [Field K] [LinearOrder K]

/-- boundary_intersection.h 249-258 and 266-275: the parts of the answer of `csx` that are read. A recursion deeper than the bound is undefined. -/
def toHits : Option (Res (List (Csx.Hit K))) → Res (List (Bnd.Hit K))
  | some (.ok l) => .ok (l.map fun h => ⟨h.point, h.t, h.u, h.v⟩)
  | some .throws => .throws
  | some .ub => .ub
  | none => .ub

/-- The functions `detectIntersections` (ssx.h 158-255) calls: separability.h 223-236 takes the hull of `convex_hull3d`, boundary_intersection.h 247 and 264
call `csx` with the tolerance of the search. Parameters remain: the square root, the largest and the smallest positive `double`, the insertion into the hash set
of `SAT2D` and `std::sort`; `rounds` bounds the line searches and `depth` the recursion of `csx`. -/
def codeEnv (sqrt : K → K) (big tiny : K) (ins : List (Vec2 K) → Vec2 K → Bool) (sort : Hull2d.StdSort (Vec2 K)) (rounds depth : Nat) : Env K :=
  let base : Env K := ⟨sqrt, big, ins, sort, fun pts => Hull3d.convexHull3d (Quick.quickHull sqrt false) pts [], fun _ _ _ => .ub⟩
  { base with csx := fun tol c s => toHits (Csx.csxCode base tiny rounds depth c s tol) }

end Cmm.Gauss
