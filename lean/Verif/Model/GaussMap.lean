import Verif.Model.Boundary
import Verif.Model.Csx
import Verif.Model.Decompose
import Verif.Model.Hull2d
import Verif.Model.Monomial
/-!
Model of cmmcore/gauss_map.h, of the spherical test of cmmcore/separability.h and of the search of cmmcore/ssx.h in exact arithmetic.
-/
namespace Cmm.Gauss
open Cmm.Nurbs
variable {K : Type} [Field K] [LinearOrder K]

/-- numeric_utils.h 61-79 `centerProjectionToXY`: the projected point. -/
def centerProjection (origin point : Vec3 K) : Vec2 K :=
  if origin.z = point.z then ⟨point.x, point.y⟩
  else
    let t := -origin.z / (point.z - origin.z)
    ⟨origin.x + t * (point.x - origin.x), origin.y + t * (point.y - origin.y)⟩

/-- What the tests call and this model does not contain: the square root, `std::numeric_limits<double>::max()`, the insertion into the hash
set of `SAT2D`, `std::sort`, `convex_hull3d` and the intersection of a curve with a surface at the given tolerance. -/
structure Env (K : Type) where
  sqrt : K → K
  big : K
  ins : List (Vec2 K) → Vec2 K → Bool
  sort : Hull2d.StdSort (Vec2 K)
  hull3 : List (Vec3 K) → List (Vec3 K)
  csx : K → Curve K → Surface K → Res (List (Bnd.Hit K))

/-- separability.h 300-309 (with the origin (0, 0, 1)) and 399-412: the projections of the `unit()`s (vec.h 432-437) of the points. -/
def projectAll (sqrt : K → K) (origin : Vec3 K) (pts : List (Vec3 K)) : List (Vec2 K) :=
  pts.map fun p => centerProjection origin (Geom.unitize3 sqrt p)

/-- separability.h 324-332 and 427-434: the hull of the projections. `convex_hull2d` takes its argument by reference; an empty hull is replaced
by what it leaves at the front, which is the lowest point (convexhull2d.h 70-80). Without points this is undefined. -/
def hullOrFirst (sort : Hull2d.StdSort (Vec2 K)) (poly : List (Vec2 K)) : Res (List (Vec2 K)) :=
  match Hull2d.convexHull2d sort poly with
  | [] =>
    match poly with
    | [] => .ub
    | p :: rest => .ok [(p :: rest).getD (Hull2d.lowestGo rest 1 0 p) p]
  | h => .ok h

/-- separability.h 397-454 `SphericalCentralProjectionTest2`. -/
def centralTest (env : Env K) (origin : Vec3 K) (pts1 pts2 : List (Vec3 K)) : Res Bool := do
  let h1 ← hullOrFirst env.sort (projectAll env.sqrt origin pts1)
  let h2 ← hullOrFirst env.sort (projectAll env.sqrt origin pts2)
  Sep.sat2d env.big env.ins h1 h2

/-- separability.h 295-352 `SphericalCentralProjectionTest` and 353-364 `SphericalSeparabilityTest`: the origin is (0, 0, 1). -/
def sphericalTest (env : Env K) (pts1 pts2 : List (Vec3 K)) : Res Bool := centralTest env ⟨0, 0, 1⟩ pts1 pts2

/-- gauss_map.h 25-36 `inverseControlPoints` and 45-54 `solveInvPts`. -/
def inverted (pts : List (Vec3 K)) : List (Vec3 K) := pts.map fun p => ⟨-p.x, -p.y, -p.z⟩

/-- The `&&` of two tests: the second one is only made if the first one is true. -/
def andTest (a : Res Bool) (b : Res Bool) : Res Bool := do
  let x ← a
  if x then b else .ok false

/-- gauss_map.h 86-90 and 141-144: the four tests. -/
def separable (env : Env K) (pts1 inv1 pts2 inv2 : List (Vec3 K)) : Res Bool :=
  andTest (sphericalTest env pts1 pts2) <| andTest (sphericalTest env pts1 inv2) <|
    andTest (sphericalTest env inv1 inv2) (sphericalTest env inv1 pts2)

/-- gauss_map.h 132-147 `gaussMapSeparability`. -/
def gaussMapSeparability (env : Env K) (g1 g2 : Surface K) : Res Bool := do
  let pts1 ← Csx.surfacePoints g1
  let pts2 ← Csx.surfacePoints g2
  separable env pts1 (inverted pts1) pts2 (inverted pts2)

/-- gauss_map.h 123-131 `gaussMap`. -/
def gaussMap (s : Surface K) : Res (Surface K) := do
  let mono ← Mono.Monomial.ofSurface s
  let normal ← mono.normal
  normal.toBezier

/-- gauss_map.h 37-56 the members of `class GaussMap`. -/
structure Map (K : Type) where
  pts : List (Vec3 K)
  ptsInv : List (Vec3 K)
  surf : Surface K

/-- gauss_map.h 61-81 the constructor and `build` (into a new object). -/
def Map.build (s : Surface K) : Res (Map K) := do
  let surf ← gaussMap s
  let pts ← Csx.surfacePoints surf
  .ok ⟨pts, inverted pts, surf⟩

/-- gauss_map.h 83-91 `separabilityTest`: one more, unused, call comes first. -/
def Map.separabilityTest (env : Env K) (a b : Map K) : Res Bool := do
  let _ ← sphericalTest env a.pts b.pts
  separable env a.pts a.ptsInv b.pts b.ptsInv

/-- gauss_map.h 105-118: a part of the map from a part of the surface. -/
def Map.ofSurf (surf : Surface K) : Res (Map K) := do
  let pts ← Csx.surfacePoints surf
  .ok ⟨pts, inverted pts, surf⟩

/-- gauss_map.h 94-121 `subdivide`: the order is g11, g12, g21, g22. -/
def Map.subdivide (m : Map K) : Res (Map K × Map K × Map K × Map K) := do
  let _ ← Csx.surfacePoints m.surf
  let umid := 1 / 2 * (m.surf.u1 + m.surf.u0)
  let vmid := 1 / 2 * (m.surf.v1 + m.surf.v0)
  let q ← m.surf.subdivideAt umid vmid
  let g11 ← Map.ofSurf q.1
  let g12 ← Map.ofSurf q.2.1
  let g21 ← Map.ofSurf q.2.2.1
  let g22 ← Map.ofSurf q.2.2.2
  .ok (g11, g12, g21, g22)

/-- ssx.h 90-100 `PointIntersection`. -/
structure PointHit (K : Type) where
  uv1 : K × K
  uv2 : K × K
  xyz : Vec3 K
  deriving DecidableEq

/-- ssx.h 114-119 `Intersection`. -/
structure Found (K : Type) where
  patches : List (Bnd.Point K × Bnd.Point K)
  points : List (PointHit K)

/-- ssx.h 177-180: no side of the box is longer than `tol`. -/
def smallBox (tol : K) (b : AABB K) : Bool :=
  decide (b.max.x - b.min.x ≤ tol) && decide (b.max.y - b.min.y ≤ tol) && decide (b.max.z - b.min.z ≤ tol)

/-- ssx.h 205-208: the box is thin or of small volume. -/
def thinBox (tol : K) (b : AABB K) : Bool :=
  decide (b.volume < tol) || decide (|b.max.x - b.min.x| ≤ tol) || decide (|b.max.y - b.min.y| ≤ tol) || decide (|b.max.z - b.min.z| ≤ tol)

/-- ssx.h 186-199: the point that stands for two small surfaces. -/
def midHit (s1 s2 : Surface K) (b1 b2 : AABB K) : PointHit K :=
  ⟨(1 / 2 * (s1.u1 + s1.u0), 1 / 2 * (s1.v1 + s1.v0)), (1 / 2 * (s2.u1 + s2.u0), 1 / 2 * (s2.v1 + s2.v0)),
    ⟨(b1.min.x + b1.max.x + b2.min.x + b2.max.x) * (1 / 4), (b1.min.y + b1.max.y + b2.min.y + b2.max.y) * (1 / 4),
      (b1.min.z + b1.max.z + b2.min.z + b2.max.z) * (1 / 4)⟩⟩

/-- ssx.h 248-254: the recursive calls for the parts, in order. A job is a pair of parts with the parts of the Gauss maps. -/
def forJobs (rec : Surface K → Surface K → Surface K → Surface K → Found K → Option (Res (Found K))) :
    List (Surface K × Surface K × Surface K × Surface K) → Found K → Option (Res (Found K))
  | [], acc => some (.ok acc)
  | j :: rest, acc => Ccx.andThen (rec j.1 j.2.1 j.2.2.1 j.2.2.2 acc) fun acc1 => forJobs rec rest acc1

/-- All combinations of the elements of `l1` and `l2` (each a part with the part of its Gauss map), the second index running fastest. -/
def jobs (l1 l2 : List (Surface K × Surface K)) : List (Surface K × Surface K × Surface K × Surface K) :=
  l1.flatMap fun a => l2.map fun b => (a.1, b.1, a.2, b.2)

/-- The four parts of a surface together with the four parts of its Gauss map. -/
def fourParts (s g : Surface K × Surface K × Surface K × Surface K) : List (Surface K × Surface K) :=
  [(s.1, g.1), (s.2.1, g.2.1), (s.2.2.1, g.2.2.1), (s.2.2.2, g.2.2.2)]

/-- ssx.h 158-255 `detectIntersections`; `acc` is the output structure. `fuel` bounds the depth of the recursion (`none`: bound reached). The
counter and the debugging output are left out. -/
def detect [FloorRing K] (env : Env K) (tol : K) : Nat → Surface K → Surface K → Surface K → Surface K → Found K → Option (Res (Found K))
  | 0, _, _, _, _, _ => none
  | fuel + 1, s1, s2, g1, g2, acc =>
    Ccx.andThen (some s1.bbox) fun b1 =>
    Ccx.andThen (some s2.bbox) fun b2 =>
    if !b1.intersects b2 then some (.ok acc)
    else if smallBox tol b1 && smallBox tol b2 then some (.ok { acc with points := acc.points ++ [midHit s1 s2 b1 b2] })
    else if thinBox tol (b1.intersection b2 (AABB.init env.big (-env.big))).2 then some (.ok acc)
    else
      Ccx.andThen (some (Csx.surfacePoints s1)) fun p1 =>
      Ccx.andThen (some (Csx.surfacePoints s2)) fun p2 =>
      Ccx.andThen (some (Sep.sat3d env.hull3 (fun v => env.sqrt v.sqLength) p1 p2 tol)) fun apart =>
      if apart then some (.ok acc)
      else
        Ccx.andThen (some (gaussMapSeparability env g1 g2)) fun simple =>
        if simple then
          Ccx.andThen (some (Bnd.processSimple (env.csx tol) s1 s2 acc.patches)) fun patches => some (.ok { acc with patches })
        else
          Ccx.andThen (some s1.subdivide) fun q1 =>
          Ccx.andThen (some s2.subdivide) fun q2 =>
          Ccx.andThen (some g1.subdivide) fun h1 =>
          Ccx.andThen (some g2.subdivide) fun h2 =>
          forJobs (detect env tol fuel) (jobs (fourParts q1 h1) (fourParts q2 h2)) acc

/-- ssx.h 259-298 `findStartIntersectionPoints`: all pairs of Bézier patches with their Gauss maps. -/
def findStart [FloorRing K] (env : Env K) (tol : K) (fuel : Nat) (ns1 ns2 : Surface K) (acc : Found K) : Option (Res (Found K)) :=
  Ccx.andThen (some (ns1.decompose [])) fun surfs =>
  Ccx.andThen (some (ns2.decompose [])) fun surfs2 =>
  Ccx.andThen (some (mapRes gaussMap surfs)) fun g1 =>
  Ccx.andThen (some (mapRes gaussMap surfs2)) fun g2 =>
  forJobs (detect env tol fuel) (jobs (surfs.zip g1) (surfs2.zip g2)) acc

end Cmm.Gauss
