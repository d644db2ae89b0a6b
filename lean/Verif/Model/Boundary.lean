import Verif.Model.Surface
import Verif.Model.Hash
/-!
Model of cmmcore/boundary_intersection.h (intersection points, duplicate removal, ordering) and of the parameter step of cmmcore/ssx.h.
The curve-surface intersection is a parameter here; it is modelled in `Model/Csx.lean`.
-/
namespace Cmm.Bnd
open Cmm.Nurbs
variable {K : Type}

/-- A hit of `csx`: the point, the curve parameter and the two surface parameters (csx.h 29; the type tag is not read). -/
structure Hit (K : Type) where
  point : Vec3 K
  t : K
  u : K
  v : K

/-- boundary_intersection.h 125-135 `IntersectionPoint`. -/
structure Point (K : Type) where
  point : Vec3 K
  curveParam : K
  surfaceParams : K × K
  params1 : K × K
  params2 : K × K
  boundary : Nat
  fromFirst : Bool
  iv : (K × K) × (K × K)

/-- boundary_intersection.h 183-188 `boundary_index_to_params`. -/
def boundaryParams (iv : (K × K) × (K × K)) (boundary : Nat) (t : K) : K × K :=
  if boundary = 0 then (iv.1.1, t)
  else if boundary = 1 then (iv.1.2, t)
  else if boundary = 2 then (t, iv.2.1)
  else (t, iv.2.2)

/-- boundary_intersection.h 137-158 the constructor. -/
def Point.make (point : Vec3 K) (t : K) (sp : K × K) (boundary : Nat) (fromFirst : Bool) (iv : (K × K) × (K × K)) : Point K :=
  if fromFirst then ⟨point, t, sp, boundaryParams iv boundary t, sp, boundary, fromFirst, iv⟩
  else ⟨point, t, sp, sp, boundaryParams iv boundary t, boundary, fromFirst, iv⟩

/-- boundary_intersection.h 160-174 `get_start_params`. -/
def Point.startParams (p : Point K) : (K × K) × (K × K) :=
  if p.fromFirst then (boundaryParams p.iv p.boundary p.curveParam, (p.surfaceParams.1, p.surfaceParams.2))
  else ((p.surfaceParams.1, p.surfaceParams.2), boundaryParams p.iv p.boundary p.curveParam)

/-- boundary_intersection.h 106-120 `extract_surface_boundaries`, the free function. -/
def freeBoundaries [Field K] [LinearOrder K] (s : Surface K) : Res (List (Curve K)) := do
  let a ← freeIsocurveU s s.u0
  let b ← freeIsocurveU s s.u1
  let c ← freeIsocurveV s s.v0
  let d ← freeIsocurveV s s.v1
  pure [a, b, c, d]

/-- boundary_intersection.h 245-259 (true) and 262-276 (false; the missing `clear` is harmless, `csx` replaces the list): the hits of the boundary curves from number `i` on with the other surface. -/
def collect (csx : Curve K → Surface K → Res (List (Hit K))) (other : Surface K) (fromFirst : Bool) (iv : (K × K) × (K × K)) :
    List (Curve K) → Nat → Res (List (Point K))
  | [], _ => .ok []
  | c :: cs, i => do
    let hits ← csx c other
    let rest ← collect csx other fromFirst iv cs (i + 1)
    pure (hits.map (fun h => Point.make h.point h.t (h.u, h.v) i fromFirst iv) ++ rest)

/-- `contains(unique_points, point)` on the `Vec3Set`: some member is equal under `Vec3Equal`. (Equal keys have equal hashes, theorem C54, so the
buckets do not matter; the model compares with every member.) -/
def contains [Field K] [LinearOrder K] [FloorRing K] (p : Vec3 K) : List (Vec3 K) → Res Bool
  | [] => .ok false
  | q :: qs => do
    let b ← Hash.vec3Equal q p
    let c ← contains p qs
    pure (b || c)

/-- boundary_intersection.h 280-297: removes duplicates from the back; the argument is the reversed list, the result is in the original order. -/
def dedupFrom [Field K] [LinearOrder K] [FloorRing K] : List (Point K) → List (Vec3 K) → List (Point K) → Res (List (Point K))
  | [], _, kept => .ok kept
  | p :: ps, seen, kept => do
    let _ ← Hash.vec3Hash p.point
    let b ← contains p.point seen
    if b then dedupFrom ps seen kept else dedupFrom ps (p.point :: seen) (p :: kept)

/-- boundary_intersection.h 280-297. -/
def dedup [Field K] [LinearOrder K] [FloorRing K] (ps : List (Point K)) : Res (List (Point K)) := dedupFrom ps.reverse [] []

/-- boundary_intersection.h 230-298 `find_boundary_intersections`; `acc` are the points already in the output vector. -/
def findBoundaryIntersections [Field K] [LinearOrder K] [FloorRing K] (csx : Curve K → Surface K → Res (List (Hit K))) (s1 s2 : Surface K)
    (acc : List (Point K)) : Res (List (Point K)) := do
  let b1 ← freeBoundaries s1
  let b2 ← freeBoundaries s2
  let p1 ← collect csx s2 true ((s1.u0, s1.u1), (s1.v0, s1.v1)) b1 0
  let p2 ← collect csx s1 false ((s2.u0, s2.u1), (s2.v0, s2.v1)) b2 0
  dedup (acc ++ p1 ++ p2)

/-- boundary_intersection.h 330-342: scans the unassigned points in order; `best` is the position and distance of the nearest so far. The first
distance is always less than infinity (real arithmetic: distances are finite). -/
def scan {α : Type} [LinearOrder K] (dist : α → K) : List α → Nat → Option (Nat × K) → Option (Nat × K)
  | [], _, best => best
  | a :: as, i, none => scan dist as (i + 1) (some (i, dist a))
  | a :: as, i, some (j, d) => scan dist as (i + 1) (if dist a < d then some (i, dist a) else some (j, d))

/-- boundary_intersection.h 320-355: the sequences. The argument is the list of unassigned points in index order (`std::set`); `fuel` bounds the
rounds of the outer loop. The inner loop ends when nothing is left or after the second point. -/
def sequences {α : Type} [LinearOrder K] (dist : α → α → K) : Nat → List α → Option (List (List α))
  | _, [] => some []
  | 0, _ :: _ => none
  | fuel + 1, a :: rest =>
    match scan (dist a) rest 0 none with
    | none => (sequences dist fuel rest).map fun r => [a] :: r
    | some (j, _) => match rest[j]? with
      | none => none
      | some b => (sequences dist fuel (rest.eraseIdx j)).map fun r => [a, b] :: r

/-- boundary_intersection.h 305-358 `sort_boundary_intersections`; `dist a b` is `(a.point - b.point).length()`; the sequences are appended to
`result`. -/
def sortIntersections {α : Type} [LinearOrder K] (dist : α → α → K) (points : List α) (result : List (List α)) : Option (List (List α)) :=
  if points.isEmpty then some result else (sequences dist points.length points).map fun s => result ++ s

/-- ssx.h 121-155 `processSimpleSurfaceIntersection`: the first and the last boundary point become a patch when there are two or more points. -/
def processSimple [Field K] [LinearOrder K] [FloorRing K] (csx : Curve K → Surface K → Res (List (Hit K))) (s1 s2 : Surface K)
    (patches : List (Point K × Point K)) : Res (List (Point K × Point K)) := do
  let ixs ← findBoundaryIntersections csx s1 s2 []
  match ixs[0]?, ixs[ixs.length - 1]? with
  | some a, some b => pure (if ixs.length ≥ 2 then patches ++ [(a, b)] else patches)
  | _, _ => pure patches

end Cmm.Bnd
