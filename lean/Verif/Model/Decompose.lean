import Verif.Model.Surface
/-!
Model of the decomposition of curves and surfaces into Bézier pieces, of joining curves and of the setters
(cmmcore/nurbs.h).
-/
namespace Cmm.Nurbs
variable {K : Type}

section arith
variable [Arith K] [LinearOrder K]

/-- nurbs.h 558-572, the loop of `decompose` over the remaining inner knots: the curve is split at each of them in turn, the first
half is a piece, the second half is split further. -/
def decomposeLoop : List K → Curve K → Res (List (Curve K))
  | [], temp => .ok [temp]
  | knot :: rest, temp => do
    let (first, second) ← temp.split knot false
    let pieces ← decomposeLoop rest second
    .ok (first :: pieces)

/-- nurbs.h 542-573 `NURBSCurve::decompose`: the pieces are appended to `bezierCurves`. The loop runs over the distinct knots
without the first and the last one. -/
def Curve.decompose (c : Curve K) (bezierCurves : List (Curve K)) : Res (List (Curve K)) := do
  let temp ← c.updateInterval
  let pieces ← decomposeLoop (uniqueKnots temp.knots []).tail.dropLast temp
  .ok (bezierCurves ++ pieces)
/-- nurbs.h 1549-1574, the loops of `NURBSSurface::decompose(direction, …)`; `split` is `split_surface_u` or `split_surface_v`
with the default tolerance. -/
def surfDecomposeLoop (split : Surface K → K → Res (Surface K × Surface K)) : List K → Surface K → Res (List (Surface K))
  | [], temp => .ok [temp]
  | knot :: rest, temp => do
    let (first, second) ← split temp knot
    let pieces ← surfDecomposeLoop split rest second
    .ok (first :: pieces)

/-- nurbs.h 1552-1553, 1566-1567: the distinct knots that are neither the first nor the last one. -/
def innerKnots (knots : List K) : List K :=
  let uknots := uniqueKnots knots []
  uknots.filter fun k => decide (k ≠ ix uknots 0) && decide (k ≠ ix uknots (uknots.length - 1))

/-- nurbs.h 1544-1562 `decompose(SurfaceParameter::U, …)`. -/
def Surface.decomposeU (s : Surface K) (out : List (Surface K)) : Res (List (Surface K)) := do
  let temp ← s.updateInterval
  let pieces ← surfDecomposeLoop (fun t k => t.splitU k surfSplitTol) (innerKnots temp.ku) temp
  .ok (out ++ pieces)

/-- nurbs.h 1544-1549, 1563-1575 `decompose(SurfaceParameter::V, …)`. -/
def Surface.decomposeV (s : Surface K) (out : List (Surface K)) : Res (List (Surface K)) := do
  let temp ← s.updateInterval
  let pieces ← surfDecomposeLoop (fun t k => t.splitV k surfSplitTol) (innerKnots temp.kv) temp
  .ok (out ++ pieces)

/-- nurbs.h 1580-1582: every u piece is decomposed in v. -/
def decomposeEach : List (Surface K) → List (Surface K) → Res (List (Surface K))
  | [], out => .ok out
  | item :: rest, out => do
    let out' ← item.decomposeV out
    decomposeEach rest out'

/-- nurbs.h 1577-1583 `decompose`. -/
def Surface.decompose (s : Surface K) (out : List (Surface K)) : Res (List (Surface K)) := do
  let first ← s.decomposeU []
  decomposeEach first out

end arith

variable [Field K] [LinearOrder K]

/-- nurbs.h 481-491 `set_control_points`: new knots only if the number of control points changes. -/
def Curve.setControlPoints (c : Curve K) (cpts : List (Vec4 K)) : Res (Curve K) :=
  if cpts.length ≠ c.cpts.length then
    if c.periodic then ({ c with cpts } : Curve K).generateKnotsPeriodic else ({ c with cpts } : Curve K).generateKnots
  else .ok { c with cpts }

/-- nurbs.h 497-500 `set_degree`: the knots are left as they are. -/
def Curve.setDegree (c : Curve K) (degree : Nat) : Res (Curve K) := ({ c with degree } : Curve K).updateInterval

/-- nurbs.h 506-509 `set_knots`. -/
def Curve.setKnots (c : Curve K) (knots : List K) : Res (Curve K) := ({ c with knots } : Curve K).updateInterval

/-- nurbs.h 464-478 `get_control_points3d`. -/
def Curve.controlPoints3d (c : Curve K) : List (Vec3 K) := c.cpts.map Vec4.toVec3

/-- nurbs.h 598: the tolerance of `join`. -/
def joinTol : K := 1 / 10 ^ 10

/-- vec.h `vec3::distance`. -/
def distance (sqrt : K → K) (a b : Vec3 K) : K := sqrt ((a - b).dot (a - b))

/-- nurbs.h 612-639: the control points of the joined curve for the matching ends, in the order the code tests them. `none` if no
ends match. -/
def joinPoints (a b : List (Vec4 K)) (startStart startEnd endStart endEnd : Bool) : Option (List (Vec4 K)) :=
  if endStart then some (a ++ b)
  else if startStart then some (a.reverse ++ b)
  else if endEnd then some (a ++ b.reverse)
  else if startEnd then some (a.reverse ++ b.reverse)
  else none

/-- nurbs.h 582-651 `join(second, result)`: `none` if the answer is `false` and `result` is left as it was. The division by the
weight of the first and the last point is exact here; a zero weight gives 0 instead of an infinity. `&&`/`||` evaluate
`second.is_periodic()` only if the first is not periodic. -/
def Curve.join (sqrt : K → K) (c second : Curve K) : Res (Option (Curve K)) := do
  let p1 ← c.isPeriodic
  if p1 then .ok none
  else
  let p2 ← second.isPeriodic
  if p2 then .ok none
  else
  let firstStart ← c.evaluate c.lo
  let firstEnd ← c.evaluate c.hi
  let secondStart ← second.evaluate second.lo
  let secondEnd ← second.evaluate second.hi
  let near := fun p q => decide (distance sqrt p q < joinTol)
  match joinPoints c.cpts second.cpts (near firstStart secondStart) (near firstStart secondEnd) (near firstEnd secondStart)
    (near firstEnd secondEnd) with
  | none => .ok none
  | some pts => do
    let newStart := (ix pts 0).toVec3
    let newEnd := (ix pts (pts.length - 1)).toVec3
    let r ← Curve.make pts c.degree (near newStart newEnd)
    .ok (some r)

end Cmm.Nurbs
