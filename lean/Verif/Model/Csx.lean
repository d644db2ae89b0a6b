import Verif.Model.Surface
import Verif.Model.GJK
import Verif.Model.Separability
import Verif.Model.Ccx
/-!
Model of cmmcore/csx.h over an ordered field `K`.
-/
namespace Cmm.Csx
open Cmm.Nurbs Cmm.Ccx
variable {K : Type} [Field K] [LinearOrder K]

/-- csx.h 29 `CSXInt`: the type (`true` for `DEGENERATE`), the point and the parameters t, u, v. -/
structure Hit (K : Type) where
  degenerate : Bool
  point : Vec3 K
  t : K
  u : K
  v : K
  deriving DecidableEq

/-- What the search calls and is not modelled here: csx.h 192 the result of `newtonsMethod<3>` (`none` if a parameter is not finite), csx.h 213-219
`_is_degenerate`, separability.h 397-454 `SphericalCentralProjectionTest2`; `sqrt` is the square root of `length()`. The functions may end
abnormally. -/
structure Env (K : Type) where
  sqrt : K → K
  newton : Curve K → Surface K → Res (Option (K × K × K))
  isDegenerate : K × K × K → Curve K → Surface K → Res Bool
  onlyThere : Vec3 K → List (Vec3 K) → List (Vec3 K) → Res Bool

/-- nurbs.h 472-479 `get_control_points3d`. -/
def curvePoints (c : Curve K) : List (Vec3 K) := c.cpts.map Vec4.toVec3

/-- nurbs.h 970-985 `control_points_flat3d`. -/
def surfacePoints (s : Surface K) : Res (List (Vec3 K)) := do
  let f ← s.flat
  .ok (f.map Vec4.toVec3)

/-- csx.h 157-174 `_no_new_intersections`; `cpt` is the origin unless `GJK` writes it (vec.h 233), a NaN is not greater than the tolerance. -/
def noNew (env : Env K) (tolerance : K) (curve : Curve K) (surface : Surface K) : Res Bool := do
  let e1 := curvePoints curve
  let e12 ← surfacePoints surface
  let apart ← Sep.aabbTest e1 e12
  if apart then .ok true
  else do
    let out ← Gjk.gjk e1 e12 [] (some 0) (1 / 10 ^ 5) 25
    match out.closest with
    | none => .ok false
    | some p => .ok (decide (tolerance < env.sqrt p.sqLength))

/-- csx.h 206-211 `_is_valid_parameter`. -/
def validParameter (p : K × K × K) (curve : Curve K) (surface : Surface K) : Bool :=
  decide (curve.lo ≤ p.1) && decide (p.1 ≤ curve.hi) && (decide (surface.u0 ≤ p.2.1) && decide (p.2.1 ≤ surface.u1)) &&
    (decide (surface.v0 ≤ p.2.2) && decide (p.2.2 ≤ surface.v1))

/-- csx.h 176-204 `_find_new_intersection`. -/
def findNew (env : Env K) (tolerance : K) (curve : Curve K) (surface : Surface K) : Res (Option (Vec3 K × K × K × K)) := do
  let result ← env.newton curve surface
  match result with
  | none => .ok none
  | some p =>
    if validParameter p curve surface then do
      let cp ← curve.evaluate p.1
      let sp ← surface.evaluate p.2.1 p.2.2
      .ok (if env.sqrt (cp - sp).sqLength ≤ tolerance then some (cp, p) else none)
    else .ok none

/-- csx.h 66-68: an interval shorter than `ptol`. -/
def tooSmall (ptol : K) (curve : Curve K) (surface : Surface K) : Bool :=
  decide (|curve.hi - curve.lo| < ptol) || decide (|surface.u1 - surface.u0| < ptol) || decide (|surface.v1 - surface.v0| < ptol)

/-- csx.h 82-83 and 113-114: the parameters are within `ptol` of the border of the piece. -/
def nearBorder (ptol : K) (surface : Surface K) (u v : K) : Bool :=
  decide (|u - surface.u0| < ptol) || decide (|u - surface.u1| < ptol) || decide (|v - surface.v0| < ptol) || decide (|v - surface.v1| < ptol)

/-- csx.h 125-152: the loop over the four pieces of the surface. `rec` is the recursive call. A positive test of the first half of the curve
`continue`s with the next piece. -/
def descend (env : Env K) (rec : Curve K → Surface K → List (Hit K) → Option (Res (List (Hit K)))) (point : Vec3 K) (curve1 curve2 : Curve K) :
    List (Surface K) → List (Hit K) → Option (Res (List (Hit K)))
  | [], acc => some (.ok acc)
  | s :: rest, acc =>
    andThen (some (surfacePoints s)) fun pts =>
    andThen (some (env.onlyThere point (curvePoints curve1) pts)) fun b1 =>
    if b1 then descend env rec point curve1 curve2 rest acc
    else
      andThen (rec curve1 s acc) fun acc1 =>
      andThen (some (env.onlyThere point (curvePoints curve2) pts)) fun b2 =>
      if b2 then descend env rec point curve1 curve2 rest acc1
      else andThen (rec curve2 s acc1) fun acc2 => descend env rec point curve1 curve2 rest acc2

/-- csx.h 89-101: the calls for all combinations, in order. -/
def allPairs (rec : Curve K → Surface K → List (Hit K) → Option (Res (List (Hit K)))) :
    List (Curve K × Surface K) → List (Hit K) → Option (Res (List (Hit K)))
  | [], acc => some (.ok acc)
  | p :: rest, acc => andThen (rec p.1 p.2 acc) fun acc1 => allPairs rec rest acc1

/-- csx.h 63-155 `_curve_surface_intersect`; `acc` is the list `intersections`. `fuel` bounds the depth of the recursion (`none`: bound reached). -/
def search (env : Env K) (tolerance ptol : K) : Nat → Curve K → Surface K → List (Hit K) → Option (Res (List (Hit K)))
  | 0, _, _, _ => none
  | fuel + 1, curve, surface, acc =>
    if tooSmall ptol curve surface then some (.ok acc)
    else
      andThen (some (noNew env tolerance curve surface)) fun done =>
      if done then some (.ok acc)
      else
        andThen (some (findNew env tolerance curve surface)) fun found =>
        let um := (surface.u0 + surface.u1) * (1 / 2)
        let vm := (surface.v0 + surface.v1) * (1 / 2)
        if nearBorder ptol surface um vm then some (.ok acc)
        else
          match found with
          | none =>
            andThen (some (curve.split (1 / 2 * (curve.lo + curve.hi)) false)) fun c =>
            andThen (some (surface.subdivideAt um vm)) fun s =>
            allPairs (search env tolerance ptol fuel)
              [(c.1, s.1), (c.1, s.2.1), (c.1, s.2.2.1), (c.1, s.2.2.2), (c.2, s.1), (c.2, s.2.1), (c.2, s.2.2.1), (c.2, s.2.2.2)] acc
          | some (point, t, u, v) =>
            andThen (some (env.isDegenerate (t, u, v) curve surface)) fun deg =>
            let acc1 := acc ++ [⟨deg, point, t, u, v⟩]
            if nearBorder ptol surface u v then some (.ok acc1)
            else
              andThen (some (curve.split t false)) fun c =>
              andThen (some (surface.subdivideAt u v)) fun s =>
              descend env (search env tolerance ptol fuel) point c.1 c.2 [s.1, s.2.1, s.2.2.1, s.2.2.2] acc1

/-- csx.h 222-226 `computePtol` for a curve of the given length (division by zero is not modelled). -/
def computePtol (curve : Curve K) (length tolerance : K) : K := tolerance * (curve.hi - curve.lo) / length

/-- csx.h 229-236 `csx`: the list is replaced by what the search finds (csx.h 39-43 starts it empty). -/
def csx (env : Env K) (length : K) (fuel : Nat) (curve : Curve K) (surface : Surface K) (tol : K) : Option (Res (List (Hit K))) :=
  search env tol (computePtol curve length tol) fuel curve surface []

end Cmm.Csx
