import Verif.Model.Decompose
import Verif.Model.Derivative
import Verif.Model.Ccx
import Verif.Model.Surface
/-!
Model of `NURBSCurve` (cmmcore/nurbs.h) as an object with its cached box: the constructors, copies and moves, and the public calls that
change it. The cached hull `_hull` is left out: nothing writes or reads it but the copies.
-/
namespace Cmm.Nurbs
variable {K : Type} [Field K] [LinearOrder K]

/-- nurbs.h 518-526: the curve and the cached box `_aabb`. -/
structure CurveObj (K : Type) where
  curve : Curve K
  box : AABB K
  deriving DecidableEq

/-- nurbs.h 54, 518-526: the members of a default constructed curve; `big` and `low` are the limits of `AABB()` (aabb.h 18-21). -/
def CurveObj.blank (big low : K) : CurveObj K := ⟨⟨[], 0, [], false, 0, 1⟩, AABB.init big low⟩

/-- nurbs.h 528-539 `rebuildAABB` and `bbox`. -/
def CurveObj.rebuild (o : CurveObj K) : Res (CurveObj K) := do
  let b ← o.curve.bbox
  .ok { o with box := b }

/-- nurbs.h 107-118: from control points, degree and flag. -/
def CurveObj.make (big low : K) (cpts : List (Vec4 K)) (degree : Nat) (periodic : Bool) : Res (CurveObj K) := do
  let c : Curve K := ⟨cpts, degree, [], periodic, 0, 1⟩
  let c ← if periodic then c.generateKnotsPeriodic else c.generateKnots
  let c ← if periodic then c.makePeriodic else .ok c
  CurveObj.rebuild ⟨c, AABB.init big low⟩

/-- nurbs.h 120-125: from control points, degree, knots and flag. -/
def CurveObj.ofKnots (big low : K) (cpts : List (Vec4 K)) (degree : Nat) (knots : List K) (periodic : Bool) : Res (CurveObj K) := do
  let c ← (⟨cpts, degree, knots, periodic, 0, 1⟩ : Curve K).updateInterval
  CurveObj.rebuild ⟨c, AABB.init big low⟩

/-- nurbs.h 57, 73 the degree that the constructors without a degree choose. -/
def defaultDegree (n : Nat) : Nat := if 4 ≤ n then 3 else 1

/-- nurbs.h 56-58, 72-74: from control points, with or without the flag. -/
def CurveObj.ofPoints (big low : K) (cpts : List (Vec4 K)) (periodic : Bool) : Res (CurveObj K) :=
  CurveObj.make big low cpts (defaultDegree cpts.length) periodic

/-- vec.h 743-748 `vec4::set(vec3)`: the weight becomes 1. -/
def Vec3.withWeight (p : Vec3 K) : Vec4 K := ⟨p.x, p.y, p.z, 1⟩

/-- nurbs.h 76-78, 85-104: from points without weights. -/
def CurveObj.of3d (big low : K) (pts : List (Vec3 K)) (degree : Nat) (periodic : Bool) : Res (CurveObj K) :=
  CurveObj.make big low (pts.map Vec3.withWeight) degree periodic

/-- nurbs.h 60-70: from a number of control points; they are all zero (vec.h 689), the box is not built and the points are not
repeated for a periodic curve. -/
def CurveObj.ofSize (big low : K) (n degree : Nat) (periodic : Bool) : Res (CurveObj K) := do
  let c : Curve K := ⟨List.replicate n ⟨0, 0, 0, 0⟩, degree, [], periodic, 0, 1⟩
  let c ← if periodic then c.generateKnotsPeriodic else c.generateKnots
  let c ← c.updateInterval
  .ok ⟨c, AABB.init big low⟩

/-- nurbs.h 128-136 the copy constructor and 149-158 the assignment `o = other`: member by member onto the old object. -/
def CurveObj.assign (o other : CurveObj K) : CurveObj K :=
  { o with
    curve := { o.curve with
      cpts := other.curve.cpts, degree := other.curve.degree, knots := other.curve.knots, periodic := other.curve.periodic,
      lo := other.curve.lo, hi := other.curve.hi },
    box := other.box }

/-- nurbs.h 138-147 the move constructor: member by member onto a default constructed object; the flag is not among them. The source
keeps its members. -/
def CurveObj.moved (big low : K) (other : CurveObj K) : CurveObj K :=
  { CurveObj.blank big low with
    curve := { (CurveObj.blank big low).curve with
      cpts := other.curve.cpts, degree := other.curve.degree, knots := other.curve.knots, lo := other.curve.lo, hi := other.curve.hi },
    box := other.box }

/-- nurbs.h 451-457 `get_derivative()`: the box of the result is not built. -/
def CurveObj.derivative (big low : K) (o : CurveObj K) : Res (CurveObj K) := do
  let c ← o.curve.getDerivative
  .ok ⟨c, AABB.init big low⟩

/-- The public calls that change a curve. -/
inductive CurveOp (K : Type) where
  | insertKnot (t : K) (count : Nat)
  | setControlPoints (cpts : List (Vec4 K))
  | setDegree (degree : Nat)
  | setKnots (knots : List K)
  | normalizeKnots
  | makePeriodic
  | bbox

/-- One call: nurbs.h 243-265, 481-491, 497-500, 506-509, 186-195, 211-229 leave the box alone, 536-539 rebuilds it. -/
def CurveObj.step (o : CurveObj K) : CurveOp K → Res (CurveObj K)
  | .insertKnot t count => do .ok { o with curve := ← o.curve.insertKnot t count }
  | .setControlPoints cpts => do .ok { o with curve := ← o.curve.setControlPoints cpts }
  | .setDegree degree => do .ok { o with curve := ← o.curve.setDegree degree }
  | .setKnots knots => do .ok { o with curve := ← o.curve.setKnots knots }
  | .normalizeKnots => do .ok { o with curve := ← o.curve.normalizeKnots }
  | .makePeriodic => do .ok { o with curve := ← o.curve.makePeriodic }
  | .bbox => o.rebuild

/-- A sequence of calls. -/
def CurveObj.run (o : CurveObj K) : List (CurveOp K) → Res (CurveObj K)
  | [] => .ok o
  | op :: rest => do
    let o' ← o.step op
    o'.run rest

/-- nurbs.h 732-760 the constructor of a surface from points without weights: no check for an empty grid, `control_points[0]` is read. -/
def Surface.of3d (pts : List (List (Vec3 K))) (du dv : Nat) (ku kv : List K) : Res (Surface K) :=
  match pts with
  | [] => .ub
  | r :: rest => do
    let su := (r :: rest).length
    let sv := r.length
    let ku' ← if ku.isEmpty then Nurbs.generateKnots su du else .ok ku
    let kv' ← if kv.isEmpty then Nurbs.generateKnots sv dv else .ok kv
    (⟨(r :: rest).map fun q => q.map Vec3.withWeight, du, dv, su, sv, ku', kv', 0, 0, 0, 0⟩ : Surface K).updateInterval

/-- nurbs.h 712, 1074-1076 `aabb` of a surface: the member that no function of the class assigns. -/
def Surface.aabb (big low : K) (_ : Surface K) : AABB K := AABB.init big low

/-- ccx.h 92-120 `ccx` on two objects: the boxes that it compares first are the cached ones of `aabb()`; the pieces that it goes on with
come from `split`, whose boxes are fresh. -/
def ccxObj (sqrt : K → K) (tol : K) (fuel : Nat) (o1 o2 : CurveObj K) (result : List (K × K)) : Option (Res (List (K × K))) :=
  if o1.box.intersects o2.box then
    if Ccx.small sqrt tol o1.box && Ccx.small sqrt tol o2.box then
      some (.ok (Ccx.report tol result (1 / 2 * (o1.curve.lo + o1.curve.hi)) (1 / 2 * (o2.curve.lo + o2.curve.hi))))
    else
      Ccx.andThen (some (o1.curve.split ((o1.curve.hi - o1.curve.lo) * (1 / 2) + o1.curve.lo) false)) fun s1 =>
      Ccx.andThen (some (o2.curve.split ((o2.curve.hi - o2.curve.lo) * (1 / 2) + o2.curve.lo) false)) fun s2 =>
      Ccx.andThen (Ccx.ccx sqrt tol fuel s1.1 s2.1 result) fun r1 =>
      Ccx.andThen (Ccx.ccx sqrt tol fuel s1.2 s2.2 r1) fun r2 =>
      Ccx.andThen (Ccx.ccx sqrt tol fuel s1.1 s2.2 r2) fun r3 =>
      Ccx.ccx sqrt tol fuel s1.2 s2.1 r3
  else some (.ok result)

end Cmm.Nurbs
