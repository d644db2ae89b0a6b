import Verif.Model.ClosestPoint
import Verif.Model.Plane
import Verif.Model.Derivative
import Verif.Model.VecOps
/-!
Model of the functions of cmmcore that write their result through a reference, statement by statement on a memory, so that the output may be
the same object as an input. An address stands for a `vec3` object; the arguments passed by reference are addresses.
-/
namespace Cmm.Alias
variable {K : Type}

/-- The `vec3` objects of a program. -/
abbrev Mem (K : Type) := Nat → Vec3 K

/-- `obj.x = v`. -/
def setX (m : Mem K) (r : Nat) (v : K) : Mem K := Function.update m r { m r with x := v }

/-- `obj.y = v`. -/
def setY (m : Mem K) (r : Nat) (v : K) : Mem K := Function.update m r { m r with y := v }

/-- `obj.z = v`. -/
def setZ (m : Mem K) (r : Nat) (v : K) : Mem K := Function.update m r { m r with z := v }

/-- vec.h 261-266 `obj.set(v)`, and the assignment of a `vec3`; `v` is a temporary object or is read before. -/
def assign (m : Mem K) (r : Nat) (v : Vec3 K) : Mem K := Function.update m r v

section
variable [Field K] [LinearOrder K]

/-- vec.h 363-367 `a.cross(b, result)`. -/
def cross (a b r : Nat) (m : Mem K) : Mem K :=
  let m := setX m r ((m a).y * (m b).z - (m a).z * (m b).y)
  let m := setY m r ((m a).z * (m b).x - (m a).x * (m b).z)
  setZ m r ((m a).x * (m b).y - (m a).y * (m b).x)

/-- vec.h 387-391 `a.sub(b, result)`. -/
def sub (a b r : Nat) (m : Mem K) : Mem K :=
  let m := setX m r ((m a).x - (m b).x)
  let m := setY m r ((m a).y - (m b).y)
  setZ m r ((m a).z - (m b).z)

/-- vec.h 392-396 `a.add(b, result)`. -/
def add (a b r : Nat) (m : Mem K) : Mem K :=
  let m := setX m r ((m a).x + (m b).x)
  let m := setY m r ((m a).y + (m b).y)
  setZ m r ((m a).z + (m b).z)

/-- vec.h 865-874 `a.cross(b, result)` of a `vec4` object `a` and a `vec3` object. -/
def cross43 (a : Vec4 K) (b r : Nat) (m : Mem K) : Mem K :=
  let x := a.x / a.w
  let y := a.y / a.w
  let z := a.z / a.w
  let m := setX m r (y * (m b).z - z * (m b).y)
  let m := setY m r (z * (m b).x - x * (m b).z)
  setZ m r (x * (m b).y - y * (m b).x)

/-- vec.h 448-462 `vectorProjection(a, b, result)`; `a` is passed by value here because the callers pass temporary objects, see `projectOnto`
for an object. `none` if a coordinate is not finite. -/
def projectValue (a : Vec3 K) (b r : Nat) (m : Mem K) : Option (Mem K) := do
  let x0 := (m b).x ^ 2
  let x1 := (m b).y ^ 2
  let x2 := (m b).z ^ 2
  let x3 ← Geom.nanDiv 1 (x0 + x1 + x2)
  let x4 := a.y * x3
  let x5 := (m b).x * (m b).y
  let x6 := a.z * x3
  let x7 := (m b).z * x6
  let x8 := a.x * x3
  let m := setX m r ((m b).x * x7 + x0 * x8 + x4 * x5)
  let m := setY m r ((m b).y * x7 + x1 * x4 + x5 * x8)
  some (setZ m r ((m b).x * (m b).z * x8 + (m b).y * (m b).z * x4 + x2 * x6))

/-- vec.h 448-462 `vectorProjection(a, b, result)` of two objects: the coordinates of `a` are read before the first write. -/
def projectOnto (a b r : Nat) (m : Mem K) : Option (Mem K) := projectValue (m a) b r m

/-- `obj += other` (vec.h 326-330). -/
def addAssign (r o : Nat) (m : Mem K) : Mem K :=
  let m := setX m r ((m r).x + (m o).x)
  let m := setY m r ((m r).y + (m o).y)
  setZ m r ((m r).z + (m o).z)

/-- closest_point.h 19-23 `closestPointOnRay(a, start, rayDirection, result)`. -/
def closestOnRay (a start dir r : Nat) (m : Mem K) : Option (Mem K) := do
  let m' ← projectValue (m a - m start) dir r m
  some (addAssign r start m')

/-- The projection of a temporary object on a temporary object, into the object `r`. -/
def projectTemp (a b : Vec3 K) (r : Nat) (m : Mem K) : Option (Mem K) := do
  let v ← Geom.vectorProjection a b
  some (assign m r v)

/-- closest_point.h 31-37 `closestPointOnLine(a, start, end, result)`. -/
def closestOnLine (a start stop r : Nat) (m : Mem K) : Option (Mem K) := do
  let m' ← projectTemp (m a - m start) (m stop - m start) r m
  some (addAssign r start m')

/-- closest_point.h 45-64 `closestPointOnSegm(a, start, end, result)`. -/
def closestOnSegm (a start stop r : Nat) (m : Mem K) : Option (Mem K) :=
  let d := m stop - m start
  let o := m a - m start
  let t := d.dot o
  if t < 0 then some (assign m r (m start))
  else if t > 1 then some (assign m r (m stop))
  else do
    let m' ← projectTemp o d r m
    some (addAssign r start m')

/-- closest_point.h 124-128 `closestPointOnTriangle(pt, a, b, c, result)`. -/
def closestOnTriangle (pt a b c r : Nat) (m : Mem K) : Option (Mem K) := do
  let v ← Geom.closestPointOnTriangle (m a - m pt) (m b - m pt) (m c - m pt)
  some (assign m r v)

/-- plane.h 337-343 `cplane::evaluateInv(xyz, uvh)`. -/
def evaluateInv (p : Geom.CPlane K) (xyz uvh : Nat) (m : Mem K) : Mem K :=
  let temp := m xyz - p.origin
  let m := setX m uvh (temp.dot p.xaxis)
  let m := setY m uvh (temp.dot p.yaxis)
  setZ m uvh (temp.dot p.normal)

/-- numeric_utils.h 15-37 `segmentsDistance(p1, p2, q1, q2, t, u, cpt1, cpt2)`: the returned distance and the memory. (`t` and `u` are other
objects.) -/
def segments (sqrt : K → K) (p1 p2 q1 q2 cpt1 cpt2 : Nat) (m : Mem K) : K × Mem K :=
  let d1 := m p2 - m p1
  let d2 := m q2 - m q1
  let r := m p1 - m q1
  let a := d1.dot d1
  let b := d1.dot d2
  let c := d2.dot d2
  let d := d1.dot r
  let e := d2.dot r
  let denom := a * c - b * b
  let t := if denom ≠ 0 then (b * e - c * d) / denom else 0
  let u := if denom ≠ 0 then (a * e - b * d) / denom else 0
  let td := d1.smul t
  let ud := d2.smul u
  let m := setX m cpt1 ((m p1).x + td.x)
  let m := setY m cpt1 ((m p1).y + td.y)
  let m := setZ m cpt1 ((m p1).z + td.z)
  let m := setX m cpt2 ((m q1).x + ud.x)
  let m := setY m cpt2 ((m q1).y + ud.y)
  let m := setZ m cpt2 ((m q1).z + ud.z)
  (sqrt (m cpt2 - m cpt1).sqLength, m)

end

section curve
open Cmm.Nurbs
variable [Field K] [LinearOrder K]

/-- nurbs.h 443-448 `c.get_derivative(derivative)` with nurbs_utils.h 1011-1046, for two different objects: `_periodic` of the output is not
assigned. The guards are those of `Curve.getDerivative`. -/
def derivativeInto (c out : Curve K) : Res (Curve K) :=
  if c.cpts.length = 0 ∨ c.knots.length < 2 ∨ c.knots.length < c.cpts.length + c.degree ∨ c.degree = 0 then .ub
  else ({ out with cpts := (List.range (c.cpts.length - 1)).map (hodographPoint c.degree (ix c.knots) (ix c.cpts)), degree := c.degree - 1,
                   knots := (c.knots.drop 1).take (c.knots.length - 2) } : Curve K).updateInterval

/-- nurbs.h 443-448 `c.get_derivative(c)`: nurbs_utils.h 1021-1022 make the vectors shorter before they are read. The `memcpy` of line 1025 then
moves `size - 4` knots by one place: overlapping ranges are undefined from two knots on, as is the negative size for three knots and less. The loop
1028-1045 runs over one point less; each point is read before it is written. -/
def derivativeSelf (c : Curve K) : Res (Curve K) :=
  if c.cpts.length = 0 ∨ c.knots.length < 4 ∨ 5 < c.knots.length ∨ c.degree = 0 then .ub
  else
    let kn := c.knots.take (c.knots.length - 2)
    let kn := if kn.length = 3 then kn.set 0 (ix kn 1) else kn
    let cp := c.cpts.take (c.cpts.length - 1)
    if cp.length = 0 ∨ (1 < cp.length ∧ kn.length < cp.length + c.degree) then .ub
    else ({ c with cpts := (List.range (cp.length - 1)).map (hodographPoint c.degree (ix kn) (ix cp)) ++ cp.drop (cp.length - 1),
                   degree := c.degree - 1, knots := kn } : Curve K).updateInterval
end curve

section real
/-- vec.h 638-647 `cartesian_to_spherical(xyz, rtp)`. -/
noncomputable def toSpherical (xyz rtp : Nat) (m : Mem ℝ) : Mem ℝ :=
  let q := (m xyz).x * (m xyz).x + (m xyz).y * (m xyz).y
  let m := setX m rtp (Real.sqrt (q + (m xyz).z * (m xyz).z))
  let m := setY m rtp (VecOps.atan2 (Real.sqrt q) (m xyz).z)
  setZ m rtp (VecOps.atan2 (m xyz).y (m xyz).x)

/-- vec.h 649-656 `spherical_to_cartesian(rtp, xyz)`. -/
noncomputable def ofSpherical (rtp xyz : Nat) (m : Mem ℝ) : Mem ℝ :=
  let r := (m rtp).x
  let theta := (m rtp).y
  let phi := (m rtp).z
  let m := setX m xyz (r * Real.sin theta * Real.cos phi)
  let m := setY m xyz (r * Real.sin theta * Real.sin phi)
  setZ m xyz (r * Real.cos theta)
end real

end Cmm.Alias
