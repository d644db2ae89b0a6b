import Verif.Model.Vec
/-!
Model of cmmcore/closest_point.h, of `vectorProjection` in cmmcore/vec.h and of cmmcore/numeric_utils.h, over an ordered field `K`
(exact arithmetic). `none` is a result with a NaN or infinite coordinate; it comes from a division by zero only.
-/
namespace Cmm.Geom
variable {K : Type} [Field K] [LinearOrder K]

/-- Division of finite numbers: the result is not finite if the divisor is zero. -/
def nanDiv (x y : K) : Option K := if y = 0 then none else some (x / y)

/-- vec.h 448-462 `vectorProjection`. -/
def vectorProjection (a b : Vec3 K) : Option (Vec3 K) := do
  let x0 := b.x ^ 2
  let x1 := b.y ^ 2
  let x2 := b.z ^ 2
  let x3 ← nanDiv 1 (x0 + x1 + x2)
  let x4 := a.y * x3
  let x5 := b.x * b.y
  let x6 := a.z * x3
  let x7 := b.z * x6
  let x8 := a.x * x3
  pure ⟨b.x * x7 + x0 * x8 + x4 * x5, b.y * x7 + x1 * x4 + x5 * x8, b.x * b.z * x8 + b.y * b.z * x4 + x2 * x6⟩

/-- closest_point.h 19-30 `closestPointOnRay` (both overloads). -/
def closestPointOnRay (a start rayDirection : Vec3 K) : Option (Vec3 K) := do
  let r ← vectorProjection (a - start) rayDirection
  pure (r + start)

/-- closest_point.h 31-44 `closestPointOnLine` (both overloads). -/
def closestPointOnLine (a start stop : Vec3 K) : Option (Vec3 K) := do
  let r ← vectorProjection (a - start) (stop - start)
  pure (r + start)

/-- closest_point.h 45-70 `closestPointOnSegm(a, start, end)` (both overloads). -/
def closestPointOnSegmTo (a start stop : Vec3 K) : Option (Vec3 K) :=
  let d := stop - start
  let o := a - start
  let t := d.dot o
  if t < 0 then some start
  else if t > 1 then some stop
  else do
    let r ← vectorProjection o d
    pure (r + start)

/-- `std::clamp`. -/
def clamp (t lo hi : K) : K := if t < lo then lo else if hi < t then hi else t

/-- closest_point.h 72-77 `closestPointOnSegm(a, b)`: closest to the origin. -/
def closestPointOnSegm (a b : Vec3 K) : Option (Vec3 K) := do
  let ab := b - a
  let t ← nanDiv (-(a.dot ab)) ab.sqLength
  pure (a + ab.smul (clamp t 0 1))

/-- closest_point.h 80-123 `closestPointOnTriangle(a, b, c)`: closest to the origin. -/
def closestPointOnTriangle (a b c : Vec3 K) : Option (Vec3 K) :=
  let ab := b - a
  let ac := c - a
  let ao := -a
  let d1 := ab.dot ao
  let d2 := ac.dot ao
  if d1 ≤ 0 ∧ d2 ≤ 0 then some a
  else
    let bo := -b
    let d3 := ab.dot bo
    let d4 := ac.dot bo
    if d3 ≥ 0 ∧ d4 ≤ d3 then some b
    else
      let vc := d1 * d4 - d3 * d2
      if vc ≤ 0 ∧ d1 ≥ 0 ∧ d3 ≤ 0 then do
        let v ← nanDiv d1 (d1 - d3)
        pure (a + ab.smul v)
      else
        let co := -c
        let d5 := ab.dot co
        let d6 := ac.dot co
        if d6 ≥ 0 ∧ d5 ≤ d6 then some c
        else
          let vb := d5 * d2 - d1 * d6
          if vb ≤ 0 ∧ d2 ≥ 0 ∧ d6 ≤ 0 then do
            let w ← nanDiv d2 (d2 - d6)
            pure (a + ac.smul w)
          else
            let va := d3 * d6 - d5 * d4
            if va ≤ 0 ∧ d4 - d3 ≥ 0 ∧ d5 - d6 ≥ 0 then do
              let w ← nanDiv (d4 - d3) (d4 - d3 + (d5 - d6))
              pure (b + (c - b).smul w)
            else do
              let denom ← nanDiv 1 (va + vb + vc)
              let v := vb * denom
              let w := vc * denom
              pure (a + ab.smul v + ac.smul w)

/-- closest_point.h 124-134 `closestPointOnTriangle(pt, a, b, c)` (both overloads): the result is not moved back by `pt`. -/
def closestPointOnTriangleTo (pt a b c : Vec3 K) : Option (Vec3 K) := closestPointOnTriangle (a - pt) (b - pt) (c - pt)

/-- What `segmentsDistance` computes: the parameters, the two points and the distance. -/
structure LinePair (K : Type) where
  t : K
  u : K
  cpt1 : Vec3 K
  cpt2 : Vec3 K
  dist : K

/-- numeric_utils.h 15-37 `segmentsDistance` with the parameters and points as outputs; `sqrt` stands for `sqrtf` in
`vec3::length` (vec.h 411-419) and is taken without rounding. -/
def segmentsDistance (sqrt : K → K) (p1 p2 q1 q2 : Vec3 K) : LinePair K :=
  let d1 := p2 - p1
  let d2 := q2 - q1
  let r := p1 - q1
  let a := d1.dot d1
  let b := d1.dot d2
  let c := d2.dot d2
  let d := d1.dot r
  let e := d2.dot r
  let denom := a * c - b * b
  let t := if denom ≠ 0 then (b * e - c * d) / denom else 0
  let u := if denom ≠ 0 then (a * e - b * d) / denom else 0
  let cpt1 := p1 + d1.smul t
  let cpt2 := q1 + d2.smul u
  ⟨t, u, cpt1, cpt2, sqrt (cpt2 - cpt1).sqLength⟩

/-- numeric_utils.h 38-59 `segmentsDistance`, the overload that returns the distance only. -/
def segmentsDistanceOnly (sqrt : K → K) (p1 p2 q1 q2 : Vec3 K) : K :=
  let d1 := p2 - p1
  let d2 := q2 - q1
  let r := p1 - q1
  let a := d1.dot d1
  let b := d1.dot d2
  let c := d2.dot d2
  let d := d1.dot r
  let e := d2.dot r
  let denom := a * c - b * b
  let tu := if denom ≠ 0 then ((b * e - c * d) / denom, (a * e - b * d) / denom) else (0, 0)
  let cpt1 := p1 + d1.smul tu.1
  let cpt2 := q1 + d2.smul tu.2
  sqrt (cpt2 - cpt1).sqLength

/-- numeric_utils.h 61-80 `centerProjectionToXY`. -/
def centerProjectionToXY (origin point : Vec3 K) : Vec2 K :=
  if origin.z = point.z then ⟨point.x, point.y⟩
  else
    let t := -origin.z / (point.z - origin.z)
    ⟨origin.x + t * (point.x - origin.x), origin.y + t * (point.y - origin.y)⟩

end Cmm.Geom
