import Verif.Model.Vec
/-!
Model of cmmcore/plane.h and of the length-dependent helpers of cmmcore/vec.h, over an ordered field `K` (exact arithmetic).
`sqrt` stands for `std::sqrt` and `sqrtf` (vec.h 411-419), taken without rounding; `fl` for the conversion to `float` of three
products in `plane_eq_from_pts`.
-/
namespace Cmm.Geom
variable {K : Type} [Field K] [LinearOrder K]

/-- `std::numeric_limits<double>::epsilon()`. -/
def machEps : K := 1 / 2 ^ 52

/-- The tolerance 1e-8 of plane.h 88 and 233. -/
def planeEps : K := 1 / 10 ^ 8

/-- plane.h 12-22 `plane_eq_from_pts`: the products `x3`, `x4`, `x5` are stored as `float`. -/
def planeEqFromPts (fl : K → K) (pt0 pt1 pt2 : Vec3 K) : Vec4 K :=
  let x3 := fl (pt0.y * pt1.z)
  let x4 := fl (pt1.y * pt2.z)
  let x5 := fl (pt2.y * pt0.z)
  ⟨x3 + x4 + x5 - pt0.y * pt2.z - pt1.y * pt0.z - pt2.y * pt1.z,
   -pt0.x * pt1.z + pt0.x * pt2.z + pt1.x * pt0.z - pt1.x * pt2.z - pt2.x * pt0.z + pt2.x * pt1.z,
   pt0.x * pt1.y - pt0.x * pt2.y - pt1.x * pt0.y + pt1.x * pt2.y + pt2.x * pt0.y - pt2.x * pt1.y,
   -pt0.x * x4 + pt0.x * pt2.y * pt1.z - pt1.x * x5 + pt1.x * pt0.y * pt2.z - pt2.x * x3 + pt2.x * pt1.y * pt0.z⟩

/-- plane.h 23-26 `planeSignedDistance`. -/
def planeSignedDistance (pt : Vec3 K) (plane : Vec4 K) : K := plane.x * pt.x + plane.y * pt.y + plane.z * pt.z + plane.w

/-- plane.h 28-36 `class plane`. -/
structure Plane (K : Type) where
  denominator : K
  equation : Vec4 K
  normal : Vec3 K
  origin : Vec3 K

/-- plane.h 30-36: the default plane, z = 0. -/
def Plane.default : Plane K := ⟨1, ⟨0, 0, 1, 0⟩, ⟨0, 0, 1⟩, ⟨0, 0, 0⟩⟩

/-- plane.h 67-70 `computeDenominator`. -/
def computeDenominator (sqrt : K → K) (e : Vec4 K) : K := sqrt (e.x * e.x + e.y * e.y + e.z * e.z)

/-- plane.h 40-43 and 62-64: denominator, normal and origin from the equation. -/
def Plane.ofEquation (sqrt : K → K) (e : Vec4 K) : Plane K :=
  let den := computeDenominator sqrt e
  let normal : Vec3 K := ⟨e.x / den, e.y / den, e.z / den⟩
  ⟨den, e, normal, normal.smul e.w⟩

/-- plane.h 38-44 `plane(a, b, c, d)`. -/
def Plane.ofCoeffs (sqrt : K → K) (a b c d : K) : Plane K := Plane.ofEquation sqrt ⟨a, b, c, d⟩

/-- plane.h 46-49 `plane(normal)`. -/
def Plane.ofNormal (sqrt : K → K) (n : Vec3 K) : Plane K :=
  let den := sqrt n.sqLength
  ⟨den, ⟨n.x, n.y, n.z, 0⟩, n.sdiv den, ⟨0, 0, 0⟩⟩

/-- plane.h 51-57 `plane(origin, normal)`: the comma operator in the last coefficient keeps only its last operand. -/
def Plane.ofOriginNormal (sqrt : K → K) (o n : Vec3 K) : Plane K :=
  let den := sqrt n.sqLength
  ⟨den, ⟨n.x, n.y, n.z, -(n.z * o.z)⟩, n.sdiv den, o⟩

/-- plane.h 59-65 `plane(tuple of three points)`. -/
def Plane.ofPts (sqrt fl : K → K) (pt0 pt1 pt2 : Vec3 K) : Plane K := Plane.ofEquation sqrt (planeEqFromPts fl pt0 pt1 pt2)

/-- plane.h 72-75 `signedDistance`. -/
def Plane.signedDistance (p : Plane K) (pt : Vec3 K) : K :=
  (pt.x * p.equation.x + pt.y * p.equation.y + pt.z * p.equation.z + p.equation.w) / p.denominator

/-- plane.h 77-84 `signedDistance` of a vector of points. -/
def Plane.signedDistances (p : Plane K) (pts : List (Vec3 K)) : List K := pts.map p.signedDistance

/-- plane.h 86-112 `planeRayIntersection`; `none` is `false`. -/
def Plane.rayIntersection (p : Plane K) (start direction : Vec3 K) : Option (Vec3 K) :=
  let N := -(p.equation.x * start.x + p.equation.y * start.y + p.equation.z * start.z + p.equation.w)
  let D := p.equation.x * direction.x + p.equation.y * direction.y + p.equation.z * direction.z
  if |D| < planeEps then
    if |N| < planeEps then some start else none
  else some (start + direction.smul (N / D))

/-- plane.h 114-149 `planeLineIntersection`; `none` is `false`. -/
def Plane.lineIntersection (p : Plane K) (start stop : Vec3 K) : Option (Vec3 K) :=
  let direction := stop - start
  let N := -(p.equation.x * start.x + p.equation.y * start.y + p.equation.z * start.z + p.equation.w)
  let D := p.equation.x * direction.x + p.equation.y * direction.y + p.equation.z * direction.z
  if |D| < machEps then
    if |N| < machEps then some start else none
  else
    let t := N / D
    if t < 0 ∨ t > 1 then none else some (start + direction.smul t)

/-- plane.h 174-185: the coordinate to eliminate, that with the largest coefficient of the first plane. -/
def maxIndex (e : Vec4 K) : Nat :=
  let m0 := |e.x|
  let (i, m) := if |e.y| > m0 then (1, |e.y|) else (0, m0)
  if |e.z| > m then 2 else i

/-- plane.h 151-229 `planePlaneIntersection`; `none` is `false`. -/
def Plane.planeIntersection (p other : Plane K) : Option (Vec3 K × Vec3 K) :=
  let dir := p.normal.cross other.normal
  if dir.sqLength < machEps then none
  else
    let a1 := p.equation.x
    let b1 := p.equation.y
    let c1 := p.equation.z
    let d1 := p.equation.w
    let a2 := other.equation.x
    let b2 := other.equation.y
    let c2 := other.equation.z
    let d2 := other.equation.w
    let i := maxIndex p.equation
    if i = 0 then
      let det := b1 * c2 - b2 * c1
      if |det| < machEps then none
      else
        let y := (c2 * -d1 - c1 * -d2) / det
        let z := (b1 * -d2 - b2 * -d1) / det
        some (⟨0, y, z⟩, (⟨0, y, z⟩ : Vec3 K) + dir)
    else if i = 1 then
      let det := a1 * c2 - a2 * c1
      if |det| < machEps then none
      else
        let x := (c2 * -d1 - c1 * -d2) / det
        let z := (a1 * -d2 - a2 * -d1) / det
        some (⟨x, 0, z⟩, (⟨x, 0, z⟩ : Vec3 K) + dir)
    else
      let det := a1 * b2 - a2 * b1
      if |det| < machEps then none
      else
        let x := (b2 * -d1 - b1 * -d2) / det
        let y := (a1 * -d2 - a2 * -d1) / det
        some (⟨x, y, 0⟩, (⟨x, y, 0⟩ : Vec3 K) + dir)

/-- plane.h 279-286 `determinant3x3`. -/
def determinant3x3 (m00 m01 m02 m10 m11 m12 m20 m21 m22 : K) : K :=
  m00 * (m11 * m22 - m12 * m21) - m01 * (m10 * m22 - m12 * m20) + m02 * (m10 * m21 - m11 * m20)

/-- plane.h 231-276 `planePlanePlaneIntersection`; `none` is `false`. -/
def Plane.threePlanes (p other1 other2 : Plane K) : Option (Vec3 K) :=
  let ⟨a1, b1, c1, d1⟩ := p.equation
  let ⟨a2, b2, c2, d2⟩ := other1.equation
  let ⟨a3, b3, c3, d3⟩ := other2.equation
  let Det := determinant3x3 a1 b1 c1 a2 b2 c2 a3 b3 c3
  if |Det| < planeEps then none
  else
    let Dx := determinant3x3 (-d1) b1 c1 (-d2) b2 c2 (-d3) b3 c3
    let Dy := determinant3x3 a1 (-d1) c1 a2 (-d2) c2 a3 (-d3) c3
    let Dz := determinant3x3 a1 b1 (-d1) a2 b2 (-d2) a3 b3 (-d3)
    some ⟨Dx / Det, Dy / Det, Dz / Det⟩

/-- plane.h 289-306 `isPtsCoplanar`: the loop starts at index 4. -/
def isPtsCoplanar (sqrt fl : K → K) (pts : List (Vec3 K)) (eps : K) : Bool :=
  match pts with
  | p0 :: p1 :: p2 :: _ :: rest =>
    let p := Plane.ofPts sqrt fl p0 p1 p2
    rest.all fun pt => !decide (|p.signedDistance pt| ≥ eps)
  | _ => true

/-- vec.h 411-428 `vec3::length` and `unitize`: a vector of length up to 1 (plus epsilon) is left alone. -/
def unitize3 (sqrt : K → K) (v : Vec3 K) : Vec3 K :=
  let l := sqrt v.sqLength
  if l ≤ machEps ∨ l - 1 ≤ machEps then v else ⟨v.x / l, v.y / l, v.z / l⟩

/-- plane.h 308-314 `class cplane`. -/
structure CPlane (K : Type) extends Plane K where
  xaxis : Vec3 K
  yaxis : Vec3 K

/-- plane.h 314 `cplane()`. -/
def CPlane.default : CPlane K := ⟨Plane.default, ⟨1, 0, 0⟩, ⟨0, 1, 0⟩⟩

/-- plane.h 316-319 `cplane(origin, xaxis, yaxis)`. -/
def CPlane.ofAxes (sqrt : K → K) (o xaxis yaxis : Vec3 K) : CPlane K :=
  ⟨Plane.ofOriginNormal sqrt o (xaxis.cross yaxis), xaxis, yaxis⟩

/-- plane.h 321-327 `cplane(tuple of three points)`. -/
def CPlane.ofPts (sqrt fl : K → K) (pt0 pt1 pt2 : Vec3 K) : CPlane K :=
  let p := Plane.ofPts sqrt fl pt0 pt1 pt2
  let xaxis := unitize3 sqrt (pt0 - p.origin)
  ⟨p, xaxis, unitize3 sqrt (p.normal.cross xaxis)⟩

/-- plane.h 328 `cplane::signedDistance`. -/
def CPlane.signedDistanceC (p : CPlane K) (pt : Vec3 K) : K := p.toPlane.signedDistance (pt - p.origin)

/-- plane.h 330-335 `cplane::evaluate`. -/
def CPlane.evaluate (p : CPlane K) (u v : K) : Vec3 K := p.origin + p.xaxis.smul u + p.yaxis.smul v

/-- plane.h 337-343 `cplane::evaluateInv`. -/
def CPlane.evaluateInv (p : CPlane K) (xyz : Vec3 K) : Vec3 K :=
  let temp := xyz - p.origin
  ⟨temp.dot p.xaxis, temp.dot p.yaxis, temp.dot p.normal⟩

/-- plane.h 345-356 `cplane::evaluateInv` of a vector of points. -/
def CPlane.evaluateInvs (p : CPlane K) (xyz : List (Vec3 K)) : List (Vec3 K) := xyz.map p.evaluateInv

end Cmm.Geom
