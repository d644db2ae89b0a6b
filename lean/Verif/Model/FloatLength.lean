import Verif.Model.Plane
import Verif.Model.VecOps
import Verif.Spec.Rounding
import Mathlib.Data.Int.Log
/-!
Model of `vec3::length`, `distance`, `unitize`, `unit` and `collinear` of cmmcore/vec.h with the rounding they do: the square of the length is computed in `double` (a
rounding `R` without range, as everywhere in this model), converted to `float`, and `sqrtf` takes its root in `float`. The range of `float` is modelled. Elsewhere
(`Geom.unitize3`) the same functions are modelled without rounding.
-/
namespace Cmm.VecOps
variable {K : Type} [Field K] [LinearOrder K] [FloorRing K]

/-- Rounding to the nearest integer, to the even one of two equally near (the default mode of IEEE 754). -/
def roundEven (x : K) : Int :=
  let f := ⌊x⌋
  let d := x - f
  if d < 1 / 2 then f
  else if 1 / 2 < d then f + 1
  else if f % 2 = 0 then f else f + 1

/-- The distance of neighbouring numbers of type `float` around `x`: 24 binary digits, none below `2 ^ -149`. -/
def floatUlp (x : K) : K := max ((2 : K) ^ (Int.log 2 x - 23)) ((2 : K) ^ (-149 : ℤ))

/-- A number that is not negative converted to `float`; `none` is infinity (IEEE 754; for the C++ standard a conversion out of range is undefined). -/
def toFloat (x : K) : Option K :=
  let r := (roundEven (x / floatUlp x) : K) * floatUlp x
  if r < 2 ^ 128 then some r else none

variable {R : Rounding K}

/-- vec.h 411-419 `vec3::length`: `sqrtf(x*x + y*y + z*z)`; `none` is infinity. -/
def length (sqrt : K → K) (v : Vec3 (Fp R)) : Option K := (toFloat v.sqLength.val).bind fun s => toFloat (sqrt s)

/-- vec.h 267-270 `vec3::distance`. -/
def distance (sqrt : K → K) (a b : Vec3 (Fp R)) : Option K := length sqrt (a - b)

/-- vec.h 420-428 `vec3::unitize` (and 429-437 `normalize`, `unit`). Division by infinity gives zero. -/
def unitize (sqrt : K → K) (v : Vec3 (Fp R)) : Vec3 (Fp R) :=
  match length sqrt v with
  | none => ⟨0, 0, 0⟩
  | some l =>
    if l ≤ eps ∨ R.rnd (l - 1) ≤ eps then v
    else ⟨Fp.round R (v.x.val / l), Fp.round R (v.y.val / l), Fp.round R (v.z.val / l)⟩

/-- vec.h 69, 441-443 `vec3::collinear`. -/
def collinear (sqrt : K → K) (a b : Vec3 (Fp R)) : Bool := decide (|((unitize sqrt a).dot (unitize sqrt b)).val| = 1)

/-- vec.h 69, 441-443 `vec3::collinear` without rounding. -/
def collinear3 {K : Type} [Field K] [LinearOrder K] (sqrt : K → K) (a b : Vec3 K) : Bool :=
  decide (|(Geom.unitize3 sqrt a).dot (Geom.unitize3 sqrt b)| = 1)

/-- vec.h 68, 750-752 `vec4::project`. -/
def project4 {K : Type} [Field K] (neon : Bool) (a b : Vec4 K) : Vec4 K :=
  let f := dot4 neon a b / dot4 neon b b
  ⟨b.x * f, b.y * f, b.z * f, b.w * f⟩

/-- vec.h 69, 977-979 `vec4::collinear` without rounding. -/
def collinear4 {K : Type} [Field K] [LinearOrder K] (sqrt : K → K) (neon : Bool) (a b : Vec4 K) : Bool :=
  decide (|dot4 neon (unitize4 sqrt a) (unitize4 sqrt b)| = 1)

end Cmm.VecOps
