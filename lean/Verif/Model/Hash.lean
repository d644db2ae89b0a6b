import Verif.Model.Vec
import Mathlib.Algebra.Order.Floor.Ring
/-!
Model of the quantised keys and hash functions of cm_hash.h, vec.h, polygon.h and polyline.h. `std::hash<int>` is the sign-extending conversion
to `size_t` (libstdc++, libc++); the bits of `int` and `size_t` are `BitVec 32` and `BitVec 64`.
-/
namespace Cmm.Hash
variable {K : Type} [Field K] [LinearOrder K] [FloorRing K]

/-- Conversion of a `double` to `int`: towards zero, undefined outside the range of `int`. -/
def toInt (x : K) : Res Int :=
  let r := if 0 ≤ x then ⌊x⌋ else ⌈x⌉
  if -2147483648 ≤ r ∧ r ≤ 2147483647 then .ok r else .ub

/-- cm_hash.h 19-22 `quantize`, with the product before the conversion exact. -/
def quantize (value : K) (decimals : Nat) : Res Int := toInt (value * decimals)

/-- cm_limits.h 10 `CMMCORE_DECIMALS`: `digits10` of `double`. -/
def decimals : Nat := 15

/-- `std::hash<int>`. -/
def hashInt (x : Int) : BitVec 64 := BitVec.ofInt 64 x

/-- cm_hash.h 26-36 `PairDoubleHash` (both numbers are computed from the first component). -/
def pairHash (v : K × K) : Res (BitVec 64) := do
  let qx ← quantize v.1 decimals
  let qy ← quantize v.1 decimals
  pure (hashInt qx ^^^ (hashInt qy <<< 1))

/-- cm_hash.h 38-44 `PairDoubleEqual`. -/
def pairEqual (a b : K × K) : Bool := decide (a.1 = b.1) && decide (a.2 = b.2)

/-- vec.h 471-482 `Vec2Hash`. -/
def vec2Hash (v : Vec2 K) : Res (BitVec 64) := do
  let qx ← quantize v.x decimals
  let qy ← quantize v.y decimals
  pure (hashInt qx ^^^ (hashInt qy <<< 1))

/-- vec.h 484-492 `Vec2Equal`; `&&` evaluates the second comparison only if the first holds. -/
def vec2Equal (a b : Vec2 K) : Res Bool := do
  let ax ← quantize a.x decimals
  let bx ← quantize b.x decimals
  if ax = bx then
    let ay ← quantize a.y decimals
    let b_y ← quantize b.y decimals
    pure (decide (ay = b_y))
  else pure false

/-- vec.h 494-506 `Vec3Hash`. -/
def vec3Hash (v : Vec3 K) : Res (BitVec 64) := do
  let qx ← quantize v.x decimals
  let qy ← quantize v.y decimals
  let qz ← quantize v.z decimals
  pure (hashInt qx ^^^ (hashInt qy <<< 1) ^^^ (hashInt qz <<< 2))

/-- vec.h 507-514 `Vec3Equal`. -/
def vec3Equal (a b : Vec3 K) : Res Bool := do
  let ax ← quantize a.x decimals
  let bx ← quantize b.x decimals
  if ax = bx then
    let ay ← quantize a.y decimals
    let b_y ← quantize b.y decimals
    if ay = b_y then
      let az ← quantize a.z decimals
      let bz ← quantize b.z decimals
      pure (decide (az = bz))
    else pure false
  else pure false

/-- vec.h 191-200 `vec2::unit`. -/
def unit (sqrt : K → K) (v : Vec2 K) : Res (Vec2 K) :=
  let l := sqrt (v.dot v)
  if l = 0 then .throws else .ok ⟨v.x / l, v.y / l⟩

/-- vec.h 71, 201-203 `vec2::collinear`. -/
def collinear (sqrt : K → K) (a b : Vec2 K) : Res Bool := do
  let ua ← unit sqrt a
  let ub ← unit sqrt b
  pure (decide (|ua.dot ub| = 1))

/-- polygon.h 20-32 `Normal2Hash`. The operator returns `bool`, so the hash of a direction is 0 or 1. The left shift of a negative number is
undefined in C++17 and the two's complement shift in C++20; the model takes the latter. -/
def normalHash (sqrt : K → K) (a : Vec2 K) : Res (BitVec 64) := do
  let u ← unit sqrt a
  let x ← quantize u.x decimals
  let y ← quantize u.y decimals
  let x1 ← quantize (-u.x) decimals
  let y1 ← quantize (-u.y) decimals
  let p := (BitVec.ofInt 32 x ^^^ (BitVec.ofInt 32 y <<< 1)).toInt
  let q := (BitVec.ofInt 32 x1 ^^^ (BitVec.ofInt 32 y1 <<< 1)).toInt
  pure (if max p q = 0 then 0 else 1)

/-- polyline.h 44-60 `PointKey`. -/
structure PointKey where
  x : Int
  y : Int
  z : Int
deriving DecidableEq

/-- polyline.h 41: the machine epsilon. -/
def keyEps : K := 1 / 2 ^ 52

/-- polyline.h 50-54: the key of a point, nearest multiples of the machine epsilon. -/
def pointKey (point : Vec3 K) : Res PointKey := do
  let x ← toInt ((⌊point.x / keyEps + 1 / 2⌋ : Int) : K)
  let y ← toInt ((⌊point.y / keyEps + 1 / 2⌋ : Int) : K)
  let z ← toInt ((⌊point.z / keyEps + 1 / 2⌋ : Int) : K)
  pure ⟨x, y, z⟩

/-- polyline.h 57-59 `PointKey::operator==`. -/
def keyEqual (a b : PointKey) : Bool := decide (a.x = b.x) && decide (a.y = b.y) && decide (a.z = b.z)

/-- polyline.h 63-69 `PointKeyHash`. -/
def keyHash (key : PointKey) : BitVec 64 :=
  (BitVec.ofInt 64 key.x * 73856093) ^^^ (BitVec.ofInt 64 key.y * 19349663) ^^^ (BitVec.ofInt 64 key.z * 83492791)

end Cmm.Hash
