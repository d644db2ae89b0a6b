import Verif.Model.Hash
import Mathlib.Algebra.Order.Group.Abs
import Mathlib.Analysis.SpecialFunctions.Complex.Arg
/-!
Model of the remaining operations of the vector classes (cmmcore/vec.h): indexed writes, tolerant comparison, projections, the
operations of `vec4`, free functions, spherical coordinates. Numbers are an arbitrary ordered field, except for the spherical
coordinates, which are over the reals. Where the code differs with `__ARM_NEON`, the definition takes a flag.
-/
namespace Cmm.VecOps
variable {K : Type}

section index
/-- vec.h 294-317 `vec3::operator[]` on the left of an assignment. -/
def put3 (p : Vec3 K) (i : Nat) (v : K) : Res (Vec3 K) :=
  match i with
  | 0 => .ok { p with x := v }
  | 1 => .ok { p with y := v }
  | 2 => .ok { p with z := v }
  | _ => .throws

/-- vec.h 142-151 `vec2::operator[]` on the left of an assignment. -/
def put2 (p : Vec2 K) (i : Nat) (v : K) : Res (Vec2 K) :=
  match i with
  | 0 => .ok { p with x := v }
  | 1 => .ok { p with y := v }
  | _ => .throws

/-- vec.h 788-801 `vec4::operator[]` on the left of an assignment. -/
def put4 (p : Vec4 K) (i : Nat) (v : K) : Res (Vec4 K) :=
  match i with
  | 0 => .ok { p with x := v }
  | 1 => .ok { p with y := v }
  | 2 => .ok { p with z := v }
  | 3 => .ok { p with w := v }
  | _ => .throws
end index

variable [Field K] [LinearOrder K]

/-- `std::numeric_limits<double>::epsilon()`. -/
def eps : K := 1 / 2 ^ 52

/-- vec.h 104-109 `vec2::operator==`. -/
def eq2 (a b : Vec2 K) : Bool := decide (|a.x - b.x| < eps) && decide (|a.y - b.y| < eps)

/-- vec.h 280-285 `vec3::operator==(vec3)`. -/
def eq3 (a b : Vec3 K) : Bool := decide (|a.x - b.x| < eps) && decide (|a.y - b.y| < eps) && decide (|a.z - b.z| < eps)

/-- vec.h 349-351 `vec3::operator==(vec2)`. -/
def eq32 (a : Vec3 K) (b : Vec2 K) : Bool := decide (b.x = a.x) && decide (b.y = a.y)

/-- vec.h 761-766 `vec4::operator==`. -/
def eq4 (a b : Vec4 K) : Bool := decide (|a.x - b.x| < eps) && decide (|a.y - b.y| < eps) && decide (|a.z - b.z| < eps)

/-- vec.h 80 `vec2(from, to)`. -/
def between (src dst : Vec2 K) : Vec2 K := ⟨dst.x - src.x, dst.y - src.y⟩

/-- vec.h 130-136 `vec2::operator/=`. -/
def divAssign2 (a : Vec2 K) (val : K) : Res (Vec2 K) := if val = 0 then .throws else .ok ⟨a.x / val, a.y / val⟩

/-- vec.h 179-190 `vec2::unitize`. -/
def unitize2 (sqrt : K → K) (a : Vec2 K) : Res (Vec2 K) :=
  let l := sqrt (a.dot a)
  if l = 0 then .throws else .ok ⟨a.x / l, a.y / l⟩

/-- vec.h 69, 173-175 `vec2::project`: `other * (self.dot(other) / other.dot(other))`. A zero `other` gives NaN (not modelled: the
field's value of the division by zero). -/
def project2 (a b : Vec2 K) : Vec2 K := b.smul (a.dot b / b.dot b)

/-- vec.h 68, 176-178 `vec2::projection`. -/
def projection2 (a b : Vec2 K) : K := a.dot b / b.dot b

/-- vec.h 69, 438-440 `vec3::project`. -/
def project3 {K : Type} [Add K] [Mul K] [Div K] (a b : Vec3 K) : Vec3 K := b.smul (a.dot b / b.dot b)

/-- vec.h 448-462 `vectorProjection(a, b, result)` with its common subexpressions, and 464-469. `pow(x, 2)` is taken to be `x * x`
(rounded once, if operations are rounded). -/
def vectorProjection {K : Type} [One K] [Add K] [Mul K] [Div K] (a b : Vec3 K) : Vec3 K :=
  let x0 := b.x * b.x
  let x1 := b.y * b.y
  let x2 := b.z * b.z
  let x3 := 1 / (x0 + x1 + x2)
  let x4 := a.y * x3
  let x5 := b.x * b.y
  let x6 := a.z * x3
  let x7 := b.z * x6
  let x8 := a.x * x3
  ⟨b.x * x7 + x0 * x8 + x4 * x5, b.y * x7 + x1 * x4 + x5 * x8, b.x * b.z * x8 + b.y * b.z * x4 + x2 * x6⟩

/-- vec.h 378-380 `vec3::operator*(vec3)`. -/
def mul3 (a b : Vec3 K) : Vec3 K := ⟨a.x * b.x, a.y * b.y, a.z * b.z⟩

/-- vec.h 384-386 `vec3::operator/(vec3)`. -/
def div3 (a b : Vec3 K) : Vec3 K := ⟨a.x / b.x, a.y / b.y, a.z / b.z⟩

/-- vec.h 603: the body of the loop of `dot_product(v, vecs, result)`. -/
def dotProductStep (v : Vec3 K) (vecs : List (Vec3 K)) (r : Res (List K)) (i : Nat) : Res (List K) := do
  let acc ← r
  match vecs[i]? with
  | none => .ub
  | some w => .ok (acc ++ [v.dot w])

/-- vec.h 601-605 `dot_product(v, vecs, result)`, the version for other machines than x86-64: the loop runs up to and including
`vecs.size`. (The x86-64 version names a type `Vec3` that does not exist.) `vecs` holds the three coordinate arrays, all of
length `size`. -/
def dotProducts (v : Vec3 K) (vecs : List (Vec3 K)) : Res (List K) :=
  (List.range (vecs.length + 1)).foldl (dotProductStep v vecs) (.ok [])

/-- vec.h 608-613 `mag2`. -/
def mag2 (sqrt : K → K) (a : Vec3 K) : K := sqrt a.x + a.y * a.y + a.z * a.z

/-- vec.h 618-621 `dist`. -/
def dist (sqrt : K → K) (a b : Vec3 K) : K := sqrt ((a.x - b.x) + (a.y - b.y) + (a.z - b.z))

/-- vec.h 622-625 `dist2`. -/
def dist2 (a b : Vec3 K) : K := (a - b).sqLength

/-- vec.h 817-848 `vec4::dot`; without NEON the fourth coordinates are left out. -/
def dot4 (neon : Bool) (a b : Vec4 K) : K :=
  if neon then a.x * b.x + a.y * b.y + (a.z * b.z + a.w * b.w) else a.x * b.x + a.y * b.y + a.z * b.z

/-- vec.h 919-931 `vec4::add(b, result)`; without NEON the fourth coordinate of `result` keeps its old value. -/
def add4 (neon : Bool) (a b result : Vec4 K) : Vec4 K :=
  ⟨a.x + b.x, a.y + b.y, a.z + b.z, if neon then a.w + b.w else result.w⟩

/-- vec.h 850-857 `vec4::cross(vec4)`. -/
def cross4 (a b : Vec4 K) : Vec4 K := ⟨a.y * b.z - a.z * b.y, a.z * b.x - a.x * b.z, a.x * b.y - a.y * b.x, 1⟩

/-- vec.h 858-865 `vec4::cross(vec4, result)`. -/
def cross4out (a b : Vec4 K) : Vec4 K :=
  let v1 := a.toVec3
  let v2 := b.toVec3
  ⟨v1.y * v2.z - v2.z * v2.y, v1.z * v2.x - v2.x * v2.z, v1.x * v2.y - v2.y * v2.x, 1⟩

/-- vec.h 866-882 `vec4::cross(vec3)` (both overloads). -/
def cross43 (a : Vec4 K) (b : Vec3 K) : Vec3 K :=
  let x := a.x / a.w
  let y := a.y / a.w
  let z := a.z / a.w
  ⟨y * b.z - z * b.y, z * b.x - x * b.z, x * b.y - y * b.x⟩

/-- vec.h 979-984 the free `cross(vec3, vec3, vec4)`. -/
def crossInto4 (a b : Vec3 K) : Vec4 K := ⟨a.y * b.z - a.z * b.y, a.z * b.x - a.x * b.z, a.x * b.y - a.y * b.x, 1⟩

/-- vec.h 742-748 `vec4::set(vec3)`. -/
def set43 (v : Vec3 K) : Vec4 K := ⟨v.x, v.y, v.z, 1⟩

/-- vec.h 934-938 `vec4::sqLength`. -/
def sqLength4 (a : Vec4 K) : K := a.x * a.x + a.y * a.y + a.z * a.z + a.w * a.w

/-- vec.h 951-964 `vec4::unitize` (the `float` square root of the code is taken as exact). -/
def unitize4 (sqrt : K → K) (a : Vec4 K) : Vec4 K :=
  let l := sqrt (sqLength4 a)
  if l ≤ eps ∨ l - 1 ≤ eps then a else ⟨a.x / (a.w * l), a.y / (a.w * l), a.z / (a.w * l), 1⟩

noncomputable section spherical

/-- `std::atan2(y, x)`: the argument of the complex number `x + iy`, in `(-π, π]` (0 at the origin). -/
def atan2 (y x : ℝ) : ℝ := Complex.arg ⟨x, y⟩

/-- vec.h 638-647 `cartesian_to_spherical(xyz, rtp)`. -/
def toSpherical (p : Vec3 ℝ) : Vec3 ℝ :=
  let q := p.x * p.x + p.y * p.y
  ⟨Real.sqrt (q + p.z * p.z), atan2 (Real.sqrt q) p.z, atan2 p.y p.x⟩

/-- vec.h 649-656 `spherical_to_cartesian(rtp, xyz)`. -/
def ofSpherical (s : Vec3 ℝ) : Vec3 ℝ :=
  ⟨s.x * Real.sin s.y * Real.cos s.z, s.x * Real.sin s.y * Real.sin s.z, s.x * Real.cos s.y⟩

/-- vec.h 658-661 `cartesian_to_spherical(xyz, tp)`. -/
def toAngles (p : Vec3 ℝ) : Vec2 ℝ := ⟨atan2 (Real.sqrt (p.x * p.x + p.y * p.y)) p.z, atan2 p.y p.x⟩

/-- vec.h 663-670 `spherical_to_cartesian(tp, xyz)`. -/
def ofAngles (t : Vec2 ℝ) : Vec3 ℝ :=
  ⟨1 * Real.sin t.x * Real.cos t.y, 1 * Real.sin t.x * Real.sin t.y, 1 * Real.cos t.x⟩

/-- vec.h 671-678 `cartesian_to_spherical` of an array. -/
def toAnglesAll (l : List (Vec3 ℝ)) : List (Vec2 ℝ) :=
  l.map fun p => ⟨atan2 (Real.sqrt (p.x * p.x + p.y * p.y)) p.z, atan2 p.y p.x⟩

end spherical
end Cmm.VecOps
