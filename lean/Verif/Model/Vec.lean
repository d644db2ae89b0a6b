import Mathlib.Algebra.Order.Field.Basic
import Mathlib.Algebra.Order.Ring.Abs
/-!
Model of the vector types of cmmcore/vec.h over an arbitrary number type `K` (exact arithmetic).
-/
namespace Cmm

/-- vec.h 74-213 `vec2`. -/
@[ext] structure Vec2 (K : Type) where
  x : K
  y : K
  deriving DecidableEq, Repr

/-- vec.h 225-446 `vec3`. -/
@[ext] structure Vec3 (K : Type) where
  x : K
  y : K
  z : K
  deriving DecidableEq, Repr

/-- vec.h 681-981 `vec4`. -/
@[ext] structure Vec4 (K : Type) where
  x : K
  y : K
  z : K
  w : K
  deriving DecidableEq, Repr

/-- Outcome of an operation that can throw a C++ exception or run into undefined behaviour. -/
inductive Res (α : Type) where
  | ok (a : α)
  | throws
  | ub
  deriving DecidableEq, Repr

/-- Sequencing of outcomes: an exception or undefined behaviour ends the run. -/
def Res.bind {α β : Type} : Res α → (α → Res β) → Res β
  | .ok a, f => f a
  | .throws, _ => .throws
  | .ub, _ => .ub

instance : Monad Res where
  pure := .ok
  bind := Res.bind

@[simp] theorem Res.ok_bind {α β : Type} (a : α) (f : α → Res β) : (Res.ok a >>= f) = f a := rfl
@[simp] theorem Res.throws_bind {α β : Type} (f : α → Res β) : ((Res.throws : Res α) >>= f) = .throws := rfl
@[simp] theorem Res.ub_bind {α β : Type} (f : α → Res β) : ((Res.ub : Res α) >>= f) = .ub := rfl
@[simp] theorem Res.pure_eq {α : Type} (a : α) : (pure a : Res α) = .ok a := rfl

variable {K : Type}

/-- vec.h 294-305 `vec3::operator[]` for the indices 0..2 used by the callers that guard the index. -/
def Vec3.coord (p : Vec3 K) : Nat → K
  | 0 => p.x
  | 1 => p.y
  | _ => p.z

/-- vec.h 294-317 `vec3::operator[]`: throws `invalid_argument` for an index above 2. -/
def Vec3.at (p : Vec3 K) (i : Nat) : Res K :=
  match i with
  | 0 => .ok p.x
  | 1 => .ok p.y
  | 2 => .ok p.z
  | _ => .throws

/-- vec.h 142-161 `vec2::operator[]`: throws `out_of_range` for an index above 1. -/
def Vec2.at (p : Vec2 K) (i : Nat) : Res K :=
  match i with
  | 0 => .ok p.x
  | 1 => .ok p.y
  | _ => .throws

/-- vec.h 774-801 `vec4::operator[]`: throws `invalid_argument` for an index above 3. -/
def Vec4.at (p : Vec4 K) (i : Nat) : Res K :=
  match i with
  | 0 => .ok p.x
  | 1 => .ok p.y
  | 2 => .ok p.z
  | 3 => .ok p.w
  | _ => .throws

/-- vec.h 372-374 `vec3::operator+`. -/
instance [Add K] : Add (Vec3 K) := ⟨fun a b => ⟨a.x + b.x, a.y + b.y, a.z + b.z⟩⟩
/-- vec.h 369-371 `vec3::operator-`. -/
instance [Sub K] : Sub (Vec3 K) := ⟨fun a b => ⟨a.x - b.x, a.y - b.y, a.z - b.z⟩⟩
/-- vec.h 318-320 `vec3::operator-()`. -/
instance [Neg K] : Neg (Vec3 K) := ⟨fun a => ⟨-a.x, -a.y, -a.z⟩⟩
/-- vec.h 233 `vec3()`: the zero vector. -/
instance [Zero K] : Zero (Vec3 K) := ⟨⟨0, 0, 0⟩⟩
/-- vec.h 375-377 `vec3::operator*(double)`. -/
def Vec3.smul [Mul K] (a : Vec3 K) (b : K) : Vec3 K := ⟨a.x * b, a.y * b, a.z * b⟩
/-- vec.h 381-383 `vec3::operator/(double)`. -/
def Vec3.sdiv [Div K] (a : Vec3 K) (b : K) : Vec3 K := ⟨a.x / b, a.y / b, a.z / b⟩
/-- vec.h 332-348 `vec3::dot`. -/
def Vec3.dot [Add K] [Mul K] (a b : Vec3 K) : K := a.x * b.x + a.y * b.y + a.z * b.z
/-- vec.h 356-367 `vec3::cross` (both overloads). -/
def Vec3.cross [Sub K] [Mul K] (a b : Vec3 K) : Vec3 K :=
  ⟨a.y * b.z - a.z * b.y, a.z * b.x - a.x * b.z, a.x * b.y - a.y * b.x⟩
/-- vec.h 402-410 `vec3::sqLength`. -/
def Vec3.sqLength [Add K] [Mul K] (a : Vec3 K) : K := a.x * a.x + a.y * a.y + a.z * a.z
/-- vec.h 398-401 `vec3::distanceSq`. -/
def Vec3.distanceSq [Add K] [Sub K] [Mul K] (a b : Vec3 K) : K := (a - b).sqLength

/-- `vec2` has no `operator+`; vec.h 126-129 `operator+=`. -/
instance [Add K] : Add (Vec2 K) := ⟨fun a b => ⟨a.x + b.x, a.y + b.y⟩⟩
/-- vec.h 113-115 `vec2::operator-`. -/
instance [Sub K] : Sub (Vec2 K) := ⟨fun a b => ⟨a.x - b.x, a.y - b.y⟩⟩
/-- vec.h 110-112 `vec2::operator-()`. -/
instance [Neg K] : Neg (Vec2 K) := ⟨fun a => ⟨-a.x, -a.y⟩⟩
/-- vec.h 119-121 `vec2::operator*(double)`. -/
def Vec2.smul [Mul K] (a : Vec2 K) (b : K) : Vec2 K := ⟨a.x * b, a.y * b⟩
/-- vec.h 162-164 `vec2::dot`. -/
def Vec2.dot [Add K] [Mul K] (a b : Vec2 K) : K := a.x * b.x + a.y * b.y
/-- vec.h 218-220 `cross(vec2, vec2)`. -/
def Vec2.cross [Sub K] [Mul K] (a b : Vec2 K) : K := a.x * b.y - a.y * b.x
/-- vec.h 169-171 `vec2::sqLength`. -/
def Vec2.sqLength [Add K] [Mul K] (a : Vec2 K) : K := a.dot a
/-- vec.h 165-168 `vec2::distanceSq`. -/
def Vec2.distanceSq [Add K] [Sub K] [Mul K] (a b : Vec2 K) : K := (a - b).sqLength

/-- vec.h 887-900 `vec4::operator+` (not to be confused with `vec4::add`). -/
instance [Add K] : Add (Vec4 K) := ⟨fun a b => ⟨a.x + b.x, a.y + b.y, a.z + b.z, a.w + b.w⟩⟩
/-- vec.h 884-886 `vec4::operator-`. -/
instance [Sub K] : Sub (Vec4 K) := ⟨fun a b => ⟨a.x - b.x, a.y - b.y, a.z - b.z, a.w - b.w⟩⟩
/-- vec.h 802-804 `vec4::operator-()`. -/
instance [Neg K] : Neg (Vec4 K) := ⟨fun a => ⟨-a.x, -a.y, -a.z, -a.w⟩⟩
/-- vec.h 689 `vec4()`: zero. -/
instance [Zero K] : Zero (Vec4 K) := ⟨⟨0, 0, 0, 0⟩⟩
/-- vec.h 901-903 `vec4::operator*(double)`. -/
def Vec4.smul [Mul K] (a : Vec4 K) (b : K) : Vec4 K := ⟨a.x * b, a.y * b, a.z * b, a.w * b⟩
/-- vec.h 907-909 `vec4::operator/(double)`. -/
def Vec4.sdiv [Div K] (a : Vec4 K) (b : K) : Vec4 K := ⟨a.x / b, a.y / b, a.z / b, a.w / b⟩
/-- vec.h 710-714 `vec4::to_vec3`: divides by the weight. -/
def Vec4.toVec3 [Div K] (a : Vec4 K) : Vec3 K := ⟨a.x / a.w, a.y / a.w, a.z / a.w⟩

section simp
variable (a b : Vec3 K)
@[simp] theorem Vec3.add_x [Add K] : (a + b).x = a.x + b.x := rfl
@[simp] theorem Vec3.add_y [Add K] : (a + b).y = a.y + b.y := rfl
@[simp] theorem Vec3.add_z [Add K] : (a + b).z = a.z + b.z := rfl
@[simp] theorem Vec3.sub_x [Sub K] : (a - b).x = a.x - b.x := rfl
@[simp] theorem Vec3.sub_y [Sub K] : (a - b).y = a.y - b.y := rfl
@[simp] theorem Vec3.sub_z [Sub K] : (a - b).z = a.z - b.z := rfl
@[simp] theorem Vec3.neg_x [Neg K] : (-a).x = -a.x := rfl
@[simp] theorem Vec3.neg_y [Neg K] : (-a).y = -a.y := rfl
@[simp] theorem Vec3.neg_z [Neg K] : (-a).z = -a.z := rfl
@[simp] theorem Vec3.zero_x [Zero K] : (0 : Vec3 K).x = 0 := rfl
@[simp] theorem Vec3.zero_y [Zero K] : (0 : Vec3 K).y = 0 := rfl
@[simp] theorem Vec3.zero_z [Zero K] : (0 : Vec3 K).z = 0 := rfl
@[simp] theorem Vec3.smul_x [Mul K] (t : K) : (a.smul t).x = a.x * t := rfl
@[simp] theorem Vec3.smul_y [Mul K] (t : K) : (a.smul t).y = a.y * t := rfl
@[simp] theorem Vec3.smul_z [Mul K] (t : K) : (a.smul t).z = a.z * t := rfl
@[simp] theorem Vec3.sdiv_x [Div K] (t : K) : (a.sdiv t).x = a.x / t := rfl
@[simp] theorem Vec3.sdiv_y [Div K] (t : K) : (a.sdiv t).y = a.y / t := rfl
@[simp] theorem Vec3.sdiv_z [Div K] (t : K) : (a.sdiv t).z = a.z / t := rfl
variable (c d : Vec2 K)
@[simp] theorem Vec2.add_x [Add K] : (c + d).x = c.x + d.x := rfl
@[simp] theorem Vec2.add_y [Add K] : (c + d).y = c.y + d.y := rfl
@[simp] theorem Vec2.sub_x [Sub K] : (c - d).x = c.x - d.x := rfl
@[simp] theorem Vec2.sub_y [Sub K] : (c - d).y = c.y - d.y := rfl
@[simp] theorem Vec2.neg_x [Neg K] : (-c).x = -c.x := rfl
@[simp] theorem Vec2.neg_y [Neg K] : (-c).y = -c.y := rfl
@[simp] theorem Vec2.smul_x [Mul K] (t : K) : (c.smul t).x = c.x * t := rfl
@[simp] theorem Vec2.smul_y [Mul K] (t : K) : (c.smul t).y = c.y * t := rfl
variable (p q : Vec4 K)
@[simp] theorem Vec4.add_x [Add K] : (p + q).x = p.x + q.x := rfl
@[simp] theorem Vec4.add_y [Add K] : (p + q).y = p.y + q.y := rfl
@[simp] theorem Vec4.add_z [Add K] : (p + q).z = p.z + q.z := rfl
@[simp] theorem Vec4.add_w [Add K] : (p + q).w = p.w + q.w := rfl
@[simp] theorem Vec4.sub_x [Sub K] : (p - q).x = p.x - q.x := rfl
@[simp] theorem Vec4.sub_y [Sub K] : (p - q).y = p.y - q.y := rfl
@[simp] theorem Vec4.sub_z [Sub K] : (p - q).z = p.z - q.z := rfl
@[simp] theorem Vec4.sub_w [Sub K] : (p - q).w = p.w - q.w := rfl
@[simp] theorem Vec4.zero_x [Zero K] : (0 : Vec4 K).x = 0 := rfl
@[simp] theorem Vec4.zero_y [Zero K] : (0 : Vec4 K).y = 0 := rfl
@[simp] theorem Vec4.zero_z [Zero K] : (0 : Vec4 K).z = 0 := rfl
@[simp] theorem Vec4.zero_w [Zero K] : (0 : Vec4 K).w = 0 := rfl
@[simp] theorem Vec4.smul_x [Mul K] (t : K) : (p.smul t).x = p.x * t := rfl
@[simp] theorem Vec4.smul_y [Mul K] (t : K) : (p.smul t).y = p.y * t := rfl
@[simp] theorem Vec4.smul_z [Mul K] (t : K) : (p.smul t).z = p.z * t := rfl
@[simp] theorem Vec4.smul_w [Mul K] (t : K) : (p.smul t).w = p.w * t := rfl
end simp

end Cmm
