import Verif.Model.AABB
import Verif.Model.Arith
/-!
Doubles that may be NaN. The models of aabb.h, bvh.hpp, kdtree.h and of spline evaluation, insertion and splitting use only comparisons, `std::min`, `std::max` and arithmetic, so they can be read over this type as well
as over ordered numbers. Infinities are numbers of `K` or absent; an operation on numbers that gives NaN (`inf - inf`, `0 / 0`) is not modelled, only NaN as an input.
-/
namespace Cmm

/-- A double: NaN or a number (IEEE 754). -/
inductive Dbl (K : Type) where
  | nan
  | num (x : K)
  deriving DecidableEq, Repr

namespace Dbl
variable {K : Type}

/-- `a < b`: false if either is NaN. -/
def lt [LT K] : Dbl K → Dbl K → Prop
  | .num a, .num b => a < b
  | _, _ => False

/-- `a <= b`: false if either is NaN. -/
def le [LE K] : Dbl K → Dbl K → Prop
  | .num a, .num b => a ≤ b
  | _, _ => False

instance [LT K] : LT (Dbl K) := ⟨lt⟩
instance [LE K] : LE (Dbl K) := ⟨le⟩

instance [LT K] [DecidableLT K] : DecidableLT (Dbl K) := fun a b =>
  match a, b with
  | .num x, .num y => inferInstanceAs (Decidable (x < y))
  | .nan, .num _ => isFalse id
  | .num _, .nan => isFalse id
  | .nan, .nan => isFalse id

instance [LE K] [DecidableLE K] : DecidableLE (Dbl K) := fun a b =>
  match a, b with
  | .num x, .num y => inferInstanceAs (Decidable (x ≤ y))
  | .nan, .num _ => isFalse id
  | .num _, .nan => isFalse id
  | .nan, .nan => isFalse id

/-- `std::min(a, b)`: `b` if `b < a`, else `a` (so `a` when either is NaN). -/
instance [LT K] [DecidableLT K] : Min (Dbl K) := ⟨fun a b => if b < a then b else a⟩

/-- `std::max(a, b)`: `b` if `a < b`, else `a` (so `a` when either is NaN). -/
instance [LT K] [DecidableLT K] : Max (Dbl K) := ⟨fun a b => if a < b then b else a⟩

/-- An operation with a NaN operand gives NaN. -/
def lift₂ (f : K → K → K) : Dbl K → Dbl K → Dbl K
  | .num a, .num b => .num (f a b)
  | _, _ => .nan

instance [Arith K] : Arith (Dbl K) where
  add := lift₂ (· + ·)
  sub := lift₂ (· - ·)
  mul := lift₂ (· * ·)
  div := lift₂ (· / ·)
  neg
    | .num a => .num (-a)
    | .nan => .nan
  zero := .num 0
  one := .num 1
  natCast n := .num n

end Dbl

/-- A point without NaN coordinates. -/
def Vec3.dbl {K : Type} (p : Vec3 K) : Vec3 (Dbl K) := ⟨.num p.x, .num p.y, .num p.z⟩

/-- A box without NaN coordinates. -/
def AABB.dbl {K : Type} (b : AABB K) : AABB (Dbl K) := ⟨b.min.dbl, b.max.dbl⟩

end Cmm
