import Verif.Model.Arith
import Mathlib.Algebra.Order.Field.Basic
import Mathlib.Tactic.Linarith
/-!
Arithmetic with rounding: the numbers of a format, and operations that round the exact result to a number of the format.
-/
namespace Cmm

/-- What rounding leaves of the laws of an ordered field: each operation is monotone where the exact one is, zero is neutral, and the difference of equal numbers is zero. -/
class MonoArith (K : Type) [LinearOrder K] [Arith K] : Prop where
  add_mono : ∀ a b c d : K, a ≤ b → c ≤ d → a + c ≤ b + d
  add_zero : ∀ a : K, a + 0 = a
  zero_add : ∀ a : K, 0 + a = a
  sub_mono : ∀ a b c d : K, a ≤ b → d ≤ c → a - c ≤ b - d
  sub_self : ∀ a : K, a - a = 0
  mul_mono : ∀ a b c d : K, 0 ≤ a → a ≤ b → 0 ≤ c → c ≤ d → a * c ≤ b * d
  mul_mono_neg : ∀ a b c d : K, b ≤ a → a ≤ 0 → d ≤ c → c ≤ 0 → a * c ≤ b * d
  zero_mul : ∀ a : K, 0 * a = 0
  mul_zero : ∀ a : K, a * 0 = 0

/-- A way to round to the numbers of a format: it does not change the order, it leaves the numbers of the format alone, and zero is one of them. All rounding modes of
IEEE 754 are of this kind, as long as no result is out of range. -/
structure Rounding (K : Type) [Field K] [LinearOrder K] where
  rnd : K → K
  mono : ∀ x y, x ≤ y → rnd x ≤ rnd y
  idem : ∀ x, rnd (rnd x) = rnd x
  zero : rnd 0 = 0

section
variable {K : Type} [Field K] [LinearOrder K]

/-- The numbers of the format. -/
def Fp (R : Rounding K) : Type := {x : K // R.rnd x = x}

namespace Fp
variable {R : Rounding K}

/-- The value of a number of the format. -/
def val (a : Fp R) : K := a.1

/-- The result of an operation: the exact result, rounded. -/
def round (R : Rounding K) (x : K) : Fp R := ⟨R.rnd x, R.idem x⟩

instance : LinearOrder (Fp R) := inferInstanceAs (LinearOrder {x : K // R.rnd x = x})

/-- Each operation rounds the exact result. -/
instance : Arith (Fp R) where
  add a b := round R (a.val + b.val)
  sub a b := round R (a.val - b.val)
  mul a b := round R (a.val * b.val)
  div a b := round R (a.val / b.val)
  neg a := round R (-a.val)
  zero := round R 0
  one := round R 1
  natCast n := round R n

end Fp

/-- Each rounding changes the number by at most the part `u` of it: half a unit in the last place, `2 ^ -53` for `double` rounded to nearest. -/
def Rounding.RelError (R : Rounding K) (u : K) : Prop := ∀ x, |R.rnd x - x| ≤ u * |x|

end
end Cmm
