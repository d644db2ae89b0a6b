import Verif.Spec.Rounding
import Verif.Model.Minimize
/-! What is asked of a number format and of the library functions for the minimiser in floating-point arithmetic. -/
namespace Cmm.Num
variable {K : Type} [Field K] [LinearOrder K]

/-- A number format as `double`: rounding is nearly exact, the format contains the numbers 1 to 5 and one half, and with every number its negative. -/
structure FormatOk (R : Rounding K) (u : K) : Prop where
  err : R.RelError u
  nonneg : 0 ≤ u
  small : u ≤ 1 / 2 ^ 40
  neg : ∀ x, R.rnd x = x → R.rnd (-x) = -x
  nat : ∀ n : Nat, 1 ≤ n → n ≤ 5 → R.rnd n = n
  half : R.rnd (1 / 2) = 1 / 2

/-- `std::sqrt` is nearly exact and `std::copysign(1, x)` is the sign of `x`; the sign of zero may be any. -/
structure LibNear {R : Rounding K} (u : K) (L : MinLib (Fp R)) : Prop where
  sqrt : ∀ x : Fp R, 0 < x.val → 0 < (L.sqrt x).val ∧ |(L.sqrt x).val ^ 2 - x.val| ≤ 3 * u * x.val
  sgn : ∀ (n : Nat) (x : Fp R), (x.val < 0 → (L.sgn n x).val = -1) ∧ (0 < x.val → (L.sgn n x).val = 1) ∧ ((L.sgn n x).val = 1 ∨ (L.sgn n x).val = -1)

end Cmm.Num
