import Mathlib.Algebra.Field.Defs
/-!
The arithmetic of `double`, for code of which more is claimed than for exact arithmetic: `Arith` has the operations and no laws, so a definition that needs only `Arith`
describes the code whatever the rounding is. Exact arithmetic (a field) and arithmetic with a rounding (`Spec/Rounding`) are instances.
-/
namespace Cmm

/-- The operations on numbers that the code uses (`double`), without any law. -/
class Arith (K : Type) extends Add K, Sub K, Mul K, Div K, Neg K, Zero K, One K, NatCast K

/-- Exact arithmetic. -/
instance (priority := 100) Arith.ofField {K : Type} [Field K] : Arith K where

end Cmm
