import Mathlib.Algebra.Field.Basic
import Mathlib.Order.Defs.LinearOrder
/-! Angles on a circle. -/
namespace Cmm.SBox
variable {K : Type} [Field K] [LinearOrder K]

/-- The way from the angle `a` to the angle `b`, counterclockwise, as a number up to one full turn (a full turn if they are equal). -/
def ccw (twoPi a b : K) : K := if a < b then b - a else b - a + twoPi

/-- The angle `t` lies on the arc that runs counterclockwise from `s` to `e`. -/
def InWedge (s e t : K) : Prop := if s ≤ e then s ≤ t ∧ t ≤ e else s ≤ t ∨ t ≤ e

end Cmm.SBox
