import Verif.Spec.Surface
import Mathlib.Algebra.Polynomial.Derivative
/-! What it means to be a derivative of a curve, stated with polynomials. -/
namespace Cmm.Nurbs
open Polynomial
variable {K : Type} [Field K] [LinearOrder K]

/-- Number `i` is the knot span in charge of the parameter `t`, for `n` control points, degree `p` and knots `U`:
`U_i ≤ t < U_{i+1}`, where the first span also takes everything before the domain and the last one its own right end and
everything after it. -/
structure SpanIn (n p : Nat) (U : List K) (i : Nat) (t : K) : Prop where
  deg_le : p ≤ i
  lt_len : i < n
  proper : ix U i < ix U (i + 1)
  left : i = p ∨ ix U i ≤ t
  right : i + 1 = n ∨ t < ix U (i + 1)

/-- The span in charge of a parameter of a curve. -/
abbrev SpanOf (c : Curve K) (i : Nat) (t : K) : Prop := SpanIn c.cpts.length c.degree c.knots i t

/-- On the knot span `[U_i, U_{i+1})` the points of the curve are `(X(s), Y(s), Z(s))`. Since the span is not empty this
determines the three polynomials. -/
def PolyOn (c : Curve K) (i : Nat) (X Y Z : K[X]) : Prop :=
  ∀ s, ix c.knots i ≤ s → s < ix c.knots (i + 1) → c.evaluate s = .ok ⟨X.eval s, Y.eval s, Z.eval s⟩

/-- For the fixed second parameter `v`, the surface is `(X(x), Y(x), Z(x))` for `x` in the knot span `[U_i, U_{i+1})` of the first
direction. -/
def PolyOnU (s : Surface K) (i : Nat) (v : K) (X Y Z : K[X]) : Prop :=
  ∀ x, ix s.ku i ≤ x → x < ix s.ku (i + 1) → s.evaluate x v = .ok ⟨X.eval x, Y.eval x, Z.eval x⟩

/-- For the fixed first parameter `u`, the surface is `(X(y), Y(y), Z(y))` for `y` in the knot span `[V_j, V_{j+1})` of the second
direction. -/
def PolyOnV (s : Surface K) (j : Nat) (u : K) (X Y Z : K[X]) : Prop :=
  ∀ y, ix s.kv j ≤ y → y < ix s.kv (j + 1) → s.evaluate u y = .ok ⟨X.eval y, Y.eval y, Z.eval y⟩

/-- All weights are 1. -/
def UnitWeights (c : Curve K) : Prop := ∀ q ∈ c.cpts, q.w = 1

end Cmm.Nurbs
