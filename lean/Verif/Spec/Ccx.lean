import Verif.Model.Ccx
import Verif.Spec.Curve
/-! Specification vocabulary for curve-curve intersection. -/
namespace Cmm.Ccx
open Cmm.Nurbs
variable {K : Type} [Field K] [LinearOrder K]

/-- Division points: the parameter interval cut into `2 ^ n` equal parts, end of part number `k - 1` and start of part number `k`. -/
def cut (c : Curve K) (n k : Nat) : K := c.lo + (c.hi - c.lo) * k / 2 ^ n

/-- `t` lies in part number `k` of the `2 ^ n`. -/
def InPart (c : Curve K) (n k : Nat) (t : K) : Prop := cut c n k ≤ t ∧ t ≤ cut c n (k + 1)

/-- The middle of the part. -/
def middle (c : Curve K) (n k : Nat) : K := (cut c n k + cut c n (k + 1)) / 2

/-- Part `k` of the first and part `l` of the second curve are close: each is smaller than `tol` and their points are less than `2 * tol` apart. -/
def CloseParts (tol : K) (c1 c2 : Curve K) (n k l : Nat) : Prop :=
  k < 2 ^ n ∧ l < 2 ^ n ∧
  (∀ s s', InPart c1 n k s → InPart c1 n k s' → ∀ P P', c1.evaluate s = .ok P → c1.evaluate s' = .ok P' → (P - P').sqLength < tol ^ 2) ∧
  (∀ t t', InPart c2 n l t → InPart c2 n l t' → ∀ Q Q', c2.evaluate t = .ok Q → c2.evaluate t' = .ok Q' → (Q - Q').sqLength < tol ^ 2) ∧
  (∀ s t, InPart c1 n k s → InPart c2 n l t → ∀ P Q, c1.evaluate s = .ok P → c2.evaluate t = .ok Q → (P - Q).sqLength < (2 * tol) ^ 2)

/-- The reported pair is the middle of two close parts. -/
def Genuine (tol : K) (c1 c2 : Curve K) (p : K × K) : Prop :=
  ∃ n k l, CloseParts tol c1 c2 n k l ∧ p = (middle c1 n k, middle c2 n l)

/-- The reported pair accounts for the parameters `(s, t)`: they lie in close parts and the pair is within `tol` of the middle of these parts. -/
def Accounts (tol : K) (c1 c2 : Curve K) (p : K × K) (s t : K) : Prop :=
  ∃ n k l, CloseParts tol c1 c2 n k l ∧ InPart c1 n k s ∧ InPart c2 n l t ∧ |p.1 - middle c1 n k| ≤ tol ∧ |p.2 - middle c2 n l| ≤ tol

/-- Two reports differ by more than `tol` in one of the parameters. -/
def Apart (tol : K) (a b : K × K) : Prop := ¬ (|a.1 - b.1| ≤ tol ∧ |a.2 - b.2| ≤ tol)

/-- The curve can be halved `N` times: clamped over its interval, unit weights, inner knots of multiplicity at most the degree, and no knot is within
1e-12 of a division point of level up to `N` other than itself. -/
structure Halvable (N : Nat) (c : Curve K) : Prop where
  valid : ValidCurve c
  unit : ∀ q ∈ c.cpts, q.w = 1
  interval : IntervalOk c
  clamped : Clamped c
  mult : ∀ x, c.lo < x → x < c.hi → c.knots.count x ≤ c.degree
  clear : ∀ n ≤ N, ∀ k, k ≤ 2 ^ n → ClearOf (1 / 10 ^ 12) c.knots (cut c n k)

/-- A Bézier curve: a clamped curve without inner knots. -/
def IsBezier (c : Curve K) : Prop :=
  c.knots = List.replicate (c.degree + 1) c.lo ++ List.replicate (c.degree + 1) c.hi ∧ c.cpts.length = c.degree + 1

/-- Consecutive control points differ by at most `d` in every coordinate. -/
def StepsLe (d : K) (c : Curve K) : Prop :=
  ∀ i, i + 1 < c.cpts.length → |(ix c.cpts (i + 1)).x - (ix c.cpts i).x| ≤ d ∧ |(ix c.cpts (i + 1)).y - (ix c.cpts i).y| ≤ d ∧
    |(ix c.cpts (i + 1)).z - (ix c.cpts i).z| ≤ d

/-- Consecutive control points differ in every coordinate by at most `M` times the knots they span: the derivative curve has control points of size at
most `degree * M`. -/
def SlopeLe (M : K) (c : Curve K) : Prop :=
  ∀ i, i + 1 < c.cpts.length →
    |(ix c.cpts (i + 1)).x - (ix c.cpts i).x| ≤ M * (ix c.knots (i + c.degree + 1) - ix c.knots (i + 1)) ∧
    |(ix c.cpts (i + 1)).y - (ix c.cpts i).y| ≤ M * (ix c.knots (i + c.degree + 1) - ix c.knots (i + 1)) ∧
    |(ix c.cpts (i + 1)).z - (ix c.cpts i).z| ≤ M * (ix c.knots (i + c.degree + 1) - ix c.knots (i + 1))

end Cmm.Ccx
