import Verif.Model.Ccx
/-! Specification vocabulary for C145: ends of curves and the parts of a curve at its ends. Nothing is assumed of the arithmetic. -/
namespace Cmm.Ccx
open Cmm.Nurbs
variable {K : Type} [Arith K] [LinearOrder K]

/-- The point at the start (`false`) or at the end (`true`) of a curve: the first or last control point divided by its weight. -/
def endPoint (last : Bool) (c : Curve K) : Option (Vec3 K) := (if last then c.cpts.getLast? else c.cpts.head?).map Vec4.toVec3

/-- `q` is `c`, halved any number of times, always keeping the half at the start (`false`) or at the end (`true`) of the curve. -/
inductive EndPart (last : Bool) : Curve K → Curve K → Prop
  | whole (c : Curve K) : EndPart last c c
  | half {c a b q : Curve K} : c.split ((c.hi - c.lo) * (1 / 2) + c.lo) false = .ok (a, b) → EndPart last (if last then b else a) q → EndPart last c q

/-- The diagonal of the box of the control points is, as computed, shorter than the tolerance. -/
def SmallPart (sqrt : K → K) (tol : K) (q : Curve K) : Prop := ∃ b, q.bbox = .ok b ∧ sqrt (b.max - b.min).sqLength < tol

/-- The pair is the middle of the parameters of the two parts, or within the tolerance of it. -/
def AtMiddle (tol : K) (q1 q2 : Curve K) (p : K × K) : Prop :=
  p = (1 / 2 * (q1.lo + q1.hi), 1 / 2 * (q2.lo + q2.hi)) ∨
    (absA (p.1 - 1 / 2 * (q1.lo + q1.hi)) ≤ tol ∧ absA (p.2 - 1 / 2 * (q2.lo + q2.hi)) ≤ tol)

end Cmm.Ccx
