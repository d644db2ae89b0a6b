import Verif.Model.Csx
import Verif.Spec.Surface
import Verif.Spec.Ccx
/-! Specification vocabulary for curve-surface intersection. -/
namespace Cmm.Csx
open Cmm.Nurbs Cmm.Ccx
variable {K : Type} [Field K] [LinearOrder K]

/-- The pairs of pieces a search of `c` and `s` can look at: the pair itself, and the combinations of the two parts of a piece of the curve with the four
parts of a piece of the surface. -/
inductive Searched (c : Curve K) (s : Surface K) : Curve K → Surface K → Prop
  | self : Searched c s c s
  | part {c' a b x : Curve K} {s' q1 q2 q3 q4 y : Surface K} {t u v : K} : Searched c s c' s' → c'.split t false = .ok (a, b) →
      s'.subdivideAt u v = .ok (q1, q2, q3, q4) → x ∈ [a, b] → y ∈ [q1, q2, q3, q4] → Searched c s x y

/-- A report is genuine for a curve and a surface: its parameters lie in their intervals, its point is the point of the curve, and the point of the
surface is within the tolerance. -/
def Genuine (sqrt : K → K) (tol : K) (c : Curve K) (s : Surface K) (h : Hit K) : Prop :=
  (c.lo ≤ h.t ∧ h.t ≤ c.hi) ∧ (s.u0 ≤ h.u ∧ h.u ≤ s.u1) ∧ (s.v0 ≤ h.v ∧ h.v ≤ s.v1) ∧ c.evaluate h.t = .ok h.point ∧
    ∃ q, s.evaluate h.u h.v = .ok q ∧ sqrt (h.point - q).sqLength ≤ tol

/-- A Bézier surface: single spans, clamped, in both directions. -/
def IsBezierSurf (s : Surface K) : Prop :=
  s.ku = List.replicate (s.du + 1) s.u0 ++ List.replicate (s.du + 1) s.u1 ∧ s.su = s.du + 1 ∧
    s.kv = List.replicate (s.dv + 1) s.v0 ++ List.replicate (s.dv + 1) s.v1 ∧ s.sv = s.dv + 1

end Cmm.Csx
