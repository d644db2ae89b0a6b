import Verif.Model.Surface
import Verif.Spec.Curve
/-! Specification vocabulary for surfaces. -/
namespace Cmm.Nurbs
variable {K : Type}

/-- A rectangular grid of control points with fitting knot vectors in both directions. -/
structure ValidSurface [Field K] [LinearOrder K] (s : Surface K) : Prop where
  rows : s.cpts.length = s.su
  cols : ∀ r ∈ s.cpts, r.length = s.sv
  knots_u : ValidKnots s.su s.du s.ku
  knots_v : ValidKnots s.sv s.dv s.kv

/-- The parameters lie in the domain of the surface. -/
def SurfInDomain [Field K] [LinearOrder K] (s : Surface K) (u v : K) : Prop :=
  (ix s.ku s.du ≤ u ∧ u ≤ ix s.ku s.su) ∧ (ix s.kv s.dv ≤ v ∧ v ≤ ix s.kv s.sv)

/-- The cached interval is the one of the knots. -/
def SurfIntervalOk [Field K] [LinearOrder K] (s : Surface K) : Prop := s.updateInterval = .ok s

/-- All weights are positive. -/
def SurfPositive [Field K] [LinearOrder K] (s : Surface K) : Prop := ∀ r ∈ s.cpts, ∀ q ∈ r, 0 < q.w

/-- All weights are one. -/
def SurfUnit [Field K] [LinearOrder K] (s : Surface K) : Prop := ∀ r ∈ s.cpts, ∀ q ∈ r, q.w = 1

/-- Knot vector clamped at both ends, `n` control points, degree `p`. -/
def ClampedKnots [Field K] [LinearOrder K] (n p : Nat) (U : List K) : Prop :=
  (∀ i ≤ p, ix U i = ix U p) ∧ (∀ i, n ≤ i → i ≤ n + p → ix U i = ix U n)

end Cmm.Nurbs
