import Verif.Model.Curve
import Verif.Spec.Knots
/-! Specification vocabulary for curves. -/
namespace Cmm.Nurbs
variable {K : Type}

/-- What the callers of the spline code rely on, for `n` control points of degree `p`: degree between 1 and 8, more control
points than the degree, `n + p + 1` non-decreasing knots and a last knot span that is not empty. -/
structure ValidKnots [Field K] [LinearOrder K] (n p : Nat) (U : List K) : Prop where
  deg_pos : 1 ≤ p
  deg_le : p ≤ 8
  enough : p < n
  len : U.length = n + p + 1
  sorted : SortedKnots U
  last_span : ix U (n - 1) < ix U n

/-- A curve whose knots fit its control points. -/
def ValidCurve [Field K] [LinearOrder K] (c : Curve K) : Prop := ValidKnots c.cpts.length c.degree c.knots

/-- The parameter lies in the domain of the spline, `[U_degree, U_n]` for `n` control points. -/
def InDomain [Field K] [LinearOrder K] (c : Curve K) (t : K) : Prop :=
  ix c.knots c.degree ≤ t ∧ t ≤ ix c.knots c.cpts.length

/-- Clamped at both ends: the first and the last `degree + 1` knots are equal. -/
def Clamped [Field K] [LinearOrder K] (c : Curve K) : Prop :=
  (∀ i ≤ c.degree, ix c.knots i = ix c.knots c.degree) ∧
  (∀ i, c.cpts.length ≤ i → i ≤ c.cpts.length + c.degree → ix c.knots i = ix c.knots c.cpts.length)

/-- The cached interval is the one of the knots. -/
def IntervalOk [Field K] [LinearOrder K] (c : Curve K) : Prop := c.updateInterval = .ok c

/-- All weights are the same positive number. -/
def EqualWeights [Field K] [LinearOrder K] (c : Curve K) : Prop := ∃ w : K, 0 < w ∧ ∀ q ∈ c.cpts, q.w = w

/-- All weights are positive. -/
def PositiveWeights [Field K] [LinearOrder K] (c : Curve K) : Prop := ∀ q ∈ c.cpts, 0 < q.w

/-- The position stored in a control point, without the weight. -/
def Vec4.pos (q : Vec4 K) : Vec3 K := ⟨q.x, q.y, q.z⟩

/-- The sum `Σ a_j q_j`. -/
def weightedSum [Field K] : List K → List (Vec3 K) → Vec3 K
  | a :: as, q :: qs => q.smul a + weightedSum as qs
  | _, _ => 0

/-- `r` is a convex combination of the points. -/
def ConvexCombination [Field K] [LinearOrder K] (r : Vec3 K) (qs : List (Vec3 K)) : Prop :=
  ∃ a : List K, a.length = qs.length ∧ (∀ x ∈ a, 0 ≤ x) ∧ a.sum = 1 ∧ r = weightedSum a qs

/-- Every knot different from `u` is farther from it than `tol`. -/
def ClearOf [Field K] [LinearOrder K] (tol : K) (U : List K) (u : K) : Prop := ∀ x ∈ U, x ≠ u → tol < |u - x|

/-- An affine map of space: three rows of coefficients and a translation. -/
structure Affine3 (K : Type) where
  rx : Vec3 K
  ry : Vec3 K
  rz : Vec3 K
  t : Vec3 K

/-- The image of a point under an affine map. -/
def Affine3.apply [Field K] (f : Affine3 K) (v : Vec3 K) : Vec3 K :=
  ⟨f.rx.x * v.x + f.rx.y * v.y + f.rx.z * v.z + f.t.x, f.ry.x * v.x + f.ry.y * v.y + f.ry.z * v.z + f.t.y,
   f.rz.x * v.x + f.rz.y * v.y + f.rz.z * v.z + f.t.z⟩

/-- The control point with its position moved by the map and its weight kept. -/
def Affine3.applyCpt [Field K] (f : Affine3 K) (q : Vec4 K) : Vec4 K :=
  ⟨(f.apply (Vec4.pos q)).x, (f.apply (Vec4.pos q)).y, (f.apply (Vec4.pos q)).z, q.w⟩

end Cmm.Nurbs
