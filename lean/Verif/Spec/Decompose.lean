import Verif.Spec.Surface
import Verif.Spec.Box
/-! Specification vocabulary for the decomposition into Bézier pieces. -/
namespace Cmm.Nurbs
variable {K : Type} [Field K] [LinearOrder K]

/-- The sorted knot vector `U` has the distinct values `a`, `ks`, `b`, in this order and more than `tol` apart; `a` and `b` occur
`p + 1` times, the inner values at most `p` times. -/
structure KnotRun (tol : K) (p : Nat) (U : List K) (a : K) (ks : List K) (b : K) : Prop where
  sorted : SortedKnots U
  mem : ∀ x, x ∈ U ↔ x ∈ a :: (ks ++ [b])
  inc : (a :: (ks ++ [b])).Pairwise (fun x y => x + tol < y)
  first : U.count a = p + 1
  last : U.count b = p + 1
  inner : ∀ x ∈ ks, U.count x ≤ p

/-- `q` is the Bézier piece of the curve `c` over `[lo, hi]`: same degree `p`, `p + 1` control points, `p + 1` knots at either end, an
up-to-date interval, and the same points. -/
structure BezierPiece (c q : Curve K) (lo hi : K) : Prop where
  valid : ValidCurve q
  interval : q.lo = lo ∧ q.hi = hi
  degree : q.degree = c.degree
  points : q.cpts.length = c.degree + 1
  knots : q.knots = List.replicate (c.degree + 1) lo ++ List.replicate (c.degree + 1) hi
  domain : ∀ t, InDomain q t ↔ lo ≤ t ∧ t ≤ hi
  same : ∀ t, lo ≤ t → t ≤ hi → q.evaluate t = c.evaluate t

/-- If the weights of `s` are positive, so are those of `q`, and every box that contains the control points of `s` contains those of `q`; if the weights
of `s` are one, so are those of `q`. -/
def NetKept (s q : Surface K) : Prop :=
  SurfPositive s → SurfPositive q ∧ (∀ b : AABB K, (∀ r ∈ s.cpts, ∀ p ∈ r, InBox p.toVec3 b) → ∀ r ∈ q.cpts, ∀ p ∈ r, InBox p.toVec3 b) ∧
    (SurfUnit s → SurfUnit q)

/-- `q` is the part of the surface `s` over `[ulo, uhi] × [vlo, vhi]`, a Bézier patch. -/
structure BezierPatch (s q : Surface K) (ulo uhi vlo vhi : K) : Prop where
  valid : ValidSurface q
  interval : q.u0 = ulo ∧ q.u1 = uhi ∧ q.v0 = vlo ∧ q.v1 = vhi
  degree : q.du = s.du ∧ q.dv = s.dv
  size : q.su = s.du + 1 ∧ q.sv = s.dv + 1
  knots_u : q.ku = List.replicate (s.du + 1) ulo ++ List.replicate (s.du + 1) uhi
  knots_v : q.kv = List.replicate (s.dv + 1) vlo ++ List.replicate (s.dv + 1) vhi
  domain : ∀ u v, SurfInDomain q u v ↔ (ulo ≤ u ∧ u ≤ uhi) ∧ (vlo ≤ v ∧ v ≤ vhi)
  same : ∀ u v, SurfInDomain q u v → q.evaluate u v = s.evaluate u v
  net : NetKept s q

/-- The part of the surface over `[lo, hi]` in U and everything in V. -/
structure StripU (s q : Surface K) (lo hi : K) : Prop where
  valid : ValidSurface q
  interval : SurfIntervalOk q
  du : q.du = s.du
  dv : q.dv = s.dv
  other : q.kv = s.kv
  knots : q.ku = List.replicate (s.du + 1) lo ++ List.replicate (s.du + 1) hi
  domain : ∀ u v, SurfInDomain q u v ↔ (lo ≤ u ∧ u ≤ hi) ∧ (ix s.kv s.dv ≤ v ∧ v ≤ ix s.kv s.sv)
  same : ∀ u v, SurfInDomain q u v → q.evaluate u v = s.evaluate u v
  net : NetKept s q

/-- The part of the surface over `[lo, hi]` in V and everything in U. -/
structure StripV (s q : Surface K) (lo hi : K) : Prop where
  valid : ValidSurface q
  interval : SurfIntervalOk q
  du : q.du = s.du
  dv : q.dv = s.dv
  other : q.ku = s.ku
  knots : q.kv = List.replicate (s.dv + 1) lo ++ List.replicate (s.dv + 1) hi
  domain : ∀ u v, SurfInDomain q u v ↔ (ix s.ku s.du ≤ u ∧ u ≤ ix s.ku s.su) ∧ (lo ≤ v ∧ v ≤ hi)
  same : ∀ u v, SurfInDomain q u v → q.evaluate u v = s.evaluate u v
  net : NetKept s q

/-- `lo` and `hi` are neighbours in the list, `lo` at position `i`. -/
def NeighboursAt (ds : List K) (i : Nat) (lo hi : K) : Prop := ds[i]? = some lo ∧ ds[i + 1]? = some hi

end Cmm.Nurbs
