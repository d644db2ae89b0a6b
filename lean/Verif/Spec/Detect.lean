import Verif.Model.GaussMap
import Verif.Spec.Surface
import Verif.Spec.Csx
import Verif.Spec.Decompose
import Verif.Spec.Geometry
/-! Specification vocabulary for the search of surface-surface intersections. -/
namespace Cmm.Gauss
open Cmm.Nurbs
variable {K : Type} [Field K] [LinearOrder K]

/-- The parameters lie in the intervals of the surface. -/
def Inside (s : Surface K) (u v : K) : Prop := (s.u0 ≤ u ∧ u ≤ s.u1) ∧ (s.v0 ≤ v ∧ v ≤ s.v1)

/-- `x` is the part of `s` over its own parameter rectangle. -/
def Part (s x : Surface K) : Prop :=
  ((s.u0 ≤ x.u0 ∧ x.u1 ≤ s.u1) ∧ (s.v0 ≤ x.v0 ∧ x.v1 ≤ s.v1)) ∧ ∀ u v, Inside x u v → x.evaluate u v = s.evaluate u v

/-- `x` occupies the same share of the rectangle of `s` as `y` does of that of `g`. -/
def SameShare (s g x y : Surface K) : Prop :=
  ∃ a b c d : K, (x.u0 = s.u0 + a * (s.u1 - s.u0) ∧ y.u0 = g.u0 + a * (g.u1 - g.u0)) ∧
    (x.u1 = s.u0 + b * (s.u1 - s.u0) ∧ y.u1 = g.u0 + b * (g.u1 - g.u0)) ∧
    (x.v0 = s.v0 + c * (s.v1 - s.v0) ∧ y.v0 = g.v0 + c * (g.v1 - g.v0)) ∧
    (x.v1 = s.v0 + d * (s.v1 - s.v0) ∧ y.v1 = g.v0 + d * (g.v1 - g.v0))

/-- No coordinate of the two points differs by more than `tol`. -/
def Near (tol : K) (p q : Vec3 K) : Prop := |p.x - q.x| ≤ tol ∧ |p.y - q.y| ≤ tol ∧ |p.z - q.z| ≤ tol

/-- A Bézier surface with positive weights and up-to-date intervals. -/
structure PositivePatch (s : Surface K) : Prop where
  valid : ValidSurface s
  interval : SurfIntervalOk s
  bezier : Csx.IsBezierSurf s
  positive : SurfPositive s

/-- A valid surface with positive weights that is clamped in both directions, with distinct knots more than the split tolerance apart. -/
structure ClampedSurface (s : Surface K) : Prop where
  valid : ValidSurface s
  interval : SurfIntervalOk s
  positive : SurfPositive s
  knots_u : ∃ a ks b, KnotRun (1 / 10 ^ 7) s.du s.ku a ks b
  knots_v : ∃ a ks b, KnotRun (1 / 10 ^ 7) s.dv s.kv a ks b

/-- The common part of two boxes has a side of at most `tol` or a volume less than `tol`. -/
def ThinOverlap (tol : K) (a b : AABB K) : Prop :=
  let x := min a.max.x b.max.x - max a.min.x b.min.x
  let y := min a.max.y b.max.y - max a.min.y b.min.y
  let z := min a.max.z b.max.z - max a.min.z b.min.z
  x ≤ tol ∨ y ≤ tol ∨ z ≤ tol ∨ x * y * z < tol

/-- The hull routine for points in space loses no control point of a part of the surface of the same degrees: the part is in the convex hull of what is
returned. -/
def HullKeeps (env : Env K) (s : Surface K) : Prop :=
  ∀ x, Part s x → PositivePatch x → (x.du = s.du ∧ x.dv = s.dv) → ∀ l, Csx.surfacePoints x = .ok l → ∀ p ∈ l, Geom.InHull (env.hull3 l) p

end Cmm.Gauss
