import Verif.Spec.RoundingSurface
import Verif.Spec.Decompose
import Verif.Spec.RoundingEval
/-! Specification vocabulary for C148. -/
namespace Cmm.Nurbs
variable {K : Type} [Field K] [LinearOrder K]

/-- `q` is a Bézier patch over `[ulo, uhi] × [vlo, vhi]` with the degrees of `s` and weights one, an up-to-date interval and only the two ends as knots; it is nowhere further than
`δ` from `s` in any coordinate, and no coordinate of its control points is larger than `B`. -/
structure BezierPatchNear (δ B : K) (s q : Surface K) (ulo uhi vlo vhi : K) : Prop where
  close : ClosePart δ q s ulo uhi vlo vhi
  interval : q.u0 = ulo ∧ q.u1 = uhi ∧ q.v0 = vlo ∧ q.v1 = vhi
  size : q.su = s.du + 1 ∧ q.sv = s.dv + 1
  knots_u : q.ku = List.replicate (s.du + 1) ulo ++ List.replicate (s.du + 1) uhi
  knots_v : q.kv = List.replicate (s.dv + 1) vlo ++ List.replicate (s.dv + 1) vhi
  bound : ∀ row ∈ q.cpts, ∀ x ∈ row, Bounded B (Vec4.pos x)

/-- The part of `s` over `[lo, hi]` in U and everything in V, up to `δ`. -/
structure StripNearU (δ B : K) (s q : Surface K) (lo hi : K) : Prop where
  close : ClosePart δ q s lo hi (ix s.kv s.dv) (ix s.kv s.sv)
  interval : SurfIntervalOk q
  other : q.kv = s.kv
  knots : q.ku = List.replicate (s.du + 1) lo ++ List.replicate (s.du + 1) hi
  bound : ∀ row ∈ q.cpts, ∀ x ∈ row, Bounded B (Vec4.pos x)

/-- The part of `s` over `[lo, hi]` in V and everything in U, up to `δ`. -/
structure StripNearV (δ B : K) (s q : Surface K) (lo hi : K) : Prop where
  close : ClosePart δ q s (ix s.ku s.du) (ix s.ku s.su) lo hi
  interval : SurfIntervalOk q
  other : q.ku = s.ku
  knots : q.kv = List.replicate (s.dv + 1) lo ++ List.replicate (s.dv + 1) hi
  bound : ∀ row ∈ q.cpts, ∀ x ∈ row, Bounded B (Vec4.pos x)

end Cmm.Nurbs
