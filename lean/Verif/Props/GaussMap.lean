import Verif.Lemmas.Spherical
import Verif.Lemmas.InsertConvex
import Verif.Props.Monomial
/-!
Properties of cmmcore/gauss_map.h and of the spherical test of cmmcore/separability.h: C89 (value of the Gauss map), C90 (separability of Gauss
maps).
-/
namespace Cmm.Gauss
open Cmm.Nurbs Cmm.Geom Cmm.Mono
variable {K : Type} [Field K] [LinearOrder K] [IsStrictOrderedRing K]

/-! ### C89 -/

theorem normal_coeffs (q : Monomial K) (n m : Nat) (hc : Rect q.coefficients n m) (hn : 2 ≤ n) (hm : 2 ≤ m) :
    ∃ t, q.normal = Monomial.ofCoeffs t ∧ Rect t (2 * n - 2) (2 * m - 2) ∧ ∀ u v, mono t u v =
      Vec3.cross ⟨(polyU (·.x) q.coefficients v).derivative.eval u, (polyU (·.y) q.coefficients v).derivative.eval u,
        (polyU (·.z) q.coefficients v).derivative.eval u⟩
        ⟨(polyV (·.x) q.coefficients u).derivative.eval v, (polyV (·.y) q.coefficients u).derivative.eval v,
        (polyV (·.z) q.coefficients u).derivative.eval v⟩ := by
  obtain ⟨cu, a1, a2, a3⟩ := C42_partial_u q.coefficients n m hc (by omega)
  obtain ⟨cv, b1, b2, b3⟩ := C42_partial_v q.coefficients n m hc (by omega) (by omega)
  obtain ⟨t, t1, t2, t3⟩ := C42_cross cu cv (n - 1) m n (m - 1) a2 b2 (by omega) (by omega) (by omega)
  refine ⟨t, ?_, ?_, fun u v => by rw [t3, a3, b3]⟩
  · unfold Monomial.normal
    rw [a1, Res.ok_bind, b1, Res.ok_bind, t1, Res.ok_bind]
  · rw [show 2 * n - 2 = n - 1 + n - 1 by omega, show 2 * m - 2 = m + (m - 1) - 1 by omega]
    exact t2

/-- C89: for a control net of 2 to 16 points in both directions with nonzero weights, the Gauss map is the Bézier patch with unit weights
whose value at every parameter is the cross product of the two partial derivatives of the polynomial patch of the Cartesian control
points (`c` are the coefficients of that polynomial). -/
theorem C89_control_net (s : Surface K) (hu : 2 ≤ s.su ∧ s.su ≤ 16) (hv : 2 ≤ s.sv ∧ s.sv ≤ 16) (hr : s.cpts.length = s.su)
    (hc : ∀ r ∈ s.cpts, r.length = s.sv) (hw : ∀ r ∈ s.cpts, ∀ p ∈ r, p.w ≠ 0) :
    ∃ g c, gaussMap s = .ok g ∧ Rect c s.su s.sv ∧ (∀ u v, mono c u v = bezier s.su s.sv (fun i j => (cell s.cpts i j).toVec3) u v) ∧
      g.su = 2 * s.su - 2 ∧ g.sv = 2 * s.sv - 2 ∧ (∀ i < g.su, ∀ j < g.sv, (cell g.cpts i j).w = 1) ∧
      ∀ u v, bezier g.su g.sv (fun i j => (cell g.cpts i j).toVec3) u v =
        Vec3.cross ⟨(polyU (·.x) c v).derivative.eval u, (polyU (·.y) c v).derivative.eval u, (polyU (·.z) c v).derivative.eval u⟩
          ⟨(polyV (·.x) c u).derivative.eval v, (polyV (·.y) c u).derivative.eval v, (polyV (·.z) c u).derivative.eval v⟩ := by
  obtain ⟨q, q1, q2, q3⟩ := C41_control_net s ⟨by omega, by omega⟩ ⟨by omega, by omega⟩ hr hc hw
  obtain ⟨t, t1, t2, t3⟩ := normal_coeffs q s.su s.sv q2 hu.1 hv.1
  obtain ⟨r, g, r1, r2, r3, r4, r5, r6, -⟩ := C41_to_bezier t _ _ t2 ⟨by omega, by omega⟩ ⟨by omega, by omega⟩
  refine ⟨g, q.coefficients, ?_, q2, q3, r3, r4, ?_, fun u v => ?_⟩
  · unfold gaussMap
    rw [q1, Res.ok_bind, t1, r1, Res.ok_bind, r2]
  · rw [r3, r4]; exact r5
  · rw [r3, r4, r6, t3]

/-- **C89**: the Gauss map of a polynomial Bézier patch of degrees 1 to 4 is a Bézier patch, and for all parameters its `evaluate` gives the
cross product of the partial derivatives of the patch in `u` and `v`. -/
theorem C89_gauss_map (s : Surface K) (w : K) (B : Mono.BezierPatch s w) (hu : s.su ≤ 5) (hv : s.sv ≤ 5) :
    ∃ g c, gaussMap s = .ok g ∧ Mono.BezierPatch g 1 ∧ ∀ u v, 0 ≤ u → u ≤ 1 → 0 ≤ v → v ≤ 1 → s.evaluate u v = .ok (mono c u v) ∧
      g.evaluate u v = .ok
        (Vec3.cross ⟨(polyU (·.x) c v).derivative.eval u, (polyU (·.y) c v).derivative.eval u, (polyU (·.z) c v).derivative.eval u⟩
          ⟨(polyV (·.x) c u).derivative.eval v, (polyV (·.y) c u).derivative.eval v, (polyV (·.z) c u).derivative.eval v⟩) := by
  have ⟨a1, _⟩ := B.size_u
  have ⟨b1, _⟩ := B.size_v
  obtain ⟨q, q1, q2, q3⟩ := C41_control_net s ⟨by omega, by omega⟩ ⟨by omega, by omega⟩ B.rows B.cols
    (fun r hr p hp => by rw [B.weight.2 r hr p hp]; exact B.weight.1)
  obtain ⟨q', q1', q4⟩ := C41_surface s w B
  rw [q1] at q1'
  obtain rfl := Res.ok.inj q1'
  obtain ⟨t, t1, t2, t3⟩ := normal_coeffs q s.su s.sv q2 a1 b1
  obtain ⟨r, g, r1, r2, r3, r4, r5, r6, r7⟩ := C41_to_bezier t _ _ t2 ⟨by omega, by omega⟩ ⟨by omega, by omega⟩
  obtain ⟨r7, r8⟩ := r7 (by omega) (by omega) (by omega) (by omega)
  refine ⟨g, q.coefficients, ?_, r7, fun u v h1 h2 h3 h4 => ⟨q4 u v h1 h2 h3 h4, ?_⟩⟩
  · unfold gaussMap
    rw [q1, Res.ok_bind, t1, r1, Res.ok_bind, r2]
  · rw [r8 u v h1 h2 h3 h4, t3]

example : Mono.BezierPatch demoPatch 2 ∧ demoPatch.su ≤ 5 ∧ demoPatch.sv ≤ 5 := ⟨demoPatch_bezier, by decide, by decide⟩

/-- The Gauss map has full degrees, the Bézier knots over [0, 1] and unit weights. -/
theorem gaussMap_shape (s : Surface K) (hu : 2 ≤ s.su ∧ s.su ≤ 16) (hv : 2 ≤ s.sv ∧ s.sv ≤ 16) (hr : s.cpts.length = s.su)
    (hc : ∀ r ∈ s.cpts, r.length = s.sv) (hw : ∀ r ∈ s.cpts, ∀ p ∈ r, p.w ≠ 0) :
    ∃ g, gaussMap s = .ok g ∧ (g.su = 2 * s.su - 2 ∧ g.sv = 2 * s.sv - 2) ∧ (g.du = g.su - 1 ∧ g.dv = g.sv - 1) ∧ g.cpts.length = g.su ∧
      (∀ r ∈ g.cpts, r.length = g.sv) ∧ g.ku = List.replicate g.su 0 ++ List.replicate g.su 1 ∧
      g.kv = List.replicate g.sv 0 ++ List.replicate g.sv 1 ∧ (g.u0 = 0 ∧ g.u1 = 1 ∧ g.v0 = 0 ∧ g.v1 = 1) ∧ SurfUnit g := by
  obtain ⟨q, q1, q2, q3⟩ := C41_control_net s ⟨by omega, by omega⟩ ⟨by omega, by omega⟩ hr hc hw
  obtain ⟨t, t1, t2, t3⟩ := normal_coeffs q s.su s.sv q2 hu.1 hv.1
  obtain ⟨r, a1, a2, a3, a4, a5⟩ := ofCoeffs_ok t _ _ t2 ⟨by omega, by omega⟩ ⟨by omega, by omega⟩
  obtain ⟨g, B, B', g1, g2, g3, g4, g5, g6, g7, g8, g9, g10, g11, g12, g13, g15, g14⟩ :=
    toBezier_ok r (by omega) (by omega) a5 (by rw [a2, a3, a4]; exact t2)
  refine ⟨g, ?_, ⟨by omega, by omega⟩, ⟨by omega, by omega⟩, by omega, fun r hr => by rw [g11 r hr, g7], by rw [g12, g6], by rw [g13, g7],
    g15, fun r' hr' p hp => ?_⟩
  · unfold gaussMap
    rw [q1, Res.ok_bind, t1, a1, Res.ok_bind, g1]
  · obtain ⟨i, hi, rfl⟩ := List.getElem_of_mem hr'
    obtain ⟨j, hj, rfl⟩ := List.getElem_of_mem hp
    have := g14 i (by omega) j (by rw [← g11 _ hr']; exact hj)
    rw [cell_eq hi, ix_eq_getElem hj] at this
    rw [this]

/-- C89: beyond degree 4 in a direction (up to the 16 points for which it can be computed) the Gauss map cannot be evaluated: its degree exceeds
the fixed size of the work arrays. -/
theorem C89_high_degree (s : Surface K) (hu : 2 ≤ s.su ∧ s.su ≤ 16) (hv : 2 ≤ s.sv ∧ s.sv ≤ 16) (hr : s.cpts.length = s.su)
    (hc : ∀ r ∈ s.cpts, r.length = s.sv) (hw : ∀ r ∈ s.cpts, ∀ p ∈ r, p.w ≠ 0) (h : 5 < s.su ∨ 5 < s.sv) :
    ∃ g, gaussMap s = .ok g ∧ ∀ u v, g.evaluate u v = .ub := by
  obtain ⟨g, h1, ⟨h2, h3⟩, ⟨h4, h5⟩, -⟩ := gaussMap_shape s hu hv hr hc hw
  refine ⟨g, h1, fun u v => ?_⟩
  unfold Surface.evaluate
  dsimp only
  rw [if_pos]
  unfold maxDegree
  omega

/-- A patch of degrees 5 and 1. -/
def quinticPatch : Surface ℚ :=
  ⟨(List.range 6).map fun i => [⟨i, 0, 0, 1⟩, ⟨i, 1, i * i, 1⟩], 5, 1, 6, 2, List.replicate 6 0 ++ List.replicate 6 1, [0, 0, 1, 1], 0, 1, 0, 1⟩

example : (2 ≤ quinticPatch.su ∧ quinticPatch.su ≤ 16) ∧ (2 ≤ quinticPatch.sv ∧ quinticPatch.sv ≤ 16) ∧ quinticPatch.cpts.length = quinticPatch.su ∧
    (∀ r ∈ quinticPatch.cpts, r.length = quinticPatch.sv) ∧ (∀ r ∈ quinticPatch.cpts, ∀ p ∈ r, p.w ≠ 0) ∧ 5 < quinticPatch.su := by
  refine ⟨?_, ?_, ?_, ?_, ?_, ?_⟩ <;> decide +kernel

/-- C89: a net of a single row has no Gauss map (the first row of an empty tensor is read). -/
theorem C89_single_row (s : Surface K) (hu : s.su = 1) (hv : 0 < s.sv ∧ s.sv ≤ 31) (hr : s.cpts.length = s.su)
    (hc : ∀ r ∈ s.cpts, r.length = s.sv) (hw : ∀ r ∈ s.cpts, ∀ p ∈ r, p.w ≠ 0) : gaussMap s = .ub := by
  obtain ⟨q, q1, q2, q3⟩ := C41_control_net s ⟨by omega, by omega⟩ hv hr hc hw
  unfold gaussMap
  rw [q1, Res.ok_bind, (C42_single_row q s.sv (by rw [hu] at q2; exact q2) hv.1).2.2]
  rfl

/-- C89: the class `GaussMap` keeps the Gauss map of the surface, its control points and their opposites. -/
theorem C89_class (s : Surface K) (m : Map K) (h : Map.build s = .ok m) :
    gaussMap s = .ok m.surf ∧ Csx.surfacePoints m.surf = .ok m.pts ∧ m.ptsInv.length = m.pts.length ∧
      ∀ (i : Nat) (p : Vec3 K), m.pts[i]? = some p → m.ptsInv[i]? = some (⟨-p.x, -p.y, -p.z⟩ : Vec3 K) := by
  unfold Map.build at h
  obtain ⟨g, h1, h⟩ := Csx.ok_of_bind h
  obtain ⟨pts, h2, h⟩ := Csx.ok_of_bind h
  obtain rfl := Res.ok.inj h
  refine ⟨h1, h2, by simp [inverted], fun i p hp => ?_⟩
  simp [inverted, hp]

/-- Subdividing the map subdivides the normal patch in the middle; each part again keeps its control points and their opposites. -/
theorem C89_class_subdivide (m : Map K) (a b c d : Map K) (h : m.subdivide = .ok (a, b, c, d)) :
    m.surf.subdivide = .ok (a.surf, b.surf, c.surf, d.surf) ∧
      ∀ x, x = a ∨ x = b ∨ x = c ∨ x = d → Csx.surfacePoints x.surf = .ok x.pts ∧ x.ptsInv.length = x.pts.length ∧
        ∀ (i : Nat) (p : Vec3 K), x.pts[i]? = some p → x.ptsInv[i]? = some (⟨-p.x, -p.y, -p.z⟩ : Vec3 K) := by
  have key : ∀ (s : Surface K) (x : Map K), Map.ofSurf s = .ok x → x.surf = s ∧ Csx.surfacePoints x.surf = .ok x.pts ∧
      x.ptsInv.length = x.pts.length ∧ ∀ (i : Nat) (p : Vec3 K), x.pts[i]? = some p → x.ptsInv[i]? = some (⟨-p.x, -p.y, -p.z⟩ : Vec3 K) := by
    intro s x hx
    unfold Map.ofSurf at hx
    obtain ⟨pts, h1, hx⟩ := Csx.ok_of_bind hx
    obtain rfl := Res.ok.inj hx
    refine ⟨rfl, h1, by simp [inverted], fun i p hp => ?_⟩
    simp [inverted, hp]
  unfold Map.subdivide at h
  obtain ⟨_, -, h⟩ := Csx.ok_of_bind h
  obtain ⟨q, hq, h⟩ := Csx.ok_of_bind h
  obtain ⟨g1, k1, h⟩ := Csx.ok_of_bind h
  obtain ⟨g2, k2, h⟩ := Csx.ok_of_bind h
  obtain ⟨g3, k3, h⟩ := Csx.ok_of_bind h
  obtain ⟨g4, k4, h⟩ := Csx.ok_of_bind h
  cases h
  obtain ⟨e1, r1⟩ := key _ _ k1
  obtain ⟨e2, r2⟩ := key _ _ k2
  obtain ⟨e3, r3⟩ := key _ _ k3
  obtain ⟨e4, r4⟩ := key _ _ k4
  refine ⟨?_, ?_⟩
  · rw [C33_subdivide_mid, e1, e2, e3, e4, ← hq]
    congr 1 <;> ring
  · rintro x (rfl | rfl | rfl | rfl) <;> assumption

example : (match (⟨[], [], demoSurface⟩ : Map ℚ).subdivide with | .ok _ => true | _ => false) = true := by decide +kernel

/-! ### C90 -/

omit [IsStrictOrderedRing K] in
/-- C90: the projection of a point is on its line to the centre, unless both are at the same height. -/
theorem C90_projection (o p : Vec3 K) : (o.z ≠ p.z → OnRay o p (centerProjection o p)) ∧
    (o.z = p.z → centerProjection o p = ⟨p.x, p.y⟩) := by
  constructor
  · intro h
    unfold centerProjection OnRay
    rw [if_neg h]
    have h1 : p.z - o.z ≠ 0 := sub_ne_zero.2 (Ne.symm h)
    exact ⟨-o.z / (p.z - o.z), rfl, rfl, by rw [div_mul_cancel₀ _ h1]; ring⟩
  · intro h
    unfold centerProjection
    rw [if_pos h]

omit [IsStrictOrderedRing K] in
theorem hullOrFirst_ok (sort : Hull2d.StdSort (Vec2 K)) (poly : List (Vec2 K)) :
    (poly = [] ∧ hullOrFirst sort poly = .ub) ∨ (poly ≠ [] ∧ ∃ h, hullOrFirst sort poly = .ok h ∧ h ≠ []) := by
  unfold hullOrFirst
  match poly with
  | [] => exact Or.inl ⟨rfl, rfl⟩
  | p :: rest =>
    right
    refine ⟨by simp, ?_⟩
    split
    · exact ⟨_, rfl, by simp⟩
    · rename_i h hne
      exact ⟨_, rfl, fun e => hne e⟩

/-- C90: the outcomes of the test of two lists of directions. -/
theorem C90_test_outcomes (env : Env K) (hbig : 0 < env.big) (o : Vec3 K) (pts1 pts2 : List (Vec3 K)) :
    (centralTest env o pts1 pts2 = .ub ↔ pts1 = [] ∨ pts2 = []) ∧ centralTest env o pts1 pts2 ≠ .throws := by
  have hn : ∀ pts : List (Vec3 K), projectAll env.sqrt o pts = [] ↔ pts = [] := by intro pts; simp [projectAll]
  unfold centralTest
  rcases hullOrFirst_ok env.sort (projectAll env.sqrt o pts1) with ⟨h1, e1⟩ | ⟨h1, l1, e1, n1⟩
  · rw [e1, (hn _).1 h1]; simp
  rcases hullOrFirst_ok env.sort (projectAll env.sqrt o pts2) with ⟨h2, e2⟩ | ⟨h2, l2, e2, n2⟩
  · rw [e1, Res.ok_bind, e2, (hn _).1 h2]; simp
  rw [e1, Res.ok_bind, e2, Res.ok_bind]
  rw [Ne, hn] at h1 h2
  obtain ⟨t1, t2⟩ := Sep.C51_sat2d_throws env.big hbig env.ins l1 l2
  refine ⟨⟨fun h => absurd h t2, fun h => ?_⟩, fun h => ?_⟩
  · rcases h with h | h
    · exact absurd h h1
    · exact absurd h h2
  · rcases t1.1 h with h | h
    · exact absurd h n1
    · exact absurd h n2

/-- The unit vectors of the points, as `unit()` computes them. -/
def units (sqrt : K → K) (pts : List (Vec3 K)) : List (Vec3 K) := pts.map (unitize3 sqrt)

/-- The directions are in general position for a projection from `o`: all below it, not all on one line in the projection, and coarse enough for
the tolerance of the hull. -/
structure General (o : Vec3 K) (l : List (Vec3 K)) : Prop where
  below : ∀ q ∈ l, q.z < o.z
  spread : ¬ AllCollinear (l.map (centerProjection o))
  coarse : Resolved Hull2d.eps (l.map (centerProjection o))

theorem hullOrFirst_general {env : Env K} {o : Vec3 K} {pts : List (Vec3 K)} (h : General o (units env.sqrt pts)) :
    ∃ H, hullOrFirst env.sort (projectAll env.sqrt o pts) = .ok H ∧ 3 ≤ H.length ∧ Sep.NoRepeat H ∧
      ∀ p, InHull (units env.sqrt pts) p → InHull2 H (centerProjection o p) := by
  have e : projectAll env.sqrt o pts = (units env.sqrt pts).map (centerProjection o) := by
    simp [projectAll, units, List.map_map, Function.comp_def]
  have hc := h.coarse
  rw [Hull2d.eps_eq] at hc
  obtain ⟨c1, c2, c3, -⟩ := Hull2d.C50_hull_partial env.sort _ hc h.spread
  refine ⟨Hull2d.convexHull2d env.sort ((units env.sqrt pts).map (centerProjection o)), ?_, c3, edge_ne_of_nodup (ccw_nodup c1 c3) (by omega),
    fun p hp => hull2_mono c2 (projection_hull h.below hp)⟩
  rw [e]
  unfold hullOrFirst
  split
  · rename_i e'
    rw [e'] at c3
    simp at c3
  · rfl

/-- C90 (partial: for directions in general position, see C90_collinear_counterexample): if the test of two lists of directions from a centre
above them returns true, the convex hulls of the unit vectors have no common point. -/
theorem C90_test_sound_partial (env : Env K) (hbig : 0 < env.big) (o : Vec3 K) (pts1 pts2 : List (Vec3 K))
    (h1 : General o (units env.sqrt pts1)) (h2 : General o (units env.sqrt pts2)) (h : centralTest env o pts1 pts2 = .ok true) :
    ∀ p, ¬ (InHull (units env.sqrt pts1) p ∧ InHull (units env.sqrt pts2) p) := by
  obtain ⟨H1, e1, a1, b1, c1⟩ := hullOrFirst_general h1
  obtain ⟨H2, e2, a2, b2, c2⟩ := hullOrFirst_general h2
  unfold centralTest at h
  rw [e1, Res.ok_bind, e2, Res.ok_bind] at h
  have hd := Sep.C51_sat2d_sound_partial env.big hbig env.ins H1 H2 (Or.inl (by rw [Sep.tested, if_neg (by omega)]; exact b1)) h
  exact fun p hp => hd _ ⟨c1 p hp.1, c2 p hp.2⟩

theorem surfacePoints_ok {s : Surface K} (S : ValidSurface s) :
    ∃ l, Csx.surfacePoints s = .ok l ∧ ∀ p, p ∈ l ↔ ∃ r ∈ s.cpts, ∃ q ∈ r, p = q.toVec3 := by
  have e : s.flat = .ok ((List.range s.su).flatMap fun i => (List.range s.sv).map fun j => cell s.cpts i j) := by
    unfold Surface.flat
    rw [if_neg (by rw [S.covered]; simp)]
  refine ⟨_, by unfold Csx.surfacePoints; rw [e, Res.ok_bind], fun p => ?_⟩
  simp only [List.mem_map, List.mem_flatMap, List.mem_range]
  constructor
  · rintro ⟨q, ⟨i, hi, j, hj, rfl⟩, rfl⟩
    have h1 : i < s.cpts.length := by rw [S.rows]; exact hi
    have h2 : j < s.cpts[i].length := by rw [S.cols _ (List.getElem_mem h1)]; exact hj
    refine ⟨_, List.getElem_mem h1, _, List.getElem_mem h2, ?_⟩
    rw [cell_eq h1, ix_eq_getElem h2]
  · rintro ⟨r, hr, q, hq, rfl⟩
    obtain ⟨i, hi, rfl⟩ := List.getElem_of_mem hr
    obtain ⟨j, hj, rfl⟩ := List.getElem_of_mem hq
    refine ⟨_, ⟨i, by rw [← S.rows]; exact hi, j, by rw [← S.cols _ hr]; exact hj, rfl⟩, ?_⟩
    rw [cell_eq hi, ix_eq_getElem hj]

/-- Every point of a surface with positive weights is in the convex hull of its control points. -/
theorem evaluate_hull {s : Surface K} (S : ValidSurface s) (hw : SurfPositive s) {l : List (Vec3 K)} (hl : Csx.surfacePoints s = .ok l) {u v : K}
    (hd : SurfInDomain s u v) : ∃ p, s.evaluate u v = .ok p ∧ InHull l p := by
  obtain ⟨i, j, r, -, -, he, hc⟩ := C31_convex_combination s S hw u v hd
  obtain ⟨l', e, hm⟩ := surfacePoints_ok S
  rw [hl] at e
  obtain rfl := Res.ok.inj e
  refine ⟨r, he, hull_mono (fun q hq => hull_mem ?_) (ConvexCombination.inHull hc)⟩
  obtain ⟨row, hrow, hq⟩ := List.mem_flatMap.1 hq
  obtain ⟨q', hq', rfl⟩ := List.mem_map.1 hq
  exact (hm _).2 ⟨row, List.mem_of_mem_drop (List.mem_of_mem_take hrow), q', List.mem_of_mem_drop (List.mem_of_mem_take hq'), rfl⟩

omit [IsStrictOrderedRing K] in
theorem andTest_true {a b : Res Bool} (h : andTest a b = .ok true) : a = .ok true ∧ b = .ok true := by
  unfold andTest at h
  obtain ⟨x, h1, h⟩ := Csx.ok_of_bind h
  cases x with
  | true => exact ⟨h1, h⟩
  | false => cases h

/-- C90 (partial: for directions in general position and up to the sign): if the Gauss maps are reported separable, the convex hull of the unit
vectors of the control points of one has no point, and no opposite of a point, in common with that of the other. -/
theorem C90_separable_partial (env : Env K) (hbig : 0 < env.big) (g1 g2 : Surface K) (l1 l2 : List (Vec3 K))
    (e1 : Csx.surfacePoints g1 = .ok l1) (e2 : Csx.surfacePoints g2 = .ok l2) (h1 : General ⟨0, 0, 1⟩ (units env.sqrt l1))
    (h2 : General ⟨0, 0, 1⟩ (units env.sqrt l2)) (h3 : General ⟨0, 0, 1⟩ (units env.sqrt (l2.map fun p => ⟨-p.x, -p.y, -p.z⟩)))
    (h : gaussMapSeparability env g1 g2 = .ok true) :
    ∀ p, InHull (units env.sqrt l1) p → ¬ InHull (units env.sqrt l2) p ∧ ¬ InHull (units env.sqrt (l2.map fun p => ⟨-p.x, -p.y, -p.z⟩)) p := by
  unfold gaussMapSeparability at h
  rw [e1, Res.ok_bind, e2, Res.ok_bind] at h
  unfold separable at h
  obtain ⟨t1, h⟩ := andTest_true h
  obtain ⟨t2, -⟩ := andTest_true h
  exact fun p hp => ⟨fun h => C90_test_sound_partial env hbig _ l1 l2 h1 h2 t1 p ⟨hp, h⟩,
    fun h => C90_test_sound_partial env hbig _ l1 _ h1 h3 t2 p ⟨hp, h⟩⟩

omit [IsStrictOrderedRing K] in
theorem hull_neg {l : List (Vec3 K)} {p : Vec3 K} (h : InHull l p) : InHull (l.map fun p => ⟨-p.x, -p.y, -p.z⟩) ⟨-p.x, -p.y, -p.z⟩ := by
  obtain ⟨w, hl, hw, hs, hx, hy, hz⟩ := h
  have key : ∀ (f : Vec3 K → K) (g : Vec3 K → Vec3 K) (w : List K) (l : List (Vec3 K)), (∀ q, f (g q) = -f q) →
      (List.zipWith (fun a v => a * f v) w (l.map g)).sum = -(List.zipWith (fun a v => a * f v) w l).sum := by
    intro f g w
    induction w with
    | nil => intro l _; simp
    | cons a w ih =>
      intro l hg
      cases l with
      | nil => simp
      | cons q l =>
        simp only [List.map_cons, List.zipWith_cons_cons, List.sum_cons, ih l hg, hg]
        ring
  refine ⟨w, by simpa using hl, hw, hs, ?_, ?_, ?_⟩
  · rw [key (fun v => v.x) _ w l (fun _ => rfl), hx]
  · rw [key (fun v => v.y) _ w l (fun _ => rfl), hy]
  · rw [key (fun v => v.z) _ w l (fun _ => rfl), hz]

/-- **C90** (partial: for Gauss maps given by unit control vectors in general position; a value of one may still be a multiple of a value of the
other, see C90_cone_counterexample): if the Gauss maps are reported separable, no value of one equals a value of the other or its opposite. -/
theorem C90_values_partial (env : Env K) (hbig : 0 < env.big) (hs : env.sqrt 1 = 1) (g1 g2 : Surface K) (S1 : ValidSurface g1)
    (S2 : ValidSurface g2) (w1 : SurfPositive g1) (w2 : SurfPositive g2) (l1 l2 : List (Vec3 K)) (e1 : Csx.surfacePoints g1 = .ok l1)
    (e2 : Csx.surfacePoints g2 = .ok l2) (n1 : ∀ p ∈ l1, p.sqLength = 1) (n2 : ∀ p ∈ l2, p.sqLength = 1) (h1 : General ⟨0, 0, 1⟩ l1)
    (h2 : General ⟨0, 0, 1⟩ l2) (h3 : General ⟨0, 0, 1⟩ (l2.map fun p => ⟨-p.x, -p.y, -p.z⟩)) (h : gaussMapSeparability env g1 g2 = .ok true) :
    ∀ u v s t, SurfInDomain g1 u v → SurfInDomain g2 s t → ∃ a b, g1.evaluate u v = .ok a ∧ g2.evaluate s t = .ok b ∧
      a ≠ b ∧ a ≠ ⟨-b.x, -b.y, -b.z⟩ := by
  have un : ∀ l : List (Vec3 K), (∀ p ∈ l, p.sqLength = 1) → units env.sqrt l = l := by
    intro l hl
    unfold units
    conv_rhs => rw [← List.map_id l]
    refine List.map_congr_left fun p hp => ?_
    unfold unitize3
    simp only [hl p hp, hs, sub_self, id]
    rw [if_pos (Or.inr (machEps_pos (K := K)).le)]
  have n3 : ∀ p ∈ l2.map (fun p : Vec3 K => (⟨-p.x, -p.y, -p.z⟩ : Vec3 K)), p.sqLength = 1 := by
    intro p hp
    obtain ⟨q, hq, rfl⟩ := List.mem_map.1 hp
    rw [← n2 q hq]
    simp only [Vec3.sqLength]; ring
  have key := C90_separable_partial env hbig g1 g2 l1 l2 e1 e2 (by rw [un l1 n1]; exact h1) (by rw [un l2 n2]; exact h2)
    (by rw [un _ n3]; exact h3) h
  rw [un l1 n1, un l2 n2, un _ n3] at key
  intro u v s t d1 d2
  obtain ⟨a, a1, a2⟩ := evaluate_hull S1 w1 e1 d1
  obtain ⟨b, b1, b2⟩ := evaluate_hull S2 w2 e2 d2
  refine ⟨a, b, a1, b1, fun e => (key a a2).1 (e ▸ b2), fun e => (key a a2).2 ?_⟩
  rw [e]
  exact hull_neg b2

/-- C90: for two flat patches (all control vectors equal) the test compares the projections of the normals and their opposites. -/
theorem C90_flat (env : Env K) (g1 g2 : Surface K) (a b : Vec3 K) (n m : Nat) (hn : 3 ≤ n) (hm : 3 ≤ m)
    (e1 : Csx.surfacePoints g1 = .ok (List.replicate n a)) (e2 : Csx.surfacePoints g2 = .ok (List.replicate m b)) :
    gaussMapSeparability env g1 g2 =
      let f := fun p : Vec3 K => centerProjection ⟨0, 0, 1⟩ (unitize3 env.sqrt p)
      let neg := fun p : Vec3 K => (⟨-p.x, -p.y, -p.z⟩ : Vec3 K)
      .ok (!Sep.tolEq (f b) (f a) && !Sep.tolEq (f (neg b)) (f a) && !Sep.tolEq (f (neg b)) (f (neg a)) && !Sep.tolEq (f b) (f (neg a))) := by
  have hull : ∀ (k : Nat) (p : Vec3 K), 3 ≤ k → hullOrFirst env.sort (projectAll env.sqrt ⟨0, 0, 1⟩ (List.replicate k p)) =
      .ok [centerProjection ⟨0, 0, 1⟩ (unitize3 env.sqrt p)] := by
    intro k p hk
    unfold projectAll
    rw [List.map_replicate]
    generalize centerProjection ⟨0, 0, 1⟩ (unitize3 env.sqrt p) = x
    have hc : AllCollinear (List.replicate k x) := by
      intro u hu v hv w hw
      rw [List.eq_of_mem_replicate hu, List.eq_of_mem_replicate hv, List.eq_of_mem_replicate hw]
      unfold turn; ring
    have hr : Resolved Hull2d.eps (List.replicate k x) :=
      ⟨fun u hu v hv w hw => Or.inl (hc u hu v hv w hw), fun u hu v hv => Or.inl (by
        rw [List.eq_of_mem_replicate hu, List.eq_of_mem_replicate hv])⟩
    rw [Hull2d.eps_eq] at hr
    have e := ((Hull2d.C50_degenerate env.sort (List.replicate k x)).2 (by simpa using hk) hr).2 hc
    unfold hullOrFirst
    rw [e]
    obtain ⟨k, rfl⟩ : ∃ k', k = k' + 1 := ⟨k - 1, by omega⟩
    rw [List.replicate_succ]
    dsimp only
    rw [← List.replicate_succ, List.getD_eq_getElem?_getD, List.getElem?_replicate]
    split <;> rfl
  have inv : ∀ (k : Nat) (p : Vec3 K), inverted (List.replicate k p) = List.replicate k ⟨-p.x, -p.y, -p.z⟩ := by
    intro k p; simp [inverted]
  have test : ∀ (k l : Nat) (p q : Vec3 K), 3 ≤ k → 3 ≤ l → sphericalTest env (List.replicate k p) (List.replicate l q) =
      .ok (!Sep.tolEq (centerProjection ⟨0, 0, 1⟩ (unitize3 env.sqrt q)) (centerProjection ⟨0, 0, 1⟩ (unitize3 env.sqrt p))) := by
    intro k l p q hk hl
    unfold sphericalTest centralTest
    rw [hull k p hk, Res.ok_bind, hull l q hl, Res.ok_bind]
    rfl
  unfold gaussMapSeparability
  rw [e1, Res.ok_bind, e2, Res.ok_bind, inv, inv]
  unfold separable
  rw [test n m _ _ hn hm, test n m _ _ hn hm, test n m _ _ hn hm, test n m _ _ hn hm]
  unfold andTest
  simp only [Res.ok_bind]
  generalize Sep.tolEq (K := K) _ _ = b1
  generalize Sep.tolEq (K := K) _ _ = b2
  generalize Sep.tolEq (K := K) _ _ = b3
  generalize Sep.tolEq (K := K) _ _ = b4
  cases b1 <;> cases b2 <;> cases b3 <;> cases b4 <;> rfl

/-- C90: the member functions of `GaussMap` agree with the free functions. -/
theorem C90_class (env : Env K) (s1 s2 : Surface K) (m1 m2 : Map K) (h1 : Map.build s1 = .ok m1) (h2 : Map.build s2 = .ok m2) :
    m1.separabilityTest env m2 = gaussMapSeparability env m1.surf m2.surf := by
  obtain ⟨-, a1, -⟩ := C89_class s1 m1 h1
  obtain ⟨-, a2, -⟩ := C89_class s2 m2 h2
  have i1 : m1.ptsInv = inverted m1.pts := by
    unfold Map.build at h1
    obtain ⟨g, _, h⟩ := Csx.ok_of_bind h1
    obtain ⟨pts, _, h⟩ := Csx.ok_of_bind h
    rw [← Res.ok.inj h]
  have i2 : m2.ptsInv = inverted m2.pts := by
    unfold Map.build at h2
    obtain ⟨g, _, h⟩ := Csx.ok_of_bind h2
    obtain ⟨pts, _, h⟩ := Csx.ok_of_bind h
    rw [← Res.ok.inj h]
  unfold Map.separabilityTest gaussMapSeparability separable
  rw [a1, Res.ok_bind, a2, Res.ok_bind, i1, i2]
  cases h : sphericalTest env m1.pts m2.pts <;> rfl

/-- A bilinear patch. -/
def bilinear (a b c d : Vec4 ℚ) : Surface ℚ := ⟨[[a, b], [c, d]], 1, 1, 2, 2, [0, 0, 1, 1], [0, 0, 1, 1], 0, 1, 0, 1⟩

/-- A square root that is right on the vectors of the examples below, all of length one, and the other parameters. -/
def demoEnv : Env ℚ := ⟨fun x => x, Sep.big308, fun _ _ => true, Hull2d.insertionSort _, id, fun _ _ _ => .ub⟩

/-- C90: short normals are not normalised: two overlapping rectangles in one plane are reported to have separable Gauss maps. -/
theorem C90_scaled_counterexample (env : Env ℚ) (hs : ∀ x, 0 ≤ x → env.sqrt (x * x) = x) :
    ∃ s1 s2 g1 g2 p, s1.evaluate (1 / 4) (1 / 2) = .ok p ∧ s2.evaluate (1 / 2) (1 / 2) = .ok p ∧
      gaussMap s1 = .ok g1 ∧ gaussMap s2 = .ok g2 ∧ gaussMapSeparability env g1 g2 = .ok true ∧
      ∀ u v s t, 0 ≤ u ∧ u ≤ 1 → 0 ≤ v ∧ v ≤ 1 → 0 ≤ s ∧ s ≤ 1 → 0 ≤ t ∧ t ≤ 1 →
        ∃ a b, g1.evaluate u v = .ok a ∧ g2.evaluate s t = .ok b ∧ Parallel a b := by
  have n1 : env.sqrt (1 / 4) = 1 / 2 := by rw [← hs (1 / 2) (by norm_num)]; norm_num
  have n2 : env.sqrt (1 / 16) = 1 / 4 := by rw [← hs (1 / 4) (by norm_num)]; norm_num
  have const : ∀ (x u v : ℚ), 0 ≤ u ∧ u ≤ 1 → 0 ≤ v ∧ v ≤ 1 →
      (bilinear ⟨x,0,0,1⟩ ⟨x,0,0,1⟩ ⟨x,0,0,1⟩ ⟨x,0,0,1⟩).evaluate u v = .ok ⟨x, 0, 0⟩ := by
    intro x u v hu hv
    have B : Mono.BezierPatch (bilinear ⟨x,0,0,1⟩ ⟨x,0,0,1⟩ ⟨x,0,0,1⟩ ⟨x,0,0,1⟩) 1 := by
      refine ⟨by simp [bilinear], by simp [bilinear], rfl, by simp [bilinear], ⟨rfl, rfl⟩, rfl, rfl, one_ne_zero, by simp [bilinear]⟩
    rw [patch_eval B hu hv]
    congr 1
    simp only [bezier, bezierValue, bernstein, bilinear, cell, ix, Finset.sum_range_succ, Finset.sum_range_zero, Vec4.toVec3]
    simp
    ring
  refine ⟨bilinear ⟨0,0,0,1⟩ ⟨0,1,0,1⟩ ⟨0,0,1/2,1⟩ ⟨0,1,1/2,1⟩, bilinear ⟨0,0,0,1⟩ ⟨0,1,0,1⟩ ⟨0,0,1/4,1⟩ ⟨0,1,1/4,1⟩,
    bilinear ⟨-1/2,0,0,1⟩ ⟨-1/2,0,0,1⟩ ⟨-1/2,0,0,1⟩ ⟨-1/2,0,0,1⟩, bilinear ⟨-1/4,0,0,1⟩ ⟨-1/4,0,0,1⟩ ⟨-1/4,0,0,1⟩ ⟨-1/4,0,0,1⟩, ⟨0, 1/2, 1/8⟩,
    by decide +kernel, by decide +kernel, by decide +kernel, by decide +kernel, ?_, ?_⟩
  · rw [C90_flat env _ _ ⟨-1/2, 0, 0⟩ ⟨-1/4, 0, 0⟩ 4 4 (by omega) (by omega) (by decide +kernel) (by decide +kernel)]
    have u1 : ∀ x : Vec3 ℚ, x.sqLength = 1 / 4 → unitize3 env.sqrt x = x := by
      intro x hx
      simp only [unitize3, hx, n1]
      rw [if_pos (Or.inr (by have := machEps_pos (K := ℚ); linarith))]
    have u2 : ∀ x : Vec3 ℚ, x.sqLength = 1 / 16 → unitize3 env.sqrt x = x := by
      intro x hx
      simp only [unitize3, hx, n2]
      rw [if_pos (Or.inr (by have := machEps_pos (K := ℚ); linarith))]
    dsimp only
    rw [u1 ⟨-1/2, 0, 0⟩ (by decide +kernel), u2 ⟨-1/4, 0, 0⟩ (by decide +kernel), u1 ⟨-(-1/2), -0, -0⟩ (by decide +kernel),
      u2 ⟨-(-1/4), -0, -0⟩ (by decide +kernel)]
    decide +kernel
  · intro u v s t hu hv hs ht
    exact ⟨_, _, const _ u v hu hv, const _ s t hs ht, by decide +kernel, by decide +kernel, 2, by decide +kernel⟩

/-- C90: the values of a Gauss map are in the cone of the control vectors, not in the hull of the unit vectors: with unit control vectors in
general position the test returns true although a value of one is a multiple of a value of the other. -/
theorem C90_cone_counterexample :
    ∃ g1 g2 : Surface ℚ, SurfUnit g1 ∧ SurfUnit g2 ∧ (∃ l1 l2, Csx.surfacePoints g1 = .ok l1 ∧ Csx.surfacePoints g2 = .ok l2 ∧
      (∀ p ∈ l1, p.sqLength = 1) ∧ (∀ p ∈ l2, p.sqLength = 1)) ∧ gaussMapSeparability demoEnv g1 g2 = .ok true ∧
      ∃ a b, g1.evaluate 0 0 = .ok a ∧ g2.evaluate 0 (5 / 11) = .ok b ∧ Parallel a b := by
  refine ⟨bilinear ⟨3/5,4/5,0,1⟩ ⟨4/5,3/5,0,1⟩ ⟨0,1,0,1⟩ ⟨0,1,0,1⟩, bilinear ⟨1,0,0,1⟩ ⟨-3/5,4/5,0,1⟩ ⟨2/3,-2/3,-1/3,1⟩ ⟨2/3,-2/3,-1/3,1⟩,
    by unfold SurfUnit; decide +kernel, by unfold SurfUnit; decide +kernel, ⟨[⟨3/5,4/5,0⟩, ⟨4/5,3/5,0⟩, ⟨0,1,0⟩, ⟨0,1,0⟩],
      [⟨1,0,0⟩, ⟨-3/5,4/5,0⟩, ⟨2/3,-2/3,-1/3⟩, ⟨2/3,-2/3,-1/3⟩], ?_, ?_, ?_, ?_⟩, ?_, ⟨3/5, 4/5, 0⟩, ⟨3/11, 4/11, 0⟩, ?_, ?_, ?_, ?_, 11/5, ?_⟩ <;>
    decide +kernel

/-- The lists of C90_cone_counterexample are in general position. -/
example : General ⟨0, 0, 1⟩ [(⟨3/5,4/5,0⟩ : Vec3 ℚ), ⟨4/5,3/5,0⟩, ⟨0,1,0⟩, ⟨0,1,0⟩] ∧
    General ⟨0, 0, 1⟩ [(⟨1,0,0⟩ : Vec3 ℚ), ⟨-3/5,4/5,0⟩, ⟨2/3,-2/3,-1/3⟩, ⟨2/3,-2/3,-1/3⟩] ∧
    General ⟨0, 0, 1⟩ ([(⟨1,0,0⟩ : Vec3 ℚ), ⟨-3/5,4/5,0⟩, ⟨2/3,-2/3,-1/3⟩, ⟨2/3,-2/3,-1/3⟩].map fun p => ⟨-p.x, -p.y, -p.z⟩) := by
  refine ⟨⟨?_, ?_, ?_, ?_⟩, ⟨?_, ?_, ?_, ?_⟩, ⟨?_, ?_, ?_, ?_⟩⟩ <;> (try unfold AllCollinear turn) <;> decide +kernel

/-- C90: the hull of projections on one line is empty and replaced by a single point: with unit control vectors the test returns true although
both Gauss maps take the same value. -/
theorem C90_collinear_counterexample :
    ∃ g1 g2 : Surface ℚ, SurfUnit g1 ∧ SurfUnit g2 ∧ (∃ l1 l2, Csx.surfacePoints g1 = .ok l1 ∧ Csx.surfacePoints g2 = .ok l2 ∧
      (∀ p ∈ l1, p.sqLength = 1) ∧ (∀ p ∈ l2, p.sqLength = 1)) ∧ gaussMapSeparability demoEnv g1 g2 = .ok true ∧
      g1.evaluate 0 1 = .ok ⟨0, 0, -1⟩ ∧ g2.evaluate 0 1 = .ok ⟨0, 0, -1⟩ := by
  refine ⟨bilinear ⟨3/5,0,-4/5,1⟩ ⟨0,0,-1,1⟩ ⟨-3/5,0,-4/5,1⟩ ⟨-3/5,0,-4/5,1⟩, bilinear ⟨0,3/5,-4/5,1⟩ ⟨0,0,-1,1⟩ ⟨0,-3/5,-4/5,1⟩ ⟨0,-3/5,-4/5,1⟩,
    by unfold SurfUnit; decide +kernel, by unfold SurfUnit; decide +kernel, ⟨[⟨3/5,0,-4/5⟩, ⟨0,0,-1⟩, ⟨-3/5,0,-4/5⟩, ⟨-3/5,0,-4/5⟩],
      [⟨0,3/5,-4/5⟩, ⟨0,0,-1⟩, ⟨0,-3/5,-4/5⟩, ⟨0,-3/5,-4/5⟩], ?_, ?_, ?_, ?_⟩, ?_, ?_, ?_⟩ <;>
    decide +kernel

end Cmm.Gauss
