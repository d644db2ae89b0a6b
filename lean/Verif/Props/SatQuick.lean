import Verif.Props.QuickHull
import Verif.Props.Detect
/-!
The separation test in space and the surface search with the three-dimensional hull of the code in place of a contract.
-/
namespace Cmm.Sep
open Cmm.Geom Cmm.Newton Cmm.Hull3d Cmm.Quick
variable {K : Type} [Field K] [LinearOrder K] [IsStrictOrderedRing K]

/-- The hull that `SAT3D` computes (separability.h 223-236): `convex_hull3d` into an empty vector. -/
def codeHull (sqrt : K → K) (pts : List (Vec3 K)) : List (Vec3 K) := convexHull3d (quickHull sqrt false) pts []

/-- Fewer than five points, or integer points of which no four are in a plane. -/
def Easy (pts : List (Vec3 K)) : Prop := pts.length < 5 ∨ (IntegerPoints 10000000 pts ∧ NoFourCoplanar pts)

theorem codeHull_keeps {sqrt : K → K} (hsq : IsSqrt sqrt) {pts : List (Vec3 K)} (h : Easy pts) : ∀ p ∈ pts, InHull (codeHull sqrt pts) p := by
  intro p hp
  rcases Nat.lt_or_ge pts.length 5 with hl | hl
  · rw [codeHull, C111_few _ _ _ hl, if_neg (List.ne_nil_of_mem hp)]
    exact Geom.hull_mem hp
  · rcases h with h | ⟨hi, hc⟩
    · omega
    · obtain ⟨hull, e, -, -, h4, -⟩ := C111_hull_partial hsq pts [] hl hi hc
      rw [codeHull, e, List.nil_append]
      exact h4 p hp

/-- **C51** (partial: for fewer than five points, or integer points of which no four are in a plane; see the counterexample): `SAT3D` with its own hull
routine is undefined exactly for empty input, does not throw, and returns true only if the convex hulls of the points are disjoint. -/
theorem C51_sat3d_quickhull_partial {sqrt : K → K} (hsq : IsSqrt sqrt) (hs0 : sqrt 0 = 0) (eps : K) (he : 0 ≤ eps) (pts1 pts2 : List (Vec3 K)) (h1 : Easy pts1) (h2 : Easy pts2) :
    (sat3d (codeHull sqrt) (fun v => sqrt v.sqLength) pts1 pts2 eps = .ub ↔ pts1 = [] ∨ pts2 = []) ∧
    sat3d (codeHull sqrt) (fun v => sqrt v.sqLength) pts1 pts2 eps ≠ .throws ∧
    (sat3d (codeHull sqrt) (fun v => sqrt v.sqLength) pts1 pts2 eps = .ok true → ∀ p, ¬ (InHull pts1 p ∧ InHull pts2 p)) := by
  have h0 : sqrt ((0 : Vec3 K).sqLength) = 0 := by
    have : (0 : Vec3 K).sqLength = 0 := by simp [Vec3.sqLength]
    rw [this, hs0]
  obtain ⟨e1, e2, e3⟩ := C51_sat3d_sound (codeHull sqrt) (fun v => sqrt v.sqLength) h0 eps he pts1 pts2 (codeHull_keeps hsq h1) (codeHull_keeps hsq h2)
  have ne : ∀ {pts : List (Vec3 K)}, Easy pts → (codeHull sqrt pts = [] ↔ pts = []) := by
    intro pts h
    constructor
    · intro e
      cases pts with
      | nil => rfl
      | cons a l =>
        have := codeHull_keeps hsq h a List.mem_cons_self
        rw [e] at this
        exact absurd rfl (hull_ne_nil this)
    · rintro rfl; rfl
  rw [ne h1, ne h2] at e1
  exact ⟨e1, e2, e3⟩

/-- Up to 200 points of a twisted cubic and the corners of a tetrahedron meet the hypotheses. -/
example : Easy (cubic 200 : List (Vec3 ℝ)) ∧ Easy ([⟨0, 0, 0⟩, ⟨1, 0, 0⟩, ⟨0, 1, 0⟩, ⟨0, 0, 1⟩] : List (Vec3 ℝ)) ∧ IsSqrt Real.sqrt ∧
    Real.sqrt 0 = 0 :=
  ⟨.inr ⟨cubic_integer, cubic_general 200⟩, .inl (by simp), real_isSqrt, Real.sqrt_zero⟩

/-- Five points of a plane. -/
def flatFive : List (Vec3 K) := [⟨0, 0, 0⟩, ⟨4, 4, 0⟩, ⟨4, 0, 0⟩, ⟨-1, 1, 0⟩, ⟨2, 1, 0⟩]

theorem flatFive_integer : IntegerPoints 10000000 (flatFive : List (Vec3 K)) := by
  intro p hp
  simp only [flatFive, List.mem_cons, List.not_mem_nil, or_false] at hp
  rcases hp with rfl | rfl | rfl | rfl | rfl
  · exact ⟨0, 0, 0, by simp, by norm_num, by norm_num, by norm_num⟩
  · exact ⟨4, 4, 0, by simp, by norm_num, by norm_num, by norm_num⟩
  · exact ⟨4, 0, 0, by simp, by norm_num, by norm_num, by norm_num⟩
  · exact ⟨-1, 1, 0, by simp, by norm_num, by norm_num, by norm_num⟩
  · exact ⟨2, 1, 0, by simp, by norm_num, by norm_num, by norm_num⟩

theorem flatFive_hull {sqrt : K → K} (hsq : IsSqrt sqrt) : codeHull sqrt (flatFive : List (Vec3 K)) = [⟨0, 0, 0⟩, ⟨4, 4, 0⟩, ⟨4, 0, 0⟩] := by
  obtain ⟨hnd, hlt, hh, -, -, -, h2, h3⟩ := C112_dimension hsq false (flatFive : List (Vec3 K)) flatFive_integer
  have hb3 : ((quickHull sqrt false).basis (flatFive : List (Vec3 K))).length ≤ 3 := h3.mpr ⟨⟨0, 0, 1⟩, 0, .inr (.inr one_ne_zero), by
    intro p hp
    simp only [flatFive, List.mem_cons, List.not_mem_nil, or_false] at hp
    rcases hp with rfl | rfl | rfl | rfl | rfl <;> simp [Vec3.dot]⟩
  have hb2 : ¬ ((quickHull sqrt false).basis (flatFive : List (Vec3 K))).length ≤ 2 := by
    rw [h2]
    rintro ⟨a, d, h⟩
    obtain ⟨t0, e0⟩ := h ⟨0, 0, 0⟩ (by simp [flatFive])
    obtain ⟨t1, e1⟩ := h ⟨4, 4, 0⟩ (by simp [flatFive])
    obtain ⟨t2, e2⟩ := h ⟨4, 0, 0⟩ (by simp [flatFive])
    have x0 : (0 : K) = a.x + d.x * t0 := congrArg Vec3.x e0
    have y0 : (0 : K) = a.y + d.y * t0 := congrArg Vec3.y e0
    have x1 : (4 : K) = a.x + d.x * t1 := congrArg Vec3.x e1
    have y1 : (4 : K) = a.y + d.y * t1 := congrArg Vec3.y e1
    have x2 : (4 : K) = a.x + d.x * t2 := congrArg Vec3.x e2
    have y2 : (0 : K) = a.y + d.y * t2 := congrArg Vec3.y e2
    have : (16 : K) = 0 := by
      linear_combination 4 * (y1 - y0) + d.y * (t1 - t0) * (x2 - x0) - d.x * (t1 - t0) * (y2 - y0)
    norm_num at this
  have hf := C112_furthest hsq false (flatFive : List (Vec3 K)) flatFive_integer
  have e : codeHull sqrt (flatFive : List (Vec3 K)) = ((quickHull sqrt false).basis (flatFive : List (Vec3 K))).map fun i => flatFive.getD i ⟨0, 0, 0⟩ := by
    rw [codeHull, convexHull3d, if_neg (by simp [flatFive]), if_neg (by simp [flatFive]), if_pos (by omega)]
  rw [e]
  have hh := hh (by simp [flatFive])
  generalize (quickHull sqrt false).basis (flatFive : List (Vec3 K)) = bs at *
  have hb : bs.length = 3 := by omega
  clear h2 h3 hb2 hb3
  match bs, hb, hh with
  | [i, j, k], _, hh =>
    simp only [List.head?_cons, Option.some.injEq] at hh
    subst hh
    have hj := hlt j (by simp)
    have hk := hlt k (by simp)
    have fj := (hf _ _ 0 0 _).1 rfl ⟨4, 4, 0⟩ (by simp [flatFive])
    have fk := (hf _ _ _ 0 _).2.1 rfl ⟨4, 0, 0⟩ (by simp [flatFive])
    simp only [flatFive, List.length_cons, List.length_nil] at hj hk
    have j1 : j = 1 := by
      match j, hj with
      | 0, _ => norm_num [flatFive, Vec3.sqLength] at fj
      | 1, _ => rfl
      | 2, _ => norm_num [flatFive, Vec3.sqLength] at fj
      | 3, _ => norm_num [flatFive, Vec3.sqLength] at fj
      | 4, _ => norm_num [flatFive, Vec3.sqLength] at fj
    subst j1
    have k2 : k = 2 := by
      match k, hk with
      | 0, _ => norm_num [flatFive, Vec3.sqLength, Vec3.cross] at fk
      | 1, _ => norm_num [flatFive, Vec3.sqLength, Vec3.cross] at fk
      | 2, _ => rfl
      | 3, _ => norm_num [flatFive, Vec3.sqLength, Vec3.cross] at fk
      | 4, _ => norm_num [flatFive, Vec3.sqLength, Vec3.cross] at fk
    subst k2
    simp [flatFive]

/-- C51 fails for `SAT3D` with points of a plane: the hull routine keeps three points only, so a corner of the first set is called separate from itself. -/
theorem C51_sat3d_plane_counterexample {sqrt : K → K} (hsq : IsSqrt sqrt) :
    ∃ pts1 pts2 : List (Vec3 K), sat3d (codeHull sqrt) (fun v => sqrt v.sqLength) pts1 pts2 (1 / 2 ^ 52) = .ok true ∧ ∃ p, p ∈ pts1 ∧ p ∈ pts2 := by
  refine ⟨flatFive, [⟨-1, 1, 0⟩], ?_, ⟨-1, 1, 0⟩, by simp [flatFive], by simp⟩
  have e2 : codeHull sqrt ([⟨-1, 1, 0⟩] : List (Vec3 K)) = [⟨-1, 1, 0⟩] := rfl
  unfold sat3d
  rw [flatFive_hull hsq, e2]
  have g : Gjk.gjk [⟨0, 0, 0⟩, ⟨4, 4, 0⟩, ⟨4, 0, 0⟩] [⟨-1, 1, 0⟩] [] (some (0 : Vec3 K)) (1 / 2 ^ 52) 25 = .ok ⟨false, [⟨1, -1, 0⟩], some ⟨1, -1, 0⟩, 1⟩ := by
    norm_num [Gjk.gjk, Gjk.gjkLoop, Gjk.support, Gjk.supportVector, Gjk.supportGo, Gjk.vertexAt, Vec3.dot, Vec3.sqLength, Gjk.closestPointOnSimplex]
    ext <;> simp
  rw [g, Res.ok_bind]
  have h : ((⟨1, -1, 0⟩ : Vec3 K).sqLength) = 2 := by norm_num [Vec3.sqLength]
  obtain ⟨s1, s2⟩ := hsq 2 two_pos
  have : (1 / 2 ^ 52 : K) < sqrt ((⟨1, -1, 0⟩ : Vec3 K).sqLength) := by
    rw [h]
    by_contra hc
    have hc := not_lt.mp hc
    have : (1 / 2 ^ 52 : K) ≤ 1 := by norm_num
    nlinarith
  exact congrArg Res.ok (decide_eq_true this)

end Cmm.Sep

namespace Cmm.Gauss
open Cmm.Geom Cmm.Nurbs Cmm.Hull3d
variable {K : Type} [Field K] [LinearOrder K] [IsStrictOrderedRing K]

theorem surfacePoints_four {s : Surface K} (S : PositivePatch s) (h1 : s.du = 1) (h2 : s.dv = 1) {l : List (Vec3 K)} (h : Csx.surfacePoints s = .ok l) : l.length = 4 := by
  have b1 := S.bezier.2.1
  have b2 := S.bezier.2.2.2
  unfold Csx.surfacePoints Surface.flat at h
  split at h
  · cases h
  · rw [Res.ok_bind] at h
    cases h
    rw [h1] at b1
    rw [h2] at b2
    simp [b1, b2]

/-- **C91** (partial, as `C91_complete_partial`): for clamped surfaces of degree one in both directions, no contract is needed for the hull routine, since
`convex_hull3d` returns the four control points of a patch as they are. -/
theorem C91_bilinear_partial [FloorRing K] (env : Env K) (qh : QuickHull K) (he : env.hull3 = fun pts => convexHull3d qh pts []) (tol : K) (ht : 0 ≤ tol) (h0 : env.sqrt 0 = 0)
    (s1 s2 : Surface K) (S1 : ClampedSurface s1) (S2 : ClampedSurface s2) (d1 : s1.du = 1 ∧ s1.dv = 1) (d2 : s2.du = 1 ∧ s2.dv = 1)
    (u v s t : K) (p : Vec3 K) (i1 : Inside s1 u v) (i2 : Inside s2 s t) (e1 : s1.evaluate u v = .ok p) (e2 : s2.evaluate s t = .ok p)
    (fuel : Nat) (acc r : Found K) (h : findStart env tol fuel s1 s2 acc = some (.ok r)) :
    ∃ a b, (Part s1 a ∧ PositivePatch a ∧ Inside a u v) ∧ (Part s2 b ∧ PositivePatch b ∧ Inside b s t) ∧
      ((∃ x ∈ r.points, Inside a x.uv1.1 x.uv1.2 ∧ Inside b x.uv2.1 x.uv2.2 ∧ Near tol p x.xyz) ∨
       (∃ b1 b2, a.bbox = .ok b1 ∧ b.bbox = .ok b2 ∧ ThinOverlap tol b1 b2) ∨
       (∃ l, Bnd.findBoundaryIntersections (env.csx tol) a b [] = .ok l ∧
         (2 ≤ l.length → ∃ x ∈ r.patches, l.head? = some x.1 ∧ l.getLast? = some x.2))) := by
  have keep : ∀ s : Surface K, s.du = 1 ∧ s.dv = 1 → HullKeeps env s := by
    intro s d x _ X e l hl q hq
    have h4 := surfacePoints_four X (e.1.trans d.1) (e.2.trans d.2) hl
    rw [he]
    dsimp only
    rw [Quick.C111_few _ _ _ (by omega), if_neg (List.ne_nil_of_mem hq)]
    exact Geom.hull_mem hq
  exact C91_start_complete_partial env tol ht h0 s1 s2 S1 S2 (keep s1 d1) (keep s2 d2) u v s t p i1 i2 e1 e2 fuel acc r h

/-- A clamped surface of degree one with 3 × 2 control points, and the hull routine of the code. -/
example : ClampedSurface (⟨[[⟨0,0,0,1⟩, ⟨0,1,0,1⟩], [⟨1,0,0,1⟩, ⟨1,1,1,2⟩], [⟨2,0,0,1⟩, ⟨2,1,0,1⟩]], 1, 1, 3, 2, [0, 0, 1/2, 1, 1], [0, 0, 1, 1], 0, 1, 0, 1⟩ : Surface ℚ) := by
  refine ⟨⟨rfl, by decide, ?_, ?_⟩, rfl, by unfold SurfPositive; decide +kernel, ⟨0, [1/2], 1, ?_⟩, ⟨0, [], 1, ?_⟩⟩
  · refine ⟨by decide, by decide, by decide, by decide, by unfold SortedKnots; decide +kernel, by decide +kernel⟩
  · refine ⟨by decide, by decide, by decide, by decide, by unfold SortedKnots; decide +kernel, by decide +kernel⟩
  · refine ⟨by unfold SortedKnots; decide +kernel, ?_, by decide +kernel, by decide +kernel, by decide +kernel, by decide +kernel⟩
    intro x
    simp only [List.mem_cons, List.cons_append, List.nil_append, List.not_mem_nil, or_false]
    tauto
  · refine ⟨by unfold SortedKnots; decide +kernel, ?_, by decide +kernel, by decide +kernel, by decide +kernel, by decide +kernel⟩
    intro x
    simp only [List.mem_cons, List.nil_append, List.not_mem_nil, or_false]
    tauto

end Cmm.Gauss
