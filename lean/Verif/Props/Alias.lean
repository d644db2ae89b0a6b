import Verif.Model.Alias
import Verif.Spec.Curve
import Verif.Lemmas.CurveOps
import Mathlib.Tactic.Ring
import Mathlib.Tactic.Linarith
import Mathlib.Tactic.NormNum
/-! C128: the object that receives a result may be one of the arguments. -/
namespace Cmm.Alias
variable {K : Type} [Field K] [LinearOrder K]

section frame
omit [Field K] [LinearOrder K]
theorem setX_same (m : Mem K) (r : Nat) (v : K) : setX m r v r = ⟨v, (m r).y, (m r).z⟩ := by simp [setX]
theorem setY_same (m : Mem K) (r : Nat) (v : K) : setY m r v r = ⟨(m r).x, v, (m r).z⟩ := by simp [setY]
theorem setZ_same (m : Mem K) (r : Nat) (v : K) : setZ m r v r = ⟨(m r).x, (m r).y, v⟩ := by simp [setZ]
theorem setX_ne (m : Mem K) {r x : Nat} (v : K) (h : x ≠ r) : setX m r v x = m x := by simp [setX, h]
theorem setY_ne (m : Mem K) {r x : Nat} (v : K) (h : x ≠ r) : setY m r v x = m x := by simp [setY, h]
theorem setZ_ne (m : Mem K) {r x : Nat} (v : K) (h : x ≠ r) : setZ m r v x = m x := by simp [setZ, h]
theorem setX_y (m : Mem K) (r x : Nat) (v : K) : (setX m r v x).y = (m x).y := by
  by_cases h : x = r
  · subst h; rw [setX_same]
  · rw [setX_ne m v h]
theorem setX_z (m : Mem K) (r x : Nat) (v : K) : (setX m r v x).z = (m x).z := by
  by_cases h : x = r
  · subst h; rw [setX_same]
  · rw [setX_ne m v h]
theorem setY_z (m : Mem K) (r x : Nat) (v : K) : (setY m r v x).z = (m x).z := by
  by_cases h : x = r
  · subst h; rw [setY_same]
  · rw [setY_ne m v h]
theorem assign_same (m : Mem K) (r : Nat) (v : Vec3 K) : assign m r v r = v := by simp [assign]
theorem assign_ne (m : Mem K) {r x : Nat} (v : Vec3 K) (h : x ≠ r) : assign m r v x = m x := by simp [assign, h]
end frame

/-- C128: `cross`, `sub` and `add` change no object but the output. -/
theorem C128_others_kept_partial (a b r x : Nat) (m : Mem K) (h : x ≠ r) : cross a b r m x = m x ∧ sub a b r m x = m x ∧ add a b r m x = m x := by
  simp only [cross, sub, add, setX_ne _ _ h, setY_ne _ _ h, setZ_ne _ _ h, and_self]

/-- C128 (part): `a.cross(b, result)` writes the cross product if the output is neither of the two factors. The factors may be the same object. -/
theorem C128_cross_partial (a b r : Nat) (m : Mem K) (ha : a ≠ r) (hb : b ≠ r) : cross a b r m r = (m a).cross (m b) := by
  simp only [cross, setX_same, setY_same, setZ_same, setX_ne _ _ ha, setY_ne _ _ ha, setX_ne _ _ hb, setY_ne _ _ hb]
  rfl

/-- C128 fails for `a.cross(b, a)`: the second and the third coordinate are computed from the new first one. -/
theorem C128_cross_first (a b : Nat) (m : Mem K) (h : a ≠ b) : cross a b a m a =
    ⟨(m a).y * (m b).z - (m a).z * (m b).y, (m a).z * (m b).x - ((m a).cross (m b)).x * (m b).z,
      ((m a).cross (m b)).x * (m b).y - ((m a).z * (m b).x - ((m a).cross (m b)).x * (m b).z) * (m b).x⟩ := by
  have hb : b ≠ a := fun e => h e.symm
  simp only [cross, setX_same, setY_same, setZ_same, setX_ne _ _ hb, setY_ne _ _ hb, Vec3.cross]

/-- C128 fails for `a.cross(b, b)`, likewise. -/
theorem C128_cross_second (a b : Nat) (m : Mem K) (h : a ≠ b) : cross a b b m b =
    ⟨(m a).y * (m b).z - (m a).z * (m b).y, (m a).z * ((m a).cross (m b)).x - (m a).x * (m b).z,
      (m a).x * ((m a).z * ((m a).cross (m b)).x - (m a).x * (m b).z) - (m a).y * ((m a).cross (m b)).x⟩ := by
  simp only [cross, setX_same, setY_same, setZ_same, setX_ne _ _ h, setY_ne _ _ h, Vec3.cross]

/-- C128 fails: `a.cross(b, a)` for the vectors (0, 1, 0) and (0, 0, 1) leaves (1, -1, 0), and `a.cross(b, b)` leaves (1, 0, -1); the cross product
is (1, 0, 0). -/
theorem C128_cross_counterexample : let m : Mem ℚ := fun i => if i = 0 then ⟨0, 1, 0⟩ else ⟨0, 0, 1⟩
    (m 0).cross (m 1) = ⟨1, 0, 0⟩ ∧ cross 0 1 2 m 2 = ⟨1, 0, 0⟩ ∧ cross 0 1 0 m 0 = ⟨1, -1, 0⟩ ∧ cross 0 1 1 m 1 = ⟨1, 0, -1⟩ := by
  decide +kernel

/-- C128 (part): `a.sub(b, result)` and `a.add(b, result)` are right for all three objects, the same or not. -/
theorem C128_sub_add_partial (a b r : Nat) (m : Mem K) : sub a b r m r = m a - m b ∧ add a b r m r = m a + m b := by
  constructor
  · simp only [sub, setZ_same, setY_same, setX_same, setX_y, setY_z, setX_z]
    rfl
  · simp only [add, setZ_same, setY_same, setX_same, setX_y, setY_z, setX_z]
    rfl

omit [LinearOrder K] in
/-- C128 (part): the product of a `vec4` with a `vec3` is right, and changes nothing else, if the output is not that `vec3`. -/
theorem C128_cross43_partial (a : Vec4 K) (b r : Nat) (m : Mem K) : (b ≠ r → cross43 a b r m r = VecOps.cross43 a (m b)) ∧
    ∀ x ≠ r, cross43 a b r m x = m x := by
  refine ⟨fun hb => ?_, fun x h => ?_⟩
  · simp only [cross43, setX_same, setY_same, setZ_same, setX_ne _ _ hb, setY_ne _ _ hb]
    rfl
  · simp only [cross43, setX_ne _ _ h, setY_ne _ _ h, setZ_ne _ _ h]

/-- C128 fails for the product of a `vec4` with a `vec3` that is also the output. -/
theorem C128_cross43_counterexample : let m : Mem ℚ := fun _ => ⟨0, 0, 1⟩
    VecOps.cross43 ⟨0, 1, 0, 1⟩ (m 0) = ⟨1, 0, 0⟩ ∧ cross43 ⟨0, 1, 0, 1⟩ 0 0 m 0 = ⟨1, 0, -1⟩ := by
  decide +kernel

theorem projectValue_spec (a : Vec3 K) (b r : Nat) (m : Mem K) (hb : b ≠ r) :
    (projectValue a b r m).map (· r) = Geom.vectorProjection a (m b) ∧ ∀ m', projectValue a b r m = some m' → ∀ x ≠ r, m' x = m x := by
  unfold projectValue Geom.vectorProjection
  rcases h : Geom.nanDiv 1 ((m b).x ^ 2 + (m b).y ^ 2 + (m b).z ^ 2) with _ | v
  · exact ⟨by simp [h], by simp [h]⟩
  · refine ⟨?_, ?_⟩
    · simp [h, setX_same, setY_same, setZ_same, setX_ne _ _ hb, setY_ne _ _ hb]
    · intro m' hm x hx
      simp [h] at hm
      subst hm
      simp only [setX_ne _ _ hx, setY_ne _ _ hx, setZ_ne _ _ hx]

/-- C128 (part): `vectorProjection(a, b, result)` writes the projection of `a` on `b`, and nothing else, if the output is not `b`; it may be `a`. -/
theorem C128_projection_partial (a b r : Nat) (m : Mem K) (hb : b ≠ r) :
    (projectOnto a b r m).map (· r) = Geom.vectorProjection (m a) (m b) ∧ ∀ m', projectOnto a b r m = some m' → ∀ x ≠ r, m' x = m x :=
  projectValue_spec (m a) b r m hb

/-- C128 fails for `vectorProjection(a, b, b)`: the projection of (4, 0, 0) on (1, 0, 1) is (2, 0, 2), the output is (2, 0, 4). -/
theorem C128_projection_counterexample : let m : Mem ℚ := fun i => if i = 0 then ⟨4, 0, 0⟩ else ⟨1, 0, 1⟩
    Geom.vectorProjection (m 0) (m 1) = some ⟨2, 0, 2⟩ ∧ (projectOnto 0 1 2 m).map (· 2) = some ⟨2, 0, 2⟩ ∧
    (projectOnto 0 1 0 m).map (· 0) = some ⟨2, 0, 2⟩ ∧ (projectOnto 0 1 1 m).map (· 1) = some ⟨2, 0, 4⟩ := by
  decide +kernel

omit [LinearOrder K] in
theorem addAssign_spec (r o : Nat) (m : Mem K) (h : o ≠ r) : addAssign r o m r = m r + m o ∧ ∀ x ≠ r, addAssign r o m x = m x := by
  refine ⟨?_, fun x hx => ?_⟩
  · simp only [addAssign, setX_same, setY_same, setZ_same, setX_ne _ _ h, setY_ne _ _ h]
    rfl
  · simp only [addAssign, setX_ne _ _ hx, setY_ne _ _ hx, setZ_ne _ _ hx]

omit [LinearOrder K] in
/-- C128 (part): `a += a` doubles the object. -/
theorem C128_add_self_partial (r : Nat) (m : Mem K) : addAssign r r m r = m r + m r := by
  simp only [addAssign, setX_same, setY_same, setZ_same]
  rfl

/-- C128 (part): the closest point on a ray is right, and the only change, if the output is neither the start nor the direction; it may be the
point itself. -/
theorem C128_ray_partial (a start dir r : Nat) (m : Mem K) (hs : start ≠ r) (hd : dir ≠ r) :
    (closestOnRay a start dir r m).map (· r) = Geom.closestPointOnRay (m a) (m start) (m dir) ∧
    ∀ m', closestOnRay a start dir r m = some m' → ∀ x ≠ r, m' x = m x := by
  obtain ⟨h1, h2⟩ := projectValue_spec (m a - m start) dir r m hd
  unfold closestOnRay Geom.closestPointOnRay
  rw [← h1]
  rcases h : projectValue (m a - m start) dir r m with _ | m'
  · exact ⟨by simp, by simp⟩
  · obtain ⟨e1, e2⟩ := addAssign_spec r start m' hs
    refine ⟨?_, ?_⟩
    · simp [e1, h2 m' h start hs]
    · intro m'' hm x hx
      simp at hm
      rw [← hm, e2 x hx, h2 m' h x hx]

theorem projectTemp_spec (a b : Vec3 K) (r : Nat) (m : Mem K) :
    (projectTemp a b r m).map (· r) = Geom.vectorProjection a b ∧ ∀ m', projectTemp a b r m = some m' → ∀ x ≠ r, m' x = m x := by
  unfold projectTemp
  rcases h : Geom.vectorProjection a b with _ | v
  · exact ⟨by simp, by simp⟩
  · refine ⟨by simp [assign_same], ?_⟩
    intro m' hm x hx
    simp at hm
    rw [← hm, assign_ne m v hx]

/-- C128 (part): the closest point on a line is right, and the only change, if the output is not the first point of the line; it may be the second
one or the point itself. -/
theorem C128_line_partial (a start stop r : Nat) (m : Mem K) (hs : start ≠ r) :
    (closestOnLine a start stop r m).map (· r) = Geom.closestPointOnLine (m a) (m start) (m stop) ∧
    ∀ m', closestOnLine a start stop r m = some m' → ∀ x ≠ r, m' x = m x := by
  obtain ⟨h1, h2⟩ := projectTemp_spec (m a - m start) (m stop - m start) r m
  unfold closestOnLine Geom.closestPointOnLine
  rw [← h1]
  rcases h : projectTemp (m a - m start) (m stop - m start) r m with _ | m'
  · exact ⟨by simp, by simp⟩
  · obtain ⟨e1, e2⟩ := addAssign_spec r start m' hs
    refine ⟨?_, ?_⟩
    · simp [e1, h2 m' h start hs]
    · intro m'' hm x hx
      simp at hm
      rw [← hm, e2 x hx, h2 m' h x hx]

/-- C128 (part): `closestPointOnSegm(a, start, end, result)` writes the same point as the overload that returns it, and changes nothing else, if the
output is not the start of the segment. -/
theorem C128_segment_partial (a start stop r : Nat) (m : Mem K) (hs : start ≠ r) :
    (closestOnSegm a start stop r m).map (· r) = Geom.closestPointOnSegmTo (m a) (m start) (m stop) ∧
    ∀ m', closestOnSegm a start stop r m = some m' → ∀ x ≠ r, m' x = m x := by
  obtain ⟨h1, h2⟩ := projectTemp_spec (m a - m start) (m stop - m start) r m
  unfold closestOnSegm Geom.closestPointOnSegmTo
  by_cases c1 : (m stop - m start).dot (m a - m start) < 0
  · rw [if_pos c1, if_pos c1]
    refine ⟨by simp [assign_same], ?_⟩
    intro m' hm x hx
    simp at hm
    rw [← hm, assign_ne _ _ hx]
  rw [if_neg c1, if_neg c1]
  by_cases c2 : (m stop - m start).dot (m a - m start) > 1
  · rw [if_pos c2, if_pos c2]
    refine ⟨by simp [assign_same], ?_⟩
    intro m' hm x hx
    simp at hm
    rw [← hm, assign_ne _ _ hx]
  rw [if_neg c2, if_neg c2, ← h1]
  rcases h : projectTemp (m a - m start) (m stop - m start) r m with _ | m'
  · exact ⟨by simp, by simp⟩
  · obtain ⟨e1, e2⟩ := addAssign_spec r start m' hs
    refine ⟨?_, ?_⟩
    · simp [e1, h2 m' h start hs]
    · intro m'' hm x hx
      simp at hm
      rw [← hm, e2 x hx, h2 m' h x hx]

/-- C128 fails if the output is the start: the point (3/2, 1, 0) has (3/2, 0, 0) as its closest point on the segment from (1, 0, 0) to (2, 0, 0); with the
output in the start, the code answers twice the projection, (1, 0, 0), instead. -/
theorem C128_start_counterexample : let m : Mem ℚ := fun i => if i = 0 then ⟨3 / 2, 1, 0⟩ else if i = 1 then ⟨1, 0, 0⟩ else ⟨2, 0, 0⟩
    Geom.closestPointOnSegmTo (m 0) (m 1) (m 2) = some ⟨3 / 2, 0, 0⟩ ∧ (closestOnSegm 0 1 2 1 m).map (· 1) = some ⟨1, 0, 0⟩ ∧
    (closestOnLine 0 1 2 1 m).map (· 1) = some ⟨1, 0, 0⟩ ∧ (closestOnSegm 0 1 2 2 m).map (· 2) = some ⟨3 / 2, 0, 0⟩ ∧
    (closestOnLine 0 1 2 0 m).map (· 0) = some ⟨3 / 2, 0, 0⟩ ∧
    Geom.closestPointOnRay (m 0) (m 1) (m 2) = some ⟨3 / 2, 0, 0⟩ ∧ (closestOnRay 0 1 2 1 m).map (· 1) = some ⟨1, 0, 0⟩ ∧
    (closestOnRay 0 1 2 0 m).map (· 0) = some ⟨3 / 2, 0, 0⟩ := by
  decide +kernel

/-- C128 fails if the output is the direction of the ray. -/
theorem C128_direction_counterexample : let m : Mem ℚ := fun i => if i = 0 then ⟨4, 0, 0⟩ else if i = 1 then ⟨0, 0, 0⟩ else ⟨1, 0, 1⟩
    Geom.closestPointOnRay (m 0) (m 1) (m 2) = some ⟨2, 0, 2⟩ ∧ (closestOnRay 0 1 2 2 m).map (· 2) = some ⟨2, 0, 4⟩ := by
  decide +kernel

/-- C128 (part): the closest point on a triangle is right for all objects, the same or not, and nothing else changes. -/
theorem C128_triangle_partial (pt a b c r : Nat) (m : Mem K) :
    (closestOnTriangle pt a b c r m).map (· r) = Geom.closestPointOnTriangleTo (m pt) (m a) (m b) (m c) ∧
    ∀ m', closestOnTriangle pt a b c r m = some m' → ∀ x ≠ r, m' x = m x := by
  unfold closestOnTriangle Geom.closestPointOnTriangleTo
  rcases h : Geom.closestPointOnTriangle (m a - m pt) (m b - m pt) (m c - m pt) with _ | v
  · exact ⟨by simp, by simp⟩
  · refine ⟨by simp [assign_same], ?_⟩
    intro m' hm x hx
    simp at hm
    rw [← hm, assign_ne m v hx]

omit [LinearOrder K] in
/-- C128 (part): the coordinates in a plane may replace the point. -/
theorem C128_plane_partial (p : Geom.CPlane K) (xyz uvh : Nat) (m : Mem K) :
    evaluateInv p xyz uvh m uvh = p.evaluateInv (m xyz) ∧ ∀ x ≠ uvh, evaluateInv p xyz uvh m x = m x := by
  refine ⟨?_, fun x hx => ?_⟩
  · simp only [evaluateInv, setX_same, setY_same, setZ_same]
    rfl
  · simp only [evaluateInv, setX_ne _ _ hx, setY_ne _ _ hx, setZ_ne _ _ hx]

/-- C128 (part): the two points of `segmentsDistance` and the distance are those of the model without memory if the two outputs are different objects and
the first one is not the start of the second line. The outputs may be any other of the four points. -/
theorem C128_segments_partial (sqrt : K → K) (p1 p2 q1 q2 c1 c2 : Nat) (m : Mem K) (hc : c1 ≠ c2) (hq : q1 ≠ c1) :
    (segments sqrt p1 p2 q1 q2 c1 c2 m).1 = (Geom.segmentsDistance sqrt (m p1) (m p2) (m q1) (m q2)).dist ∧
    (segments sqrt p1 p2 q1 q2 c1 c2 m).2 c1 = (Geom.segmentsDistance sqrt (m p1) (m p2) (m q1) (m q2)).cpt1 ∧
    (segments sqrt p1 p2 q1 q2 c1 c2 m).2 c2 = (Geom.segmentsDistance sqrt (m p1) (m p2) (m q1) (m q2)).cpt2 ∧
    ∀ x, x ≠ c1 → x ≠ c2 → (segments sqrt p1 p2 q1 q2 c1 c2 m).2 x = m x := by
  have hc' : c2 ≠ c1 := fun e => hc e.symm
  have f1 : (segments sqrt p1 p2 q1 q2 c1 c2 m).2 c1 = (Geom.segmentsDistance sqrt (m p1) (m p2) (m q1) (m q2)).cpt1 := by
    simp only [segments, setX_ne _ _ hc, setY_ne _ _ hc, setZ_ne _ _ hc, setX_same, setY_same, setZ_same, setX_y, setY_z, setX_z]
    rfl
  have f2 : (segments sqrt p1 p2 q1 q2 c1 c2 m).2 c2 = (Geom.segmentsDistance sqrt (m p1) (m p2) (m q1) (m q2)).cpt2 := by
    simp only [segments, setX_same, setY_same, setZ_same, setX_y, setY_z, setX_z, setX_ne _ _ hq, setY_ne _ _ hq, setZ_ne _ _ hq]
    rfl
  refine ⟨?_, f1, f2, fun x h1 h2 => ?_⟩
  · show sqrt ((segments sqrt p1 p2 q1 q2 c1 c2 m).2 c2 - (segments sqrt p1 p2 q1 q2 c1 c2 m).2 c1).sqLength = _
    rw [f1, f2]
    rfl
  · simp only [segments, setX_ne _ _ h1, setY_ne _ _ h1, setZ_ne _ _ h1, setX_ne _ _ h2, setY_ne _ _ h2, setZ_ne _ _ h2]

/-- C128 fails if the first output is the start of the second line: the x axis and the line through (0, 0, 1) along y have the distance 1, and the code answers 0. -/
theorem C128_segments_counterexample : let m : Mem ℚ := fun i => if i = 0 then ⟨0, 0, 0⟩ else if i = 1 then ⟨1, 0, 0⟩ else if i = 2 then ⟨0, 0, 1⟩ else ⟨0, 1, 1⟩
    (segments id 0 1 2 3 4 5 m).1 = 1 ∧ (segments id 0 1 2 3 2 5 m).1 = 0 := by
  decide +kernel

/-- C128 (part): `spherical_to_cartesian(rtp, xyz)` may replace its argument. -/
theorem C128_ofSpherical_partial (rtp xyz : Nat) (m : Mem ℝ) : ofSpherical rtp xyz m xyz = VecOps.ofSpherical (m rtp) ∧
    ∀ x ≠ xyz, ofSpherical rtp xyz m x = m x := by
  refine ⟨?_, fun x hx => ?_⟩
  · simp only [ofSpherical, setX_same, setY_same, setZ_same]
    rfl
  · simp only [ofSpherical, setX_ne _ _ hx, setY_ne _ _ hx, setZ_ne _ _ hx]

/-- C128 (part): `cartesian_to_spherical(xyz, rtp)` is right for two different objects. -/
theorem C128_toSpherical_partial (xyz rtp : Nat) (m : Mem ℝ) (h : xyz ≠ rtp) : toSpherical xyz rtp m rtp = VecOps.toSpherical (m xyz) ∧
    ∀ x ≠ rtp, toSpherical xyz rtp m x = m x := by
  refine ⟨?_, fun x hx => ?_⟩
  · simp only [toSpherical, setX_same, setY_same, setZ_same, setX_ne _ _ h, setY_ne _ _ h]
    rfl
  · simp only [toSpherical, setX_ne _ _ hx, setY_ne _ _ hx, setZ_ne _ _ hx]

/-- C128 fails for `cartesian_to_spherical(p, p)`: the azimuth of (1, 0, 0), which is 0, is computed from the new coordinates: it is that of the polar
angle against the radius. -/
theorem C128_toSpherical_counterexample (p : Nat) (m : Mem ℝ) (h : m p = ⟨1, 0, 0⟩) : (VecOps.toSpherical (m p)).z = 0 ∧ (toSpherical p p m p).z ≠ 0 := by
  have hq : ∀ y x : ℝ, 0 < y → VecOps.atan2 y x ≠ 0 := by
    intro y x hy e
    rw [VecOps.atan2, Complex.arg_eq_zero_iff] at e
    exact hy.ne' e.2
  refine ⟨?_, ?_⟩
  · rw [h]
    simp [VecOps.toSpherical, VecOps.atan2, Complex.arg_eq_zero_iff]
  · have e : (toSpherical p p m p).z = VecOps.atan2 (VecOps.atan2 (Real.sqrt (1 * 1 + 0 * 0)) 0) (Real.sqrt (1 * 1 + 0 * 0 + 0 * 0)) := by
      simp only [toSpherical, setX_same, setY_same, setZ_same, h]
    rw [e]
    apply hq
    have h1 : Real.sqrt (1 * 1 + 0 * 0) = 1 := by norm_num
    rw [h1]
    have h2 : VecOps.atan2 1 0 = Real.pi / 2 := by
      have : (⟨0, 1⟩ : ℂ) = Complex.I := rfl
      rw [VecOps.atan2, this, Complex.arg_I]
    rw [h2]
    positivity

section curve
open Cmm.Nurbs
variable [IsStrictOrderedRing K]

/-- C128: writing the derivative of a curve into another object gives the curve that `get_derivative()` returns, except that the object keeps its
periodicity flag. -/
theorem C128_derivative_partial (c out : Curve K) : (derivativeInto c out = .ub ↔ c.getDerivative = .ub) ∧
    ∀ r, derivativeInto c out = .ok r ↔ ∃ r', c.getDerivative = .ok r' ∧ r = { r' with periodic := out.periodic } := by
  unfold derivativeInto Curve.getDerivative
  by_cases h : c.cpts.length = 0 ∨ c.knots.length < 2 ∨ c.knots.length < c.cpts.length + c.degree ∨ c.degree = 0
  · rw [if_pos h, if_pos h]
    simp
  · rw [if_neg h, if_neg h]
    unfold Curve.updateInterval
    rcases h1 : minElement ((c.knots.drop 1).take (c.knots.length - 2)) with lo | _ | _ <;>
      rcases h2 : maxElement ((c.knots.drop 1).take (c.knots.length - 2)) with hi | _ | _ <;> simp [h1, h2]
    intro r
    exact ⟨fun e => by rw [← e], fun e => by rw [e]⟩

/-- C128 fails for `c.get_derivative(c)`: for no valid curve is the outcome that of `c.get_derivative()`, whatever the periodicity flag. -/
theorem C128_self_derivative_counterexample (c : Curve K) (hc : ValidCurve c) (b : Bool) :
    ∀ r, derivativeSelf c = .ok r → ∀ r', c.getDerivative = .ok r' → r ≠ { r' with periodic := b } := by
  intro r hr r' hr' e
  unfold derivativeSelf at hr
  unfold Curve.getDerivative at hr'
  split at hr
  · cases hr
  rename_i hg
  push Not at hg
  split at hr'
  · cases hr'
  have key : ∀ q q' : Curve K, q.updateInterval = .ok q' → q'.knots = q.knots := by
    intro q q' hq
    rcases h1 : minElement q.knots with lo | _ | _ <;> rcases h2 : maxElement q.knots with hi | _ | _ <;> simp [Curve.updateInterval, h1, h2] at hq
    rw [← hq]
  have hk := key _ _ hr'
  dsimp only at hr
  generalize hkn : (if (List.take (c.knots.length - 2) c.knots).length = 3 then (List.take (c.knots.length - 2) c.knots).set 0
    (ix (List.take (c.knots.length - 2) c.knots) 1) else List.take (c.knots.length - 2) c.knots) = kn at hr
  split at hr
  · cases hr
  have hk' := key _ _ hr
  rw [e] at hk'
  dsimp only at hk hk'
  rw [hk, ← hkn] at hk'
  obtain ⟨h1, h2, h3, h4, h5, h6⟩ := hc
  have h13 : c.cpts.length + c.degree + 1 ≤ 5 := by rw [← h4]; exact hg.2.2.1
  have h7 : c.cpts.length + c.degree + 1 = 4 ∨ c.cpts.length + c.degree + 1 = 5 := by omega
  have hd : c.degree = 1 := by omega
  rcases h7 with h7 | h7
  · have hn : c.cpts.length = 2 := by omega
    rw [hn] at h6
    rcases hU : c.knots with _ | ⟨k0, _ | ⟨k1, _ | ⟨k2, _ | ⟨k3, _ | ⟨k4, l⟩⟩⟩⟩⟩ <;> rw [hU, h7] at h4 <;> simp at h4
    simp [hU] at hk'
    rw [hU] at h6
    simp [ix] at h6
    exact absurd hk'.2 h6.ne'
  · have hn : c.cpts.length = 3 := by omega
    rw [hn] at h6
    rcases hU : c.knots with _ | ⟨k0, _ | ⟨k1, _ | ⟨k2, _ | ⟨k3, _ | ⟨k4, _ | ⟨k5, l⟩⟩⟩⟩⟩⟩ <;> rw [hU, h7] at h4 <;> simp at h4
    simp [hU, ix] at hk'
    rw [hU] at h6
    simp [ix] at h6
    exact absurd hk'.2 h6.ne'

/-- C128: from six knots on, as for every curve of degree two and more, `c.get_derivative(c)` is undefined behaviour. -/
theorem C128_self_derivative_undefined (c : Curve K) (h : 6 ≤ c.knots.length) : derivativeSelf c = .ub := by
  rw [derivativeSelf, if_pos (Or.inr (Or.inr (Or.inl (by omega))))]

/-- C128: exactly when `c.get_derivative(c)` is defined. -/
theorem C128_self_derivative_defined (c : Curve K) : derivativeSelf c ≠ .ub ↔
    2 ≤ c.cpts.length ∧ (c.knots.length = 4 ∨ c.knots.length = 5) ∧ 1 ≤ c.degree ∧ (3 ≤ c.cpts.length → c.cpts.length + c.degree + 1 ≤ c.knots.length) := by
  unfold derivativeSelf
  split
  · rename_i h
    refine iff_of_false (fun h' => h' rfl) ?_
    omega
  · rename_i h
    push Not at h
    dsimp only
    generalize hkn : (if (List.take (c.knots.length - 2) c.knots).length = 3 then (List.take (c.knots.length - 2) c.knots).set 0
      (ix (List.take (c.knots.length - 2) c.knots) 1) else List.take (c.knots.length - 2) c.knots) = kn
    have hl : kn.length = c.knots.length - 2 := by
      rw [← hkn]
      split <;> simp
    have hc : (c.cpts.take (c.cpts.length - 1)).length = c.cpts.length - 1 := by simp
    rw [hl, hc]
    split
    · rename_i h'
      refine iff_of_false (fun h'' => h'' rfl) ?_
      omega
    · rename_i h'
      refine iff_of_true ?_ ?_
      · cases kn with
        | nil => simp at hl; omega
        | cons a l => exact fun h => by cases h
      · push Not at h'
        refine ⟨by omega, by omega, by omega, fun h3 => ?_⟩
        have := h'.2 (by omega)
        omega

/-- The line from (1, 0, 0) to (3, 1, 0). -/
def aliasLine : Curve ℚ := ⟨[⟨1, 0, 0, 1⟩, ⟨3, 1, 0, 1⟩], 1, [0, 0, 1, 1], false, 0, 1⟩

/-- The cases of C128 for curves: a line, whose derivative is (2, 1, 0), and a polyline with three points. -/
example : ValidCurve aliasLine ∧ derivativeInto aliasLine aliasLine = .ok ⟨[⟨2, 1, 0, 1⟩], 0, [0, 1], false, 0, 1⟩ ∧
    derivativeSelf aliasLine = .ok ⟨[⟨1, 0, 0, 1⟩], 0, [0, 0], false, 0, 0⟩ ∧
    derivativeSelf (⟨[⟨1, 0, 0, 1⟩, ⟨3, 1, 0, 1⟩, ⟨3, 4, 0, 1⟩], 1, [0, 0, 1, 3, 3], false, 0, 3⟩ : Curve ℚ) =
      .ok ⟨[⟨2, 1, 0, 1⟩, ⟨3, 1, 0, 1⟩], 0, [0, 0, 1], false, 0, 1⟩ := by
  refine ⟨⟨by decide, by decide, by decide, by decide, ?_, by decide +kernel⟩, by decide +kernel, by decide +kernel, by decide +kernel⟩
  show List.Pairwise _ _
  decide +kernel
end curve

end Cmm.Alias
