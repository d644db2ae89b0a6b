import Verif.Lemmas.ClosestPoint
import Mathlib.Algebra.Order.Ring.Rat
import Mathlib.Algebra.Field.Rat
import Verif.Model.Newton
/-!
Properties of cmmcore/closest_point.h and cmmcore/numeric_utils.h: C45, C46, C58, C69.
-/
namespace Cmm.Geom
variable {K : Type} [Field K] [LinearOrder K] [IsStrictOrderedRing K]

/-! ### C45 -/

theorem segm_point {a b o : Vec3 K} {t : K} (h0 : 0 ≤ t) (h1 : t ≤ 1)
    (ha : t * (along a b t - o).dot (b - a) ≤ 0) (hb : 0 ≤ (1 - t) * (along a b t - o).dot (b - a)) :
    Closest (OnSegment a b) o (along a b t) := by
  refine closest_of_dot ⟨t, h0, h1, rfl⟩ ?_
  rintro q ⟨s, s0, s1, rfl⟩
  have e : (along a b t - o).dot (along a b s - along a b t) = (s - t) * (along a b t - o).dot (b - a) := by
    simp only [Vec3.dot, along, Vec3.sub_x, Vec3.sub_y, Vec3.sub_z]; ring
  rw [e]
  generalize (along a b t - o).dot (b - a) = g at *
  have h2 := mul_nonneg s0 hb
  have h3 := mul_nonneg (sub_nonneg.2 s1) (neg_nonneg.2 ha)
  linear_combination h2 + h3

/-- **C45**: for two different points, `closestPointOnSegm(a, b)` returns the point of the segment that is closest to the origin. -/
theorem C45_segment (a b : Vec3 K) (h : a ≠ b) :
    ∃ p, closestPointOnSegm a b = some p ∧ Closest (OnSegment a b) 0 p := by
  have hL := sqLength_pos h
  unfold closestPointOnSegm
  dsimp only
  rw [nanDiv_eq hL.ne']
  refine ⟨_, rfl, ?_⟩
  have e : ∀ t, a + (b - a).smul t = along a b t := by
    intro t
    ext <;> simp only [along, Vec3.add_x, Vec3.add_y, Vec3.add_z, Vec3.sub_x, Vec3.sub_y, Vec3.sub_z, Vec3.smul_x, Vec3.smul_y, Vec3.smul_z] <;> ring
  have g : ∀ t, (along a b t - 0).dot (b - a) = a.dot (b - a) + t * (b - a).sqLength := by
    intro t
    simp only [Vec3.dot, along, Vec3.sqLength, Vec3.sub_x, Vec3.sub_y, Vec3.sub_z, Vec3.zero_x, Vec3.zero_y, Vec3.zero_z]; ring
  rw [e]
  have ht : -(a.dot (b - a)) / (b - a).sqLength * (b - a).sqLength = -(a.dot (b - a)) := by field_simp
  generalize -(a.dot (b - a)) / (b - a).sqLength = t at ht
  unfold clamp
  by_cases h1 : t < 0
  · rw [if_pos h1]
    have := mul_neg_of_neg_of_pos h1 hL
    exact segm_point (le_refl _) zero_le_one (by simp) (by rw [g]; linarith)
  · rw [if_neg h1]
    by_cases h2 : 1 < t
    · rw [if_pos h2]
      have := mul_pos (sub_pos.2 h2) hL
      exact segm_point zero_le_one (le_refl _) (by rw [g]; linarith) (by simp)
    · rw [if_neg h2]
      have h0 : (along a b t - 0).dot (b - a) = 0 := by rw [g]; linarith
      exact segm_point (not_lt.1 h1) (not_lt.1 h2) (by rw [h0]; simp) (by rw [h0]; simp)

example : (⟨1, 0, 0⟩ : Vec3 ℚ) ≠ ⟨0, 1, 0⟩ := by decide +kernel

omit [IsStrictOrderedRing K] in
/-- C45: for equal end points the result is not a number. -/
theorem C45_segment_point (a : Vec3 K) : closestPointOnSegm a a = none := by
  unfold closestPointOnSegm
  dsimp only
  have : nanDiv (-(a.dot (a - a))) (a - a).sqLength = none := by
    unfold nanDiv; rw [if_pos]; simp [Vec3.sqLength]
  rw [this]; rfl

/-- **C45**: for a triangle whose corners are not on one line, `closestPointOnTriangle(a, b, c)` returns the point of the triangle
that is closest to the origin (in particular never a NaN). -/
theorem C45_triangle (a b c : Vec3 K) (h : ¬ Collinear a b c) :
    ∃ p, closestPointOnTriangle a b c = some p ∧ Closest (OnTriangle a b c) 0 p := closestPointOnTriangle_spec h

/-! The seven regions are all met by non-degenerate triangles. -/
example : ¬ Collinear (⟨1, 0, 0⟩ : Vec3 ℚ) ⟨0, 1, 0⟩ ⟨0, 0, 1⟩ ∧
    closestPointOnTriangle (⟨1, 0, 0⟩ : Vec3 ℚ) ⟨0, 1, 0⟩ ⟨0, 0, 1⟩ = some ⟨1/3, 1/3, 1/3⟩ := by
  unfold Collinear; decide +kernel
example : closestPointOnTriangle (⟨1, 1, 1⟩ : Vec3 ℚ) ⟨2, 1, 1⟩ ⟨1, 2, 1⟩ = some ⟨1, 1, 1⟩ := by decide +kernel
example : closestPointOnTriangle (⟨2, 1, 1⟩ : Vec3 ℚ) ⟨1, 1, 1⟩ ⟨1, 2, 1⟩ = some ⟨1, 1, 1⟩ := by decide +kernel
example : closestPointOnTriangle (⟨2, 1, 1⟩ : Vec3 ℚ) ⟨1, 2, 1⟩ ⟨1, 1, 1⟩ = some ⟨1, 1, 1⟩ := by decide +kernel
example : closestPointOnTriangle (⟨1, -1, 1⟩ : Vec3 ℚ) ⟨1, 1, 1⟩ ⟨3, 0, 1⟩ = some ⟨1, 0, 1⟩ := by decide +kernel
example : closestPointOnTriangle (⟨1, -1, 1⟩ : Vec3 ℚ) ⟨3, 0, 1⟩ ⟨1, 1, 1⟩ = some ⟨1, 0, 1⟩ := by decide +kernel
example : closestPointOnTriangle (⟨3, 0, 1⟩ : Vec3 ℚ) ⟨1, -1, 1⟩ ⟨1, 1, 1⟩ = some ⟨1, 0, 1⟩ := by decide +kernel

/-! ### C46 -/

omit [IsStrictOrderedRing K] in
theorem vectorProjection_eq {a b : Vec3 K} (h : b.sqLength ≠ 0) :
    vectorProjection a b = some (b.smul (a.dot b / b.sqLength)) := by
  unfold vectorProjection
  dsimp only
  have e : b.x ^ 2 + b.y ^ 2 + b.z ^ 2 = b.sqLength := by unfold Vec3.sqLength; ring
  rw [e, nanDiv_eq h]
  simp only [Option.bind_eq_bind, Option.bind_some, Option.pure_def, Option.some.injEq]
  generalize b.sqLength = L
  ext <;> simp only [Vec3.smul_x, Vec3.smul_y, Vec3.smul_z, Vec3.dot] <;> ring

theorem line_point {a s e : Vec3 K} (h : s ≠ e) :
    (e - s).smul ((a - s).dot (e - s) / (e - s).sqLength) + s = along s e ((a - s).dot (e - s) / (e - s).sqLength) ∧
      (along s e ((a - s).dot (e - s) / (e - s).sqLength) - a).dot (e - s) = 0 := by
  have hL := (sqLength_pos h).ne'
  have ht : (a - s).dot (e - s) / (e - s).sqLength * (e - s).sqLength = (a - s).dot (e - s) := by field_simp
  generalize (a - s).dot (e - s) / (e - s).sqLength = t at ht
  constructor
  · ext <;> simp only [along, Vec3.add_x, Vec3.add_y, Vec3.add_z, Vec3.sub_x, Vec3.sub_y, Vec3.sub_z, Vec3.smul_x, Vec3.smul_y, Vec3.smul_z] <;> ring
  · simp only [Vec3.dot, along, Vec3.sqLength, Vec3.sub_x, Vec3.sub_y, Vec3.sub_z] at ht ⊢
    linear_combination ht

/-- **C46** (line): `closestPointOnLine(a, start, end)` is the point of the line that is closest to `a`. -/
theorem C46_line_partial (a s e : Vec3 K) (h : s ≠ e) :
    ∃ p, closestPointOnLine a s e = some p ∧ Closest (OnLine s e) a p := by
  unfold closestPointOnLine
  rw [vectorProjection_eq (sqLength_pos h).ne']
  obtain ⟨h1, h2⟩ := line_point (a := a) h
  refine ⟨_, rfl, ?_⟩
  rw [h1]
  refine closest_of_dot ⟨_, rfl⟩ ?_
  generalize (a - s).dot (e - s) / (e - s).sqLength = t at *
  rintro q ⟨u, rfl⟩
  have : (along s e t - a).dot (along s e u - along s e t) = (u - t) * (along s e t - a).dot (e - s) := by
    simp only [Vec3.dot, along, Vec3.sub_x, Vec3.sub_y, Vec3.sub_z]; ring
  rw [this, h2, mul_zero]

/-- C46 (ray): `closestPointOnRay` takes the whole line for the ray. -/
theorem C46_ray_is_line (a s d : Vec3 K) (h : d ≠ 0) :
    ∃ p, closestPointOnRay a s d = some p ∧ Closest (OnLine s (s + d)) a p := by
  have h' : s ≠ s + d := by
    intro he; apply h
    have hx := congrArg Vec3.x he; have hy := congrArg Vec3.y he; have hz := congrArg Vec3.z he
    simp only [Vec3.add_x, Vec3.add_y, Vec3.add_z] at hx hy hz
    ext
    · show d.x = 0; linarith
    · show d.y = 0; linarith
    · show d.z = 0; linarith
  have e : s + d - s = d := by ext <;> simp
  obtain ⟨p, hp, hc⟩ := C46_line_partial a s (s + d) h'
  refine ⟨p, ?_, hc⟩
  unfold closestPointOnLine at hp
  rw [e] at hp
  exact hp

/-- C46 (ray): so the result need not be on the ray. -/
theorem C46_ray_counterexample :
    ∃ a s d p : Vec3 ℚ, d ≠ 0 ∧ closestPointOnRay a s d = some p ∧ ¬ OnRay s (s + d) p := by
  refine ⟨⟨-1, 0, 0⟩, 0, ⟨1, 0, 0⟩, ⟨-1, 0, 0⟩, by decide +kernel, by decide +kernel, ?_⟩
  rintro ⟨t, ht, he⟩
  have := congrArg Vec3.x he
  simp only [along, Vec3.add_x, Vec3.zero_x] at this
  linarith

/-- C46 (segment): exactly when the three-argument `closestPointOnSegm` is right. The parameter `d · (a - start)` is compared with
1, but the end of the segment is at `d · d`. -/
theorem C46_segment_partial (a s e : Vec3 K) (h : s ≠ e) :
    ∃ p, closestPointOnSegmTo a s e = some p ∧
      (Closest (OnSegment s e) a p ↔
        ¬ (1 < (e - s).dot (a - s) ∧ (e - s).dot (a - s) < (e - s).sqLength) ∧
        ¬ ((e - s).sqLength < (e - s).dot (a - s) ∧ (e - s).dot (a - s) ≤ 1)) := by
  have hL := sqLength_pos h
  have g : ∀ t, (along s e t - a).dot (e - s) = t * (e - s).sqLength - (e - s).dot (a - s) := by
    intro t
    simp only [Vec3.dot, along, Vec3.sqLength, Vec3.sub_x, Vec3.sub_y, Vec3.sub_z]; ring
  have hs0 : s = along s e 0 := by ext <;> simp [along]
  have he1 : e = along s e 1 := by ext <;> simp [along]
  unfold closestPointOnSegmTo
  dsimp only
  by_cases h1 : (e - s).dot (a - s) < 0
  · rw [if_pos h1]
    refine ⟨_, rfl, fun _ => ⟨fun hc => by linarith [hc.1], fun hc => by linarith [hc.1]⟩, fun _ => ?_⟩
    have := segm_point (a := s) (b := e) (o := a) (t := 0) (le_refl _) zero_le_one (by simp) (by rw [g]; linarith)
    rwa [← hs0] at this
  rw [if_neg h1]
  by_cases h2 : (e - s).dot (a - s) > 1
  · rw [if_pos h2]
    refine ⟨_, rfl, fun hc => ⟨fun ⟨_, h3⟩ => ?_, fun ⟨_, h3⟩ => by linarith⟩, fun ⟨h3, _⟩ => ?_⟩
    · have := dot_of_closest (q := s) hc (fun t ht0 ht1 => ⟨1 - t, by linarith, by linarith, by
        ext <;> simp only [along] <;> ring⟩)
      have e' : (e - a).dot (s - e) = -((along s e 1 - a).dot (e - s)) := by
        simp only [Vec3.dot, along, Vec3.sub_x, Vec3.sub_y, Vec3.sub_z]; ring
      rw [e', g] at this
      linarith
    · have h4 : (e - s).sqLength ≤ (e - s).dot (a - s) := by
        by_contra hc; exact h3 ⟨h2, not_le.1 hc⟩
      have := segm_point (a := s) (b := e) (o := a) (t := 1) zero_le_one (le_refl _) (by rw [g]; linarith) (by simp)
      rwa [← he1] at this
  rw [if_neg h2, vectorProjection_eq hL.ne']
  obtain ⟨l1, l2⟩ := line_point (a := a) h
  refine ⟨_, rfl, ?_⟩
  rw [l1]
  have hcomm : (a - s).dot (e - s) = (e - s).dot (a - s) := by simp only [Vec3.dot]; ring
  rw [hcomm] at l2 ⊢
  constructor
  · rintro ⟨⟨t, t0, t1, ht⟩, _⟩
    refine ⟨fun hc => h2 hc.1, fun hc => ?_⟩
    rw [ht, g] at l2
    have := mul_le_mul_of_nonneg_right t1 hL.le
    linarith [hc.1]
  · rintro ⟨_, h3⟩
    have h4 : (e - s).dot (a - s) ≤ (e - s).sqLength := by
      by_contra hc; exact h3 ⟨not_le.1 hc, not_lt.1 h2⟩
    refine segm_point (div_nonneg (not_lt.1 h1) hL.le) (by rw [div_le_one hL]; exact h4) ?_ ?_
    · rw [l2, mul_zero]
    · rw [l2, mul_zero]

example : ∃ a s e : Vec3 ℚ, s ≠ e ∧ ¬ (1 < (e - s).dot (a - s) ∧ (e - s).dot (a - s) < (e - s).sqLength) ∧
    ¬ ((e - s).sqLength < (e - s).dot (a - s) ∧ (e - s).dot (a - s) ≤ 1) :=
  ⟨⟨1/4, 1, 0⟩, 0, ⟨2, 0, 0⟩, by decide +kernel, by decide +kernel, by decide +kernel⟩

/-- C46 (segment): a segment of length 2 and a point over its middle: the result is the far end. -/
theorem C46_segment_counterexample :
    ∃ a s e p : Vec3 ℚ, s ≠ e ∧ closestPointOnSegmTo a s e = some p ∧ ¬ Closest (OnSegment s e) a p := by
  refine ⟨⟨1, 1, 0⟩, 0, ⟨2, 0, 0⟩, ⟨2, 0, 0⟩, by decide +kernel, by decide +kernel, fun h => ?_⟩
  have := h.2 ⟨1, 0, 0⟩ ⟨1 / 2, by norm_num, by norm_num, by decide +kernel⟩
  revert this; unfold sqDist; decide +kernel

/-- C46 (segment): a short segment: the result is beyond the end, so not on the segment at all. -/
theorem C46_segment_off :
    ∃ a s e p : Vec3 ℚ, s ≠ e ∧ closestPointOnSegmTo a s e = some p ∧ ¬ OnSegment s e p := by
  refine ⟨⟨1, 0, 0⟩, 0, ⟨1 / 2, 0, 0⟩, ⟨1, 0, 0⟩, by decide +kernel, by decide +kernel, ?_⟩
  rintro ⟨t, h0, h1, he⟩
  have := congrArg Vec3.x he
  simp only [along, Vec3.zero_x] at this
  linarith

omit [IsStrictOrderedRing K] in
theorem onTriangle_shift (pt a b c p : Vec3 K) :
    OnTriangle (a - pt) (b - pt) (c - pt) p ↔ OnTriangle a b c (p + pt) := by
  unfold OnTriangle
  constructor <;> rintro ⟨u, v, w, hu, hv, hw, hs, he⟩ <;> refine ⟨u, v, w, hu, hv, hw, hs, ?_⟩
  · have hx := congrArg Vec3.x he; have hy := congrArg Vec3.y he; have hz := congrArg Vec3.z he
    simp only [Vec3.sub_x, Vec3.sub_y, Vec3.sub_z] at hx hy hz
    ext <;> simp only [Vec3.add_x, Vec3.add_y, Vec3.add_z]
    · rw [hx]; linear_combination (-pt.x) * hs
    · rw [hy]; linear_combination (-pt.y) * hs
    · rw [hz]; linear_combination (-pt.z) * hs
  · have hx := congrArg Vec3.x he; have hy := congrArg Vec3.y he; have hz := congrArg Vec3.z he
    simp only [Vec3.add_x, Vec3.add_y, Vec3.add_z] at hx hy hz
    ext <;> simp only [Vec3.sub_x, Vec3.sub_y, Vec3.sub_z]
    · linear_combination hx + pt.x * hs
    · linear_combination hy + pt.y * hs
    · linear_combination hz + pt.z * hs

/-- C46 (triangle): the result of the four-argument `closestPointOnTriangle` becomes the closest point once `pt` is added. -/
theorem C46_triangle_partial (pt a b c : Vec3 K) (h : ¬ Collinear a b c) :
    ∃ p, closestPointOnTriangleTo pt a b c = some p ∧ Closest (OnTriangle a b c) pt (p + pt) := by
  have h' : ¬ Collinear (a - pt) (b - pt) (c - pt) := by
    intro hc; apply h
    unfold Collinear at *
    simpa only [Vec3.sub_x, Vec3.sub_y, Vec3.sub_z, sub_sub_sub_cancel_right] using hc
  obtain ⟨p, hp, h1, h2⟩ := closestPointOnTriangle_spec h'
  refine ⟨p, hp, (onTriangle_shift ..).1 h1, fun q hq => ?_⟩
  have := h2 (q - pt) ((onTriangle_shift ..).2 (by rwa [show q - pt + pt = q by ext <;> simp]))
  simp only [sqDist, Vec3.add_x, Vec3.add_y, Vec3.add_z, Vec3.sub_x, Vec3.sub_y, Vec3.sub_z, Vec3.zero_x, Vec3.zero_y, Vec3.zero_z] at this ⊢
  linear_combination this

/-- C46 (triangle): without that it is not even a point of the triangle. -/
theorem C46_triangle_counterexample :
    ∃ pt a b c p : Vec3 ℚ, ¬ Collinear a b c ∧ closestPointOnTriangleTo pt a b c = some p ∧ ¬ OnTriangle a b c p := by
  refine ⟨⟨1, 1, 5⟩, ⟨0, 0, 1⟩, ⟨3, 0, 1⟩, ⟨0, 3, 1⟩, ⟨0, 0, -4⟩, by unfold Collinear; decide +kernel, by decide +kernel, ?_⟩
  rintro ⟨u, v, w, hu, hv, hw, hs, he⟩
  have := congrArg Vec3.z he
  dsimp only at this
  linarith

/-! ### C58 -/

/-- The directions of the two lines are parallel. -/
def Parallel (p1 p2 q1 q2 : Vec3 K) : Prop := (p2 - p1).cross (q2 - q1) = 0

theorem denom_ne {p1 p2 q1 q2 : Vec3 K} (h : ¬ Parallel p1 p2 q1 q2) :
    (p2 - p1).dot (p2 - p1) * (q2 - q1).dot (q2 - q1) - (p2 - p1).dot (q2 - q1) * (p2 - p1).dot (q2 - q1) ≠ 0 := by
  intro h0; apply h
  unfold Parallel
  have e : (p2 - p1).dot (p2 - p1) * (q2 - q1).dot (q2 - q1) - (p2 - p1).dot (q2 - q1) * (p2 - p1).dot (q2 - q1) =
      ((p2 - p1).cross (q2 - q1)).sqLength := by
    simp only [Vec3.dot, Vec3.cross, Vec3.sqLength, Vec3.sub_x, Vec3.sub_y, Vec3.sub_z]; ring
  rw [e] at h0
  by_contra hc
  have := sqLength_pos (Ne.symm hc)
  rw [show (p2 - p1).cross (q2 - q1) - 0 = (p2 - p1).cross (q2 - q1) by ext <;> simp] at this
  linarith

/-- **C58**: for lines that are not parallel, the reported points are on their lines at the reported parameters, no two points of the
lines are closer, and the reported distance is their distance. -/
theorem C58_closest (sqrt : K → K) (p1 p2 q1 q2 : Vec3 K) (h : ¬ Parallel p1 p2 q1 q2) :
    let r := segmentsDistance sqrt p1 p2 q1 q2
    r.cpt1 = along p1 p2 r.t ∧ r.cpt2 = along q1 q2 r.u ∧ r.dist = sqrt (sqDist r.cpt1 r.cpt2) ∧
      ∀ s v, sqDist r.cpt1 r.cpt2 ≤ sqDist (along p1 p2 s) (along q1 q2 v) := by
  have hD := denom_ne h
  simp only [segmentsDistance, if_pos hD, ne_eq]
  refine ⟨?_, ?_, ?_, ?_⟩
  · ext <;> simp only [along, Vec3.add_x, Vec3.add_y, Vec3.add_z, Vec3.sub_x, Vec3.sub_y, Vec3.sub_z, Vec3.smul_x, Vec3.smul_y, Vec3.smul_z] <;> ring
  · ext <;> simp only [along, Vec3.add_x, Vec3.add_y, Vec3.add_z, Vec3.sub_x, Vec3.sub_y, Vec3.sub_z, Vec3.smul_x, Vec3.smul_y, Vec3.smul_z] <;> ring
  · congr 1
    simp only [Vec3.sqLength, sqDist, Vec3.sub_x, Vec3.sub_y, Vec3.sub_z]; ring
  · intro s v
    have ht := div_mul_cancel₀ ((p2 - p1).dot (q2 - q1) * (q2 - q1).dot (p1 - q1) - (q2 - q1).dot (q2 - q1) * (p2 - p1).dot (p1 - q1)) hD
    have hu := div_mul_cancel₀ ((p2 - p1).dot (p2 - p1) * (q2 - q1).dot (p1 - q1) - (p2 - p1).dot (q2 - q1) * (p2 - p1).dot (p1 - q1)) hD
    generalize (_ : K) / _ = t at ht ⊢
    generalize (_ : K) / _ = u at hu ⊢
    set d1 := p2 - p1 with hd1
    set d2 := q2 - q1 with hd2
    set r := p1 - q1 with hr
    -- the difference of the two points is orthogonal to both lines
    have g1 : d1.dot r + t * d1.dot d1 - u * d1.dot d2 = 0 := by
      apply mul_right_cancel₀ hD
      linear_combination d1.dot d1 * ht - d1.dot d2 * hu
    have g2 : d2.dot r + t * d1.dot d2 - u * d2.dot d2 = 0 := by
      apply mul_right_cancel₀ hD
      linear_combination d1.dot d2 * ht - d2.dot d2 * hu
    have e1 : sqDist (p1 + d1.smul t) (q1 + d2.smul u) = (r + d1.smul t - d2.smul u).sqLength := by
      simp only [sqDist, Vec3.sqLength, hr, Vec3.add_x, Vec3.add_y, Vec3.add_z, Vec3.sub_x, Vec3.sub_y, Vec3.sub_z, Vec3.smul_x, Vec3.smul_y, Vec3.smul_z]; ring
    have e2 : sqDist (along p1 p2 s) (along q1 q2 v) = (r + d1.smul t - d2.smul u).sqLength +
        (d1.smul (s - t) - d2.smul (v - u)).sqLength +
        2 * ((s - t) * (d1.dot r + t * d1.dot d1 - u * d1.dot d2) - (v - u) * (d2.dot r + t * d1.dot d2 - u * d2.dot d2)) := by
      simp only [sqDist, along, Vec3.sqLength, Vec3.dot, hr, hd1, hd2, Vec3.add_x, Vec3.add_y, Vec3.add_z, Vec3.sub_x, Vec3.sub_y, Vec3.sub_z, Vec3.smul_x, Vec3.smul_y, Vec3.smul_z]; ring
    rw [e1, e2, g1, g2]
    have := sqLength_nonneg (d1.smul (s - t) - d2.smul (v - u))
    linarith

example : ¬ Parallel (⟨0, 0, 0⟩ : Vec3 ℚ) ⟨1, 0, 0⟩ ⟨0, 1, 3⟩ ⟨1, 2, 3⟩ := by unfold Parallel; decide +kernel

omit [IsStrictOrderedRing K] in
/-- **C58**: the overload without output parameters returns the same distance. -/
theorem C58_overloads (sqrt : K → K) (p1 p2 q1 q2 : Vec3 K) :
    segmentsDistanceOnly sqrt p1 p2 q1 q2 = (segmentsDistance sqrt p1 p2 q1 q2).dist := by
  unfold segmentsDistanceOnly segmentsDistance
  dsimp only
  split <;> rfl

omit [IsStrictOrderedRing K] in
/-- C58: for parallel lines the distance of the two start points is reported, not that of the lines. -/
theorem C58_parallel (sqrt : K → K) (p1 p2 q1 q2 : Vec3 K) (h : Parallel p1 p2 q1 q2) :
    let r := segmentsDistance sqrt p1 p2 q1 q2
    r.t = 0 ∧ r.u = 0 ∧ r.cpt1 = p1 ∧ r.cpt2 = q1 ∧ r.dist = sqrt (sqDist p1 q1) := by
  have h0 : (p2 - p1).dot (p2 - p1) * (q2 - q1).dot (q2 - q1) - (p2 - p1).dot (q2 - q1) * (p2 - p1).dot (q2 - q1) = 0 := by
    have e : (p2 - p1).dot (p2 - p1) * (q2 - q1).dot (q2 - q1) - (p2 - p1).dot (q2 - q1) * (p2 - p1).dot (q2 - q1) =
        ((p2 - p1).cross (q2 - q1)).sqLength := by
      simp only [Vec3.dot, Vec3.cross, Vec3.sqLength, Vec3.sub_x, Vec3.sub_y, Vec3.sub_z]; ring
    rw [e, show (p2 - p1).cross (q2 - q1) = 0 from h]
    simp [Vec3.sqLength]
  simp only [segmentsDistance, h0, ne_eq, not_true_eq_false, if_false]
  refine ⟨trivial, trivial, by ext <;> simp, by ext <;> simp, ?_⟩
  congr 1
  simp only [Vec3.sqLength, sqDist, Vec3.sub_x, Vec3.sub_y, Vec3.sub_z, Vec3.add_x, Vec3.add_y, Vec3.add_z, Vec3.smul_x, Vec3.smul_y, Vec3.smul_z]; ring

/-! ### C69 -/

omit [IsStrictOrderedRing K] in
/-- **C69**: if the centre and the point are at different heights, the projected point is where the line through them meets the
plane z = 0. -/
theorem C69_projection (o p : Vec3 K) (h : o.z ≠ p.z) (q : Vec2 K) :
    centerProjectionToXY o p = q ↔ OnLine o p ⟨q.x, q.y, 0⟩ := by
  have hd : p.z - o.z ≠ 0 := sub_ne_zero.2 (Ne.symm h)
  unfold centerProjectionToXY
  rw [if_neg h]
  dsimp only
  constructor
  · rintro rfl
    refine ⟨-o.z / (p.z - o.z), ?_⟩
    ext <;> simp only [along]
    · ring
    · ring
    · field_simp; ring
  · rintro ⟨t, ht⟩
    have hx := congrArg Vec3.x ht; have hy := congrArg Vec3.y ht; have hz := congrArg Vec3.z ht
    simp only [along] at hx hy hz
    have : t = -o.z / (p.z - o.z) := by rw [eq_div_iff hd]; linear_combination -hz
    subst this
    ext
    · rw [hx]; ring
    · rw [hy]; ring

example : (⟨0, 0, 1⟩ : Vec3 ℚ).z ≠ (⟨1, 1, 2⟩ : Vec3 ℚ).z := by decide +kernel

omit [IsStrictOrderedRing K] in
/-- C69: at equal heights the point is returned unchanged. -/
theorem C69_same_height (o p : Vec3 K) (h : o.z = p.z) : centerProjectionToXY o p = ⟨p.x, p.y⟩ := if_pos h

omit [IsStrictOrderedRing K] in
/-- C69: a point of the plane z = 0 is its own projection, from every centre. -/
theorem C69_fixed (o p : Vec3 K) (h : p.z = 0) : centerProjectionToXY o p = ⟨p.x, p.y⟩ := by
  by_cases h0 : o.z = p.z
  · exact if_pos h0
  · rw [C69_projection o p h0]
    refine ⟨1, ?_⟩
    ext <;> simp [along, h]

end Cmm.Geom
