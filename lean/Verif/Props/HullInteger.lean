import Verif.Props.QuickHull
/-!
`convex_hull` of cmmcore/convexhull.h with the model of Quickhull in place, for points with small integer coordinates.
-/
namespace Cmm.Hull3d
open Cmm.Hull2d Cmm.Geom Cmm.Newton Cmm.Quick
variable {K : Type} [Field K] [LinearOrder K] [IsStrictOrderedRing K]

/-- The conversion to `float` does not change integers up to `2 ^ 24`. -/
def FloatExact (fl : K → K) : Prop := ∀ n : ℤ, |n| ≤ 2 ^ 24 → fl n = n

omit [IsStrictOrderedRing K] in
private theorem eq_orient (fl : K → K) (hf : FloatExact fl) (a b c p : Vec3 K) (h : IntegerPoints 4096 [a, b, c]) (sqrt : K → K) :
    (Plane.ofPts sqrt fl a b c).signedDistance p = orient a b c p / sqrt ((b - a).cross (c - a)).sqLength := by
  obtain ⟨ax, ay, az, rfl, a1, a2, a3⟩ := h a (by simp)
  obtain ⟨bx, by', bz, rfl, b1, b2, b3⟩ := h b (by simp)
  obtain ⟨cx, cy, cz, rfl, c1, c2, c3⟩ := h c (by simp)
  have e : ∀ x y : ℤ, |x| ≤ 4096 → |y| ≤ 4096 → fl ((x : K) * (y : K)) = x * y := fun x y hx hy => by
    have := hf (x * y) (by rw [abs_mul]; calc |x| * |y| ≤ 4096 * 4096 := mul_le_mul hx hy (abs_nonneg _) (by norm_num)
                           _ = 2 ^ 24 := by norm_num)
    rwa [Int.cast_mul] at this
  unfold Plane.signedDistance Plane.ofPts Plane.ofEquation computeDenominator planeEqFromPts
  dsimp only
  rw [e _ _ a2 b3, e _ _ b2 c3, e _ _ c2 a3]
  congr 1
  · unfold orient; ring
  · congr 1
    simp only [Vec3.sqLength, Vec3.cross, Vec3.sub_x, Vec3.sub_y, Vec3.sub_z]
    ring

omit [IsStrictOrderedRing K] in
private theorem orient_int (a b c p : Vec3 K) {B : ℤ} (h : IntegerPoints B [a, b, c, p]) : ∃ n : ℤ, orient a b c p = n := by
  obtain ⟨ax, ay, az, rfl, -⟩ := h a (by simp)
  obtain ⟨bx, by', bz, rfl, -⟩ := h b (by simp)
  obtain ⟨cx, cy, cz, rfl, -⟩ := h c (by simp)
  obtain ⟨px, py, pz, rfl, -⟩ := h p (by simp)
  refine ⟨(bx - ax) * ((cy - ay) * (pz - az) - (cz - az) * (py - ay)) + (by' - ay) * ((cz - az) * (px - ax) - (cx - ax) * (pz - az)) +
    (bz - az) * ((cx - ax) * (py - ay) - (cy - ay) * (px - ax)), ?_⟩
  unfold orient; push_cast; rfl

private theorem area_le (a b c : Vec3 K) (h : IntegerPoints 4096 [a, b, c]) : ((b - a).cross (c - a)).sqLength ≤ 3 * (2 * 8192 ^ 2) ^ 2 := by
  obtain ⟨ax, ay, az, rfl, a1, a2, a3⟩ := h a (by simp)
  obtain ⟨bx, by', bz, rfl, b1, b2, b3⟩ := h b (by simp)
  obtain ⟨cx, cy, cz, rfl, c1, c2, c3⟩ := h c (by simp)
  have d : ∀ x y : ℤ, |x| ≤ 4096 → |y| ≤ 4096 → |(x : K) - y| ≤ 8192 := fun x y hx hy => by
    rw [← Int.cast_sub, ← Int.cast_abs]
    have : |x - y| ≤ 8192 := (abs_sub _ _).trans (by linarith)
    exact_mod_cast this
  have m : ∀ x y z w : K, |x| ≤ 8192 → |y| ≤ 8192 → |z| ≤ 8192 → |w| ≤ 8192 → (x * y - z * w) * (x * y - z * w) ≤ (2 * 8192 ^ 2) ^ 2 := by
    intro x y z w hx hy hz hw
    have h1 : |x * y| ≤ 8192 * 8192 := by rw [abs_mul]; exact mul_le_mul hx hy (abs_nonneg _) (by norm_num)
    have h2 : |z * w| ≤ 8192 * 8192 := by rw [abs_mul]; exact mul_le_mul hz hw (abs_nonneg _) (by norm_num)
    have h3 : |x * y - z * w| ≤ 2 * 8192 ^ 2 := (abs_sub _ _).trans (by linarith)
    rw [← abs_mul_abs_self, sq]
    exact mul_le_mul h3 h3 (abs_nonneg _) (by norm_num)
  simp only [Vec3.sqLength, Vec3.cross, Vec3.sub_x, Vec3.sub_y, Vec3.sub_z]
  have x1 := d _ _ b1 a1
  have x2 := d _ _ b2 a2
  have x3 := d _ _ b3 a3
  have y1 := d _ _ c1 a1
  have y2 := d _ _ c2 a2
  have y3 := d _ _ c3 a3
  have e1 := m _ _ _ _ x2 y3 x3 y2
  have e2 := m _ _ _ _ x3 y1 x1 y3
  have e3 := m _ _ _ _ x1 y2 x2 y1
  linarith

/-- For small integer points of which no four are in a plane the test for coplanarity is right as soon as it looks at a fourth point: there are five of them. -/
private theorem not_coplanar {sqrt fl : K → K} (hsq : IsSqrt sqrt) (hf : FloatExact fl) (pts : List (Vec3 K)) (hn : 5 ≤ pts.length) (hi : IntegerPoints 4096 pts)
    (hc : NoFourCoplanar pts) : isPtsCoplanar sqrt fl pts (1 / 2 ^ 52) = false := by
  match pts, hn, hi, hc with
  | a :: b :: c :: d :: p :: rest, _, hi, hc =>
    rw [Bool.eq_false_iff]
    intro ht
    rw [C48_verdict] at ht
    have h := ht p (by simp)
    have hsub : ∀ q ∈ [a, b, c, p], q ∈ a :: b :: c :: d :: p :: rest := by simp
    have h3 : IntegerPoints 4096 [a, b, c] := fun q hq => hi q (hsub q (by simp at hq ⊢; tauto))
    have h4 : IntegerPoints 4096 [a, b, c, p] := fun q hq => hi q (hsub q hq)
    have h0 : orient a b c p ≠ 0 := hc 0 1 2 4 a b c p rfl rfl rfl rfl (by norm_num) (by norm_num) (by norm_num)
    rw [eq_orient fl hf a b c p h3] at h
    obtain ⟨n, e⟩ := orient_int a b c p h4
    have hn : (1 : K) ≤ |orient a b c p| := by
      rw [e] at h0 ⊢
      rw [← Int.cast_abs]
      exact_mod_cast Int.one_le_abs (by exact_mod_cast h0)
    have hpos : 0 < ((b - a).cross (c - a)).sqLength := by
      rcases (Geom.sqLength_nonneg ((b - a).cross (c - a))).lt_or_eq with h | h
      · exact h
      · refine absurd ?_ h0
        obtain ⟨x, y, z⟩ : ((b - a).cross (c - a)).x = 0 ∧ ((b - a).cross (c - a)).y = 0 ∧ ((b - a).cross (c - a)).z = 0 := by
          generalize (b - a).cross (c - a) = v at h
          unfold Vec3.sqLength at h
          refine ⟨?_, ?_, ?_⟩ <;> nlinarith [mul_self_nonneg v.x, mul_self_nonneg v.y, mul_self_nonneg v.z]
        simp only [Vec3.cross, Vec3.sub_x, Vec3.sub_y, Vec3.sub_z] at x y z
        unfold orient
        linear_combination (p.x - a.x) * x + (p.y - a.y) * y + (p.z - a.z) * z
    obtain ⟨s1, s2⟩ := hsq _ hpos
    have hs : sqrt ((b - a).cross (c - a)).sqLength ≤ 2 ^ 28 := by
      by_contra hs
      push Not at hs
      have := mul_lt_mul'' hs hs (by positivity) (by positivity)
      rw [s2] at this
      have := area_le a b c h3
      norm_num at *
      linarith
    rw [abs_div, abs_of_pos s1, div_lt_iff₀ s1] at h
    have : (1 : K) / 2 ^ 52 * sqrt ((b - a).cross (c - a)).sqLength < 1 := by
      calc (1 : K) / 2 ^ 52 * sqrt ((b - a).cross (c - a)).sqLength ≤ 1 / 2 ^ 52 * 2 ^ 28 := mul_le_mul_of_nonneg_left hs (by positivity)
        _ < 1 := by norm_num
    linarith

private theorem hull_three {u v w p : Vec3 K} (h : InHull [u, v, w] p) : ∃ s t : K, p = u + (v - u).smul s + (w - u).smul t := by
  obtain ⟨l, h1, -, h3, h4, h5, h6⟩ := h
  match l, h1 with
  | [r, s, t], _ =>
    simp only [List.sum_cons, List.sum_nil, List.zipWith_cons_cons, List.zipWith_nil_right] at h3 h4 h5 h6
    refine ⟨s, t, ?_⟩
    ext
    · simp only [Vec3.add_x, Vec3.smul, Vec3.sub_x]; linear_combination h4 + u.x * h3
    · simp only [Vec3.add_y, Vec3.smul, Vec3.sub_y]; linear_combination h5 + u.y * h3
    · simp only [Vec3.add_z, Vec3.smul, Vec3.sub_z]; linear_combination h6 + u.z * h3

private theorem four_of_space {hull pts : List (Vec3 K)} (h : ∀ p ∈ pts, InHull hull p) (hn : 4 ≤ pts.length) (hc : NoFourCoplanar pts) : 4 ≤ hull.length := by
  by_contra hl
  obtain ⟨u, v, w, hs⟩ : ∃ u v w : Vec3 K, ∀ q ∈ hull, q ∈ [u, v, w] := by
    match hull, hl with
    | [], _ => exact ⟨⟨0, 0, 0⟩, ⟨0, 0, 0⟩, ⟨0, 0, 0⟩, by simp⟩
    | [a], _ => exact ⟨a, a, a, by simp⟩
    | [a, b], _ => exact ⟨a, b, b, by simp⟩
    | [a, b, c], _ => exact ⟨a, b, c, by simp⟩
    | _ :: _ :: _ :: _ :: _, hl => simp at hl
  match pts, hn, h, hc with
  | a :: b :: c :: d :: rest, _, h, hc =>
    have key : ∀ p ∈ a :: b :: c :: d :: rest, ∃ s t : K, p = u + (v - u).smul s + (w - u).smul t :=
      fun p hp => hull_three (hull_mono (fun q hq => Geom.hull_mem (hs q hq)) (h p hp))
    obtain ⟨s1, t1, e1⟩ := key a (by simp)
    obtain ⟨s2, t2, e2⟩ := key b (by simp)
    obtain ⟨s3, t3, e3⟩ := key c (by simp)
    obtain ⟨s4, t4, e4⟩ := key d (by simp)
    refine hc 0 1 2 3 a b c d rfl rfl rfl rfl (by norm_num) (by norm_num) (by norm_num) ?_
    rw [e1, e2, e3, e4]
    simp only [orient, Vec3.add_x, Vec3.add_y, Vec3.add_z, Vec3.smul, Vec3.sub_x, Vec3.sub_y, Vec3.sub_z]
    ring

/-- **C107** (partial): five or more points with integer coordinates up to 4096 of which no four are in a plane: the answer is `VOLUME`, and the points added to the
vector are distinct input points, at least four, whose convex hull contains every input point; they are exactly the extreme points. Here Quickhull is not a parameter
but the modelled class. -/
theorem C107_integer_partial {sqrt fl : K → K} (hsq : IsSqrt sqrt) (hf : FloatExact fl) (sort : StdSort (Vec2 K)) (pts out : List (Vec3 K)) (hn : 5 ≤ pts.length)
    (hi : IntegerPoints 4096 pts) (hc : NoFourCoplanar pts) :
    ∃ hull, convexHull sqrt fl sort (quickHull sqrt false) pts out = .ok (.volume, out ++ hull) ∧ 4 ≤ hull.length ∧ hull.Nodup ∧ (∀ p ∈ hull, p ∈ pts) ∧
      (∀ p ∈ pts, InHull hull p) ∧ ∀ p ∈ pts, p ∈ hull ↔ ∀ l, (∀ v ∈ l, v ∈ pts ∧ v ≠ p) → ¬ InHull l p := by
  have hi' : IntegerPoints 10000000 pts := fun p hp => by
    obtain ⟨x, y, z, e, h1, h2, h3⟩ := hi p hp
    exact ⟨x, y, z, e, h1.trans (by norm_num), h2.trans (by norm_num), h3.trans (by norm_num)⟩
  obtain ⟨hull, h1, h2, h3, h4, h5⟩ := C111_hull_partial hsq pts out hn hi' hc
  have h6 := four_of_space h4 (by omega) hc
  refine ⟨hull, ?_, h6, h2, h3, h4, h5⟩
  have h0 : pts ≠ [] := by rintro rfl; simp at hn
  have ht := not_coplanar hsq hf pts hn hi hc
  rw [convexHull, if_neg (by simpa using h0), if_neg (by rw [show (machEps : K) = 1 / 2 ^ 52 from rfl, ht]; simp), h1]
  congr 2
  rw [List.length_append]
  obtain ⟨m, hm⟩ : ∃ m, out.length + hull.length = m + 4 := ⟨out.length + hull.length - 4, by omega⟩
  rw [hm]; rfl

/-- The hypotheses hold for sixteen points on a twisted cubic. -/
example : IsSqrt Real.sqrt ∧ FloatExact (id : ℝ → ℝ) ∧ 5 ≤ (cubic 16 : List (Vec3 ℝ)).length ∧ IntegerPoints 4096 (cubic 16 : List (Vec3 ℝ)) ∧
    NoFourCoplanar (cubic 16 : List (Vec3 ℝ)) := by
  refine ⟨real_isSqrt, fun _ _ => rfl, by simp [cubic], fun p hp => ?_, cubic_general 16⟩
  obtain ⟨t, ht, rfl⟩ := List.mem_map.mp hp
  have h : t ≤ 16 := (List.mem_range.mp ht).le
  have h2 : t ^ 2 ≤ 16 ^ 2 := Nat.pow_le_pow_left h 2
  have h3 : t ^ 3 ≤ 16 ^ 3 := Nat.pow_le_pow_left h 3
  refine ⟨t, t ^ 2, t ^ 3, by push_cast; rfl, ?_, ?_, ?_⟩
  · rw [abs_of_nonneg (by positivity)]; exact_mod_cast h.trans (by norm_num)
  · rw [abs_of_nonneg (by positivity)]; exact_mod_cast h2.trans (by norm_num)
  · rw [abs_of_nonneg (by positivity)]; exact_mod_cast h3

end Cmm.Hull3d
