import Verif.Model.Plane
import Verif.Lemmas.ClosestPoint
import Verif.Spec.Newton
import Mathlib.Algebra.Order.Ring.Rat
import Mathlib.Algebra.Field.Rat
import Mathlib.Analysis.Real.Sqrt
/-!
Properties of cmmcore/plane.h: C47, C48, C70.
-/
namespace Cmm.Geom
open Cmm.Newton (IsSqrt)
variable {K : Type} [Field K] [LinearOrder K] [IsStrictOrderedRing K]

/-! ### C47: construction -/

omit [LinearOrder K] [IsStrictOrderedRing K] in
/-- C47: what the conversion of three products to `float` does to the plane through three points: with rounding errors `e3`, `e4`,
`e5` the points miss the plane by these amounts. -/
theorem C47_residual (fl : K → K) (a b c : Vec3 K) :
    let e3 := fl (a.y * b.z) - a.y * b.z
    let e4 := fl (b.y * c.z) - b.y * c.z
    let e5 := fl (c.y * a.z) - c.y * a.z
    planeSignedDistance a (planeEqFromPts fl a b c) = e3 * (a.x - c.x) + e5 * (a.x - b.x) ∧
    planeSignedDistance b (planeEqFromPts fl a b c) = e3 * (b.x - c.x) + e4 * (b.x - a.x) ∧
    planeSignedDistance c (planeEqFromPts fl a b c) = e4 * (c.x - a.x) + e5 * (c.x - b.x) := by
  simp only [planeSignedDistance, planeEqFromPts]
  refine ⟨?_, ?_, ?_⟩ <;> ring

/-- **C47** (three points): if the three products are exact in `float`, the plane through three points contains them; if the points are
not on one line, it is a proper plane, and it contains exactly the points whose difference to the first one is a combination of the
edges. -/
theorem C47_three_points_partial (fl : K → K) (a b c : Vec3 K) (h3 : fl (a.y * b.z) = a.y * b.z) (h4 : fl (b.y * c.z) = b.y * c.z)
    (h5 : fl (c.y * a.z) = c.y * a.z) :
    OnPlane (planeEqFromPts fl a b c) a ∧ OnPlane (planeEqFromPts fl a b c) b ∧ OnPlane (planeEqFromPts fl a b c) c ∧
      (¬ Collinear a b c → ∀ q, OnPlane (planeEqFromPts fl a b c) q ↔
        ∃ s t, q = ⟨a.x + s * (b.x - a.x) + t * (c.x - a.x), a.y + s * (b.y - a.y) + t * (c.y - a.y),
          a.z + s * (b.z - a.z) + t * (c.z - a.z)⟩) := by
  simp only [OnPlane, planeEqFromPts, h3, h4, h5]
  refine ⟨by ring, by ring, by ring, fun hc q => ⟨fun hq => ?_, ?_⟩⟩
  · have hN := gram_pos hc
    have hE : (q - a).dot ((b - a).cross (c - a)) = 0 := by
      simp only [Vec3.dot, Vec3.cross, Vec3.sub_x, Vec3.sub_y, Vec3.sub_z]; linear_combination hq
    set u := b - a with hu
    set v := c - a with hv
    set w := q - a with hw
    refine ⟨(w.dot u * v.dot v - w.dot v * u.dot v) / (u.dot u * v.dot v - u.dot v * u.dot v),
      (w.dot v * u.dot u - w.dot u * u.dot v) / (u.dot u * v.dot v - u.dot v * u.dot v), ?_⟩
    have hs := div_mul_cancel₀ (w.dot u * v.dot v - w.dot v * u.dot v) hN.ne'
    have ht := div_mul_cancel₀ (w.dot v * u.dot u - w.dot u * u.dot v) hN.ne'
    generalize (w.dot u * v.dot v - w.dot v * u.dot v) / (u.dot u * v.dot v - u.dot v * u.dot v) = s at hs ⊢
    generalize (w.dot v * u.dot u - w.dot u * u.dot v) / (u.dot u * v.dot v - u.dot v * u.dot v) = t at ht ⊢
    have ex : b.x - a.x = u.x := rfl
    have ey : b.y - a.y = u.y := rfl
    have ez : b.z - a.z = u.z := rfl
    have fx : c.x - a.x = v.x := rfl
    have fy : c.y - a.y = v.y := rfl
    have fz : c.z - a.z = v.z := rfl
    have gx : q.x = a.x + w.x := by rw [hw]; simp
    have gy : q.y = a.y + w.y := by rw [hw]; simp
    have gz : q.z = a.z + w.z := by rw [hw]; simp
    clear_value u v w
    simp only [Vec3.dot, Vec3.cross] at hs ht hE hN
    ext
    · dsimp only; rw [ex, fx, gx]
      apply mul_right_cancel₀ hN.ne'
      linear_combination (-u.x) * hs - v.x * ht + (u.y * v.z - u.z * v.y) * hE
    · dsimp only; rw [ey, fy, gy]
      apply mul_right_cancel₀ hN.ne'
      linear_combination (-u.y) * hs - v.y * ht + (u.z * v.x - u.x * v.z) * hE
    · dsimp only; rw [ez, fz, gz]
      apply mul_right_cancel₀ hN.ne'
      linear_combination (-u.z) * hs - v.z * ht + (u.x * v.y - u.y * v.x) * hE
  · rintro ⟨s, t, rfl⟩
    dsimp only
    ring

example : (id ((1 : ℚ) * 2) = 1 * 2) ∧ ¬ Collinear (⟨0, 0, 0⟩ : Vec3 ℚ) ⟨1, 0, 0⟩ ⟨0, 1, 1⟩ := by
  unfold Collinear; decide +kernel

/-- C47: a case where `float` rounding (16777217 is not a `float`) moves the plane off its own first point. -/
theorem C47_float_counterexample : ∃ (fl : ℚ → ℚ) (a b c : Vec3 ℚ), fl 16777217 = 16777216 ∧ fl 0 = 0 ∧ ¬ Collinear a b c ∧
    ¬ OnPlane (planeEqFromPts fl a b c) a := by
  refine ⟨fun x => if x = 16777217 then 16777216 else x, ⟨0, 16777217, 0⟩, ⟨0, 0, 1⟩, ⟨1, 0, 0⟩, by decide +kernel, by decide +kernel, ?_, ?_⟩
  · unfold Collinear; decide +kernel
  · unfold OnPlane; decide +kernel

/-- The data of a plane fit together: positive length of the normal coefficients, and the unit normal. -/
def Coherent (p : Plane K) : Prop :=
  0 < p.denominator ∧ p.denominator * p.denominator = p.equation.x ^ 2 + p.equation.y ^ 2 + p.equation.z ^ 2 ∧
    p.normal.x * p.denominator = p.equation.x ∧ p.normal.y * p.denominator = p.equation.y ∧ p.normal.z * p.denominator = p.equation.z

theorem coherent_ofEquation {sqrt : K → K} (hs : IsSqrt sqrt) (e : Vec4 K) (h : 0 < e.x ^ 2 + e.y ^ 2 + e.z ^ 2) :
    Coherent (Plane.ofEquation sqrt e) := by
  have h' : 0 < e.x * e.x + e.y * e.y + e.z * e.z := by linear_combination h
  obtain ⟨h1, h2⟩ := hs _ h'
  refine ⟨h1, ?_, ?_, ?_, ?_⟩
  · show sqrt _ * sqrt _ = _
    rw [h2]; show _ = e.x ^ 2 + e.y ^ 2 + e.z ^ 2; ring
  all_goals exact div_mul_cancel₀ _ h1.ne'

/-- C47: every constructor yields the stored equation with a matching unit normal and denominator, if the normal is not zero. -/
theorem C47_constructors {sqrt : K → K} (hs : IsSqrt sqrt) :
    (∀ a b c d, 0 < a ^ 2 + b ^ 2 + c ^ 2 → Coherent (Plane.ofCoeffs sqrt a b c d) ∧ (Plane.ofCoeffs sqrt a b c d).equation = ⟨a, b, c, d⟩) ∧
    (∀ n : Vec3 K, 0 < n.sqLength → Coherent (Plane.ofNormal sqrt n) ∧ (Plane.ofNormal sqrt n).equation = ⟨n.x, n.y, n.z, 0⟩ ∧
      OnPlane (Plane.ofNormal sqrt n).equation (Plane.ofNormal sqrt n).origin) ∧
    (∀ o n : Vec3 K, 0 < n.sqLength → Coherent (Plane.ofOriginNormal sqrt o n) ∧ (Plane.ofOriginNormal sqrt o n).origin = o) ∧
    (∀ fl a b c, 0 < (planeEqFromPts fl a b c).x ^ 2 + (planeEqFromPts fl a b c).y ^ 2 + (planeEqFromPts fl a b c).z ^ 2 →
      Coherent (Plane.ofPts sqrt fl a b c) ∧ (Plane.ofPts sqrt fl a b c).equation = planeEqFromPts fl a b c) ∧
    Coherent (Plane.default : Plane K) := by
  refine ⟨fun a b c d h => ⟨coherent_ofEquation hs _ h, rfl⟩, fun n h => ⟨?_, rfl, ?_⟩, fun o n h => ⟨?_, rfl⟩,
    fun fl a b c h => ⟨coherent_ofEquation hs _ h, rfl⟩, ?_⟩
  · obtain ⟨h1, h2⟩ := hs _ h
    refine ⟨h1, ?_, div_mul_cancel₀ _ h1.ne', div_mul_cancel₀ _ h1.ne', div_mul_cancel₀ _ h1.ne'⟩
    show sqrt _ * sqrt _ = n.x ^ 2 + n.y ^ 2 + n.z ^ 2
    rw [h2]; unfold Vec3.sqLength; ring
  · simp [OnPlane, Plane.ofNormal]
  · obtain ⟨h1, h2⟩ := hs _ h
    refine ⟨h1, ?_, div_mul_cancel₀ _ h1.ne', div_mul_cancel₀ _ h1.ne', div_mul_cancel₀ _ h1.ne'⟩
    show sqrt _ * sqrt _ = n.x ^ 2 + n.y ^ 2 + n.z ^ 2
    rw [h2]; unfold Vec3.sqLength; ring
  · simp [Coherent, Plane.default]

/-- C47: the default plane is `z = 0` through the origin, with the signed distance `z`. -/
theorem C47_default : (∀ p : Vec3 K, (Plane.default : Plane K).signedDistance p = p.z) ∧ (Plane.default : Plane K).normal = ⟨0, 0, 1⟩ ∧
    (Plane.default : Plane K).origin = ⟨0, 0, 0⟩ ∧ ∀ p : Vec3 K, OnPlane (Plane.default : Plane K).equation p ↔ p.z = 0 := by
  refine ⟨fun p => ?_, rfl, rfl, fun p => ?_⟩
  · simp [Plane.signedDistance, Plane.default]
  · simp [OnPlane, Plane.default]

theorem real_isSqrt : IsSqrt Real.sqrt := fun _ hx => ⟨Real.sqrt_pos.2 hx, Real.mul_self_sqrt hx.le⟩

example : IsSqrt Real.sqrt ∧ (0 : ℝ) < (⟨1, 2, 2⟩ : Vec3 ℝ).sqLength := ⟨real_isSqrt, by unfold Vec3.sqLength; norm_num⟩

/-- C47: the plane built from an origin and a normal does not contain the origin unless the x and y parts cancel: its offset is this. -/
theorem C47_origin_normal {sqrt : K → K} (hs : IsSqrt sqrt) (o n : Vec3 K) (h : 0 < n.sqLength) :
    OnPlane (Plane.ofOriginNormal sqrt o n).equation (Plane.ofOriginNormal sqrt o n).origin ↔ n.x * o.x + n.y * o.y = 0 := by
  simp only [OnPlane, Plane.ofOriginNormal]
  constructor <;> intro h' <;> linear_combination h'

theorem C47_origin_normal_counterexample (sqrt : ℚ → ℚ) :
    ¬ OnPlane (Plane.ofOriginNormal sqrt ⟨1, 0, 0⟩ ⟨1, 0, 0⟩).equation ⟨1, 0, 0⟩ := by
  simp [OnPlane, Plane.ofOriginNormal]

/-- C47: the origin stored by the coefficient and three-point constructors is on the plane only if the plane contains the coordinate
origin: its signed distance is `w (|n| + 1) / |n|`. -/
theorem C47_coefficient_origin {sqrt : K → K} (hs : IsSqrt sqrt) (e : Vec4 K) (h : 0 < e.x ^ 2 + e.y ^ 2 + e.z ^ 2) :
    (Plane.ofEquation sqrt e).signedDistance (Plane.ofEquation sqrt e).origin =
      e.w * ((Plane.ofEquation sqrt e).denominator + 1) / (Plane.ofEquation sqrt e).denominator ∧
    (OnPlane e (Plane.ofEquation sqrt e).origin ↔ e.w = 0) := by
  obtain ⟨h1, h2, h3, h4, h5⟩ := coherent_ofEquation hs e h
  have hd := h1.ne'
  have hval : e.x * (Plane.ofEquation sqrt e).origin.x + e.y * (Plane.ofEquation sqrt e).origin.y +
      e.z * (Plane.ofEquation sqrt e).origin.z + e.w = e.w * ((Plane.ofEquation sqrt e).denominator + 1) := by
    have ho : (Plane.ofEquation sqrt e).origin = (Plane.ofEquation sqrt e).normal.smul e.w := rfl
    have hq : (Plane.ofEquation sqrt e).equation = e := rfl
    rw [hq] at h2 h3 h4 h5
    rw [ho]
    generalize (Plane.ofEquation sqrt e).normal = n at *
    generalize (Plane.ofEquation sqrt e).denominator = D at *
    simp only [Vec3.smul_x, Vec3.smul_y, Vec3.smul_z]
    apply mul_right_cancel₀ hd
    linear_combination e.x * e.w * h3 + e.y * e.w * h4 + e.z * e.w * h5 - e.w * h2
  constructor
  · unfold Plane.signedDistance
    rw [← hval]
    congr 1
    show _ * e.x + _ * e.y + _ * e.z + e.w = _
    ring
  · unfold OnPlane
    rw [hval, mul_eq_zero]
    constructor
    · rintro (h | h)
      · exact h
      · exact absurd h (by linarith)
    · exact Or.inl

/-- **C47** (distance): for a proper plane the absolute value of `signedDistance` is the distance to the plane: there is a point of the
plane at that distance and none closer; the sign is that of the equation value. -/
theorem C47_signed_distance_partial (p : Plane K) (h : Coherent p) (pt : Vec3 K) :
    (∃ foot, OnPlane p.equation foot ∧ sqDist pt foot = p.signedDistance pt ^ 2) ∧
    (∀ q, OnPlane p.equation q → p.signedDistance pt ^ 2 ≤ sqDist pt q) ∧
    p.signedDistance pt * p.denominator = planeSignedDistance pt p.equation := by
  obtain ⟨h1, h2, h3, h4, h5⟩ := h
  have hd := h1.ne'
  have hS : p.signedDistance pt * p.denominator = planeSignedDistance pt p.equation := by
    unfold Plane.signedDistance planeSignedDistance
    rw [div_mul_cancel₀ _ hd]; ring
  generalize p.signedDistance pt = S at *
  obtain ⟨D, e, n, o⟩ := p
  dsimp only at *
  unfold planeSignedDistance at hS
  refine ⟨⟨pt - n.smul S, ?_, ?_⟩, fun q hq => ?_, hS⟩
  · unfold OnPlane
    simp only [Vec3.sub_x, Vec3.sub_y, Vec3.sub_z, Vec3.smul_x, Vec3.smul_y, Vec3.smul_z]
    apply mul_right_cancel₀ hd
    linear_combination (-D) * hS - S * e.x * h3 - S * e.y * h4 - S * e.z * h5 + S * h2
  · simp only [sqDist, Vec3.sub_x, Vec3.sub_y, Vec3.sub_z, Vec3.smul_x, Vec3.smul_y, Vec3.smul_z]
    have : (n.x ^ 2 + n.y ^ 2 + n.z ^ 2) * (D * D) = 1 * (D * D) := by
      rw [one_mul]; nth_rewrite 2 [h2]; rw [← h3, ← h4, ← h5]; ring
    have := mul_right_cancel₀ (mul_ne_zero hd hd) this
    linear_combination S ^ 2 * this
  · unfold OnPlane at hq
    have hv : S * D = e.x * (pt.x - q.x) + e.y * (pt.y - q.y) + e.z * (pt.z - q.z) := by linear_combination hS + hq
    have cs : (S * D) ^ 2 ≤ (D * D) * sqDist pt q := by
      rw [hv, h2]; unfold sqDist
      have c1 := mul_self_nonneg (e.x * (pt.y - q.y) - e.y * (pt.x - q.x))
      have c2 := mul_self_nonneg (e.x * (pt.z - q.z) - e.z * (pt.x - q.x))
      have c3 := mul_self_nonneg (e.y * (pt.z - q.z) - e.z * (pt.y - q.y))
      linear_combination c1 + c2 + c3
    have : S ^ 2 * (D * D) ≤ sqDist pt q * (D * D) := by linear_combination cs
    exact le_of_mul_le_mul_right this (mul_pos h1 h1)

omit [IsStrictOrderedRing K] in
/-- C47: the overload for many points computes the distance of each. -/
theorem C47_signed_distances (p : Plane K) (pts : List (Vec3 K)) :
    (p.signedDistances pts).length = pts.length ∧
      ∀ (i : Nat) (h : i < pts.length), (p.signedDistances pts)[i]? = some (p.signedDistance pts[i]) := by
  refine ⟨by simp [Plane.signedDistances], fun i h => ?_⟩
  simp [Plane.signedDistances, h]

/-! ### C47: intersections -/

theorem planeEps_pos : (0 : K) < planeEps := by unfold planeEps; positivity
theorem machEps_pos : (0 : K) < machEps := by unfold machEps; positivity

theorem c47_ray_partial_aux (p : Plane K) (start dir : Vec3 K) :
    let D := p.equation.x * dir.x + p.equation.y * dir.y + p.equation.z * dir.z
    (planeEps ≤ |D| → ∃ pt, p.rayIntersection start dir = some pt ∧ OnPlane p.equation pt ∧ (∃ t, pt = start + dir.smul t) ∧
      ∀ t, OnPlane p.equation (start + dir.smul t) → start + dir.smul t = pt) ∧
    (|D| < planeEps → (p.rayIntersection start dir = if |planeSignedDistance start p.equation| < planeEps then some start else none)) := by
  intro D
  have hN : |-(p.equation.x * start.x + p.equation.y * start.y + p.equation.z * start.z + p.equation.w)| =
      |planeSignedDistance start p.equation| := abs_neg _
  constructor
  · intro h
    have hD : D ≠ 0 := by rintro h0; rw [h0, abs_zero] at h; exact absurd h (not_le.2 planeEps_pos)
    unfold Plane.rayIntersection
    dsimp only
    rw [if_neg (not_lt.2 h)]
    refine ⟨_, rfl, ?_, ⟨_, rfl⟩, fun t ht => ?_⟩
    · show p.equation.x * (start.x + dir.x * (_ / D)) + p.equation.y * (start.y + dir.y * (_ / D)) +
        p.equation.z * (start.z + dir.z * (_ / D)) + p.equation.w = 0
      have := div_mul_cancel₀ (-(p.equation.x * start.x + p.equation.y * start.y + p.equation.z * start.z + p.equation.w)) hD
      generalize _ / D = t at this ⊢
      linear_combination this
    · have e : t = -(p.equation.x * start.x + p.equation.y * start.y + p.equation.z * start.z + p.equation.w) / D := by
        rw [eq_div_iff hD]
        simp only [OnPlane, Vec3.add_x, Vec3.add_y, Vec3.add_z, Vec3.smul_x, Vec3.smul_y, Vec3.smul_z] at ht
        linear_combination ht
      rw [e]
  · intro h
    unfold Plane.rayIntersection
    dsimp only
    rw [if_pos h, hN]

/-- **C47** (ray): the result of `planeRayIntersection`. If the direction is not parallel to the plane (slope at least 1e-8), it is the only
point of the line in the plane. Otherwise the start is returned if its equation value is below 1e-8, and nothing if it is not. -/
theorem C47_ray_partial (p : Plane K) (start dir : Vec3 K) :
    let D := p.equation.x * dir.x + p.equation.y * dir.y + p.equation.z * dir.z
    ((1 / 10 ^ 8 : K) ≤ |D| → ∃ pt, p.rayIntersection start dir = some pt ∧ OnPlane p.equation pt ∧ (∃ t, pt = start + dir.smul t) ∧
      ∀ t, OnPlane p.equation (start + dir.smul t) → start + dir.smul t = pt) ∧
    (|D| < (1 / 10 ^ 8 : K) → (p.rayIntersection start dir = if |planeSignedDistance start p.equation| < (1 / 10 ^ 8 : K) then some start else none)) := by
  apply c47_ray_partial_aux <;> assumption

example : (planeEps : ℚ) ≤ |(1 : ℚ) * 1 + 0 * 1 + 0 * 1| := by unfold planeEps; norm_num

theorem c47_segment_partial_aux (p : Plane K) (start stop : Vec3 K) :
    let D := p.equation.x * (stop.x - start.x) + p.equation.y * (stop.y - start.y) + p.equation.z * (stop.z - start.z)
    (machEps ≤ |D| → ∀ pt, p.lineIntersection start stop = some pt ↔ (OnPlane p.equation pt ∧ OnSegment start stop pt)) ∧
    (|D| < machEps → (p.lineIntersection start stop = if |planeSignedDistance start p.equation| < machEps then some start else none)) := by
  intro D
  have hN : |-(p.equation.x * start.x + p.equation.y * start.y + p.equation.z * start.z + p.equation.w)| =
      |planeSignedDistance start p.equation| := abs_neg _
  have ea : ∀ t, start + (stop - start).smul t = along start stop t := by
    intro t
    ext <;> simp only [along, Vec3.add_x, Vec3.add_y, Vec3.add_z, Vec3.sub_x, Vec3.sub_y, Vec3.sub_z, Vec3.smul_x, Vec3.smul_y, Vec3.smul_z] <;> ring
  constructor
  · intro h pt
    have hD : D ≠ 0 := by rintro h0; rw [h0, abs_zero] at h; exact absurd h (not_le.2 machEps_pos)
    have ht := div_mul_cancel₀ (-(p.equation.x * start.x + p.equation.y * start.y + p.equation.z * start.z + p.equation.w)) hD
    have huniq : ∀ s, OnPlane p.equation (along start stop s) ↔
        s = -(p.equation.x * start.x + p.equation.y * start.y + p.equation.z * start.z + p.equation.w) / D := by
      intro s
      rw [eq_div_iff hD]
      simp only [OnPlane, along]
      constructor <;> intro h <;> linear_combination h
    unfold Plane.lineIntersection
    dsimp only
    show (if |D| < machEps then _ else if _ / D < 0 ∨ _ / D > 1 then none else some (start + (stop - start).smul (_ / D))) = some pt ↔ _
    rw [if_neg (not_lt.2 h), ea]
    generalize _ / D = t at *
    constructor
    · intro hp
      split at hp
      · cases hp
      · rename_i hr
        rw [not_or, not_lt, not_lt] at hr
        cases hp
        exact ⟨(huniq _).2 rfl, t, hr.1, hr.2, rfl⟩
    · rintro ⟨h1, s, s0, s1, rfl⟩
      rw [huniq] at h1
      subst h1
      rw [if_neg]
      rintro (h | h)
      · exact absurd s0 (not_le.2 h)
      · exact absurd s1 (not_le.2 h)
  · intro h
    unfold Plane.lineIntersection
    dsimp only
    show (if |D| < machEps then _ else _) = _
    rw [if_pos h, hN]

/-- **C47** (segment): the result of `planeLineIntersection`. If the segment is not parallel to the plane (slope at least 2^-52) a point is
returned exactly if the segment meets the plane, and it is the only common point. Otherwise as for the ray. -/
theorem C47_segment_partial (p : Plane K) (start stop : Vec3 K) :
    let D := p.equation.x * (stop.x - start.x) + p.equation.y * (stop.y - start.y) + p.equation.z * (stop.z - start.z)
    ((1 / 2 ^ 52 : K) ≤ |D| → ∀ pt, p.lineIntersection start stop = some pt ↔ (OnPlane p.equation pt ∧ OnSegment start stop pt)) ∧
    (|D| < (1 / 2 ^ 52 : K) → (p.lineIntersection start stop = if |planeSignedDistance start p.equation| < (1 / 2 ^ 52 : K) then some start else none)) := by
  apply c47_segment_partial_aux <;> assumption

/-- C47: the eliminated coordinate is the first one with the largest coefficient. -/
theorem C47_maxIndex (e : Vec4 K) :
    (maxIndex e = 0 ↔ |e.y| ≤ |e.x| ∧ |e.z| ≤ |e.x|) ∧ (maxIndex e = 1 ↔ |e.x| < |e.y| ∧ |e.z| ≤ |e.y|) ∧
      (maxIndex e = 2 ↔ |e.x| < |e.z| ∧ |e.y| < |e.z|) := by
  unfold maxIndex
  dsimp only
  by_cases h1 : |e.y| > |e.x|
  · simp only [if_pos h1]
    by_cases h2 : |e.z| > |e.y|
    · simp only [if_pos h2]
      refine ⟨⟨fun h => by simp at h, fun h => ?_⟩, ⟨fun h => by simp at h, fun h => ?_⟩, fun _ => ⟨h1.trans h2, h2⟩, fun _ => by simp⟩
      · exact absurd h.1 (not_le.2 h1)
      · exact absurd h.2 (not_le.2 h2)
    · simp only [if_neg h2]
      refine ⟨⟨fun h => by simp at h, fun h => ?_⟩, ⟨fun h => ⟨h1, not_lt.1 h2⟩, fun _ => by simp⟩, fun h => by simp at h, fun h => ?_⟩
      · exact absurd h.1 (not_le.2 h1)
      · exact absurd h.2 h2
  · simp only [if_neg h1]
    by_cases h2 : |e.z| > |e.x|
    · simp only [if_pos h2]
      refine ⟨⟨fun h => by simp at h, fun h => ?_⟩, ⟨fun h => by simp at h, fun h => ?_⟩, fun _ => ⟨h2, lt_of_le_of_lt (not_lt.1 h1) h2⟩, fun _ => by simp⟩
      · exact absurd h.2 (not_le.2 h2)
      · exact absurd h.1 h1
    · simp only [if_neg h2]
      refine ⟨⟨fun _ => ⟨not_lt.1 h1, not_lt.1 h2⟩, fun _ => by simp⟩, ⟨fun h => by simp at h, fun h => ?_⟩, fun h => by simp at h, fun h => ?_⟩
      · exact absurd h.1 h1
      · exact absurd h.1 h2

/-- The direction of the line two planes have in common. -/
def crossEq (e f : Vec4 K) : Vec3 K := (⟨e.x, e.y, e.z⟩ : Vec3 K).cross ⟨f.x, f.y, f.z⟩

omit [LinearOrder K] [IsStrictOrderedRing K] in
theorem solve2 {a b c d e f : K} (h : a * d - c * b ≠ 0) :
    a * ((d * -e - b * -f) / (a * d - c * b)) + b * ((a * -f - c * -e) / (a * d - c * b)) + e = 0 ∧
    c * ((d * -e - b * -f) / (a * d - c * b)) + d * ((a * -f - c * -e) / (a * d - c * b)) + f = 0 := by
  have hx := div_mul_cancel₀ (d * -e - b * -f) h
  have hy := div_mul_cancel₀ (a * -f - c * -e) h
  generalize (d * -e - b * -f) / (a * d - c * b) = x at *
  generalize (a * -f - c * -e) / (a * d - c * b) = y at *
  constructor <;> apply mul_right_cancel₀ h
  · linear_combination a * hx + b * hy
  · linear_combination c * hx + d * hy

/-- **C47** (two planes): what is returned are two different points of both planes. -/
theorem C47_two_planes_partial (p q : Plane K) (hp : Coherent p) (hq : Coherent q) (pt1 pt2 : Vec3 K)
    (h : p.planeIntersection q = some (pt1, pt2)) :
    OnPlane p.equation pt1 ∧ OnPlane q.equation pt1 ∧ OnPlane p.equation pt2 ∧ OnPlane q.equation pt2 ∧ pt1 ≠ pt2 := by
  obtain ⟨a1, a2, a3, a4, a5⟩ := hp
  obtain ⟨b1, b2, b3, b4, b5⟩ := hq
  have hdp : ∀ v : Vec3 K, OnPlane p.equation v → OnPlane p.equation (v + p.normal.cross q.normal) := by
    intro v hv
    simp only [OnPlane, Vec3.cross, Vec3.add_x, Vec3.add_y, Vec3.add_z] at hv ⊢
    rw [← a3, ← a4, ← a5] at hv ⊢
    linear_combination hv
  have hdq : ∀ v : Vec3 K, OnPlane q.equation v → OnPlane q.equation (v + p.normal.cross q.normal) := by
    intro v hv
    simp only [OnPlane, Vec3.cross, Vec3.add_x, Vec3.add_y, Vec3.add_z] at hv ⊢
    rw [← b3, ← b4, ← b5] at hv ⊢
    linear_combination hv
  have hne : ∀ v : Vec3 K, ¬ ((p.normal.cross q.normal).sqLength < machEps) → v ≠ v + p.normal.cross q.normal := by
    intro v hs he
    apply hs
    have hx := congrArg Vec3.x he; have hy := congrArg Vec3.y he; have hz := congrArg Vec3.z he
    rw [Vec3.add_x] at hx; rw [Vec3.add_y] at hy; rw [Vec3.add_z] at hz
    have hx' : (p.normal.cross q.normal).x = 0 := by linarith
    have hy' : (p.normal.cross q.normal).y = 0 := by linarith
    have hz' : (p.normal.cross q.normal).z = 0 := by linarith
    unfold Vec3.sqLength
    rw [hx', hy', hz']
    simp [machEps_pos]
  unfold Plane.planeIntersection at h
  dsimp only at h
  split at h
  · cases h
  rename_i hs
  have fin : ∀ (v : Vec3 K), OnPlane p.equation v → OnPlane q.equation v → some (v, v + p.normal.cross q.normal) = some (pt1, pt2) →
      OnPlane p.equation pt1 ∧ OnPlane q.equation pt1 ∧ OnPlane p.equation pt2 ∧ OnPlane q.equation pt2 ∧ pt1 ≠ pt2 := by
    intro v h1 h2 he
    cases he
    exact ⟨h1, h2, hdp _ h1, hdq _ h2, hne _ hs⟩
  have habs : ∀ d : K, ¬ (|d| < machEps) → d ≠ 0 := by
    intro d hd h0; rw [h0, abs_zero] at hd; exact hd machEps_pos
  split at h
  · split at h
    · cases h
    · rename_i hd
      have hd := habs _ hd
      obtain ⟨s1, s2⟩ := solve2 (e := p.equation.w) (f := q.equation.w) hd
      refine fin _ ?_ ?_ h <;> simp only [OnPlane]
      · linear_combination s1
      · linear_combination s2
  · split at h
    · split at h
      · cases h
      · rename_i hd
        have hd := habs _ hd
        obtain ⟨s1, s2⟩ := solve2 (e := p.equation.w) (f := q.equation.w) hd
        refine fin _ ?_ ?_ h <;> simp only [OnPlane]
        · linear_combination s1
        · linear_combination s2
    · split at h
      · cases h
      · rename_i hd
        have hd := habs _ hd
        obtain ⟨s1, s2⟩ := solve2 (e := p.equation.w) (f := q.equation.w) hd
        refine fin _ ?_ ?_ h <;> simp only [OnPlane]
        · linear_combination s1
        · linear_combination s2

omit [IsStrictOrderedRing K] in
theorem c47_two_planes_iff_aux (p q : Plane K) :
    (p.planeIntersection q).isSome = true ↔ machEps ≤ (p.normal.cross q.normal).sqLength ∧
      machEps ≤ |(crossEq p.equation q.equation).coord (maxIndex p.equation)| := by
  have e0 : (crossEq p.equation q.equation).coord 0 = p.equation.y * q.equation.z - q.equation.y * p.equation.z := by
    simp only [crossEq, Vec3.coord, Vec3.cross]; ring
  have e1 : |(crossEq p.equation q.equation).coord 1| = |p.equation.x * q.equation.z - q.equation.x * p.equation.z| := by
    rw [← abs_neg]; simp only [crossEq, Vec3.coord, Vec3.cross]; congr 1; ring
  have e2 : ∀ i, i ≠ 0 → i ≠ 1 → (crossEq p.equation q.equation).coord i = p.equation.x * q.equation.y - q.equation.x * p.equation.y := by
    intro i h0 h1
    match i, h0, h1 with
    | 0, h, _ => exact absurd rfl h
    | 1, _, h => exact absurd rfl h
    | _ + 2, _, _ => simp only [crossEq, Vec3.coord, Vec3.cross]; ring
  unfold Plane.planeIntersection
  dsimp only
  by_cases hs : (p.normal.cross q.normal).sqLength < machEps
  · rw [if_pos hs]
    simp [not_le.2 hs]
  rw [if_neg hs]
  rw [not_lt] at hs
  by_cases i0 : maxIndex p.equation = 0
  · rw [if_pos i0, i0, e0]
    split
    · rename_i h; simp [not_le.2 h]
    · rename_i h; simp [not_lt.1 h, hs]
  rw [if_neg i0]
  by_cases i1 : maxIndex p.equation = 1
  · rw [if_pos i1, i1, e1]
    split
    · rename_i h; simp [not_le.2 h]
    · rename_i h; simp [not_lt.1 h, hs]
  rw [if_neg i1, e2 _ i0 i1]
  split
  · rename_i h; simp [not_le.2 h]
  · rename_i h; simp [not_lt.1 h, hs]

omit [IsStrictOrderedRing K] in
/-- C47 (two planes): exactly when points are returned: the unit normals are not nearly parallel, and the coordinate of the common
direction at the largest coefficient of the first plane is not nearly zero. -/
theorem C47_two_planes_iff (p q : Plane K) :
    (p.planeIntersection q).isSome = true ↔ (1 / 2 ^ 52 : K) ≤ (p.normal.cross q.normal).sqLength ∧
      (1 / 2 ^ 52 : K) ≤ |(crossEq p.equation q.equation).coord (maxIndex p.equation)| := by
  apply c47_two_planes_iff_aux <;> assumption

/-- C47 (two planes): parallel planes have no intersection. -/
theorem C47_parallel_planes (p q : Plane K) (hp : Coherent p) (hq : Coherent q) (h : ParallelPlanes p.equation q.equation) :
    p.planeIntersection q = none := by
  rw [← Option.not_isSome_iff_eq_none, C47_two_planes_iff]
  rintro ⟨hc, -⟩
  obtain ⟨a1, a2, a3, a4, a5⟩ := hp
  obtain ⟨b1, b2, b3, b4, b5⟩ := hq
  obtain ⟨h1, h2, h3⟩ := h
  rw [← a3, ← a4, ← a5, ← b3, ← b4, ← b5] at *
  have hd := mul_ne_zero a1.ne' b1.ne'
  have e : p.normal.cross q.normal = 0 := by
    ext <;> simp only [Vec3.cross, Vec3.zero_x, Vec3.zero_y, Vec3.zero_z] <;> apply mul_right_cancel₀ hd <;> rw [zero_mul]
    · linear_combination h1
    · linear_combination h2
    · linear_combination h3
  rw [e] at hc
  simp only [Vec3.sqLength, Vec3.zero_x, Vec3.zero_y, Vec3.zero_z, mul_zero, add_zero] at hc
  exact absurd hc (not_le.2 machEps_pos)

/-- C47 (two planes): the planes z = 0 and x = 0 are not parallel, yet no intersection is found. -/
theorem C47_two_planes_counterexample :
    ∃ p q : Plane ℚ, Coherent p ∧ Coherent q ∧ ¬ ParallelPlanes p.equation q.equation ∧ p.planeIntersection q = none := by
  refine ⟨Plane.default, ⟨1, ⟨1, 0, 0, 0⟩, ⟨1, 0, 0⟩, 0⟩, ?_, ?_, ?_, ?_⟩
  · unfold Coherent; decide +kernel
  · unfold Coherent; decide +kernel
  · unfold ParallelPlanes; decide +kernel
  · rw [← Option.not_isSome_iff_eq_none, C47_two_planes_iff]
    unfold crossEq; decide +kernel

example : ∃ p q : Plane ℚ, Coherent p ∧ Coherent q ∧ (p.planeIntersection q).isSome = true := by
  refine ⟨⟨5, ⟨3, 4, 0, 1⟩, ⟨3/5, 4/5, 0⟩, 0⟩, ⟨13, ⟨0, 5, 12, 1⟩, ⟨0, 5/13, 12/13⟩, 0⟩, ?_, ?_, ?_⟩
  · unfold Coherent; decide +kernel
  · unfold Coherent; decide +kernel
  · rw [C47_two_planes_iff]
    unfold crossEq; decide +kernel

/-- The triple product of the three normals. -/
def tripleNormals (e f g : Vec4 K) : K := (⟨e.x, e.y, e.z⟩ : Vec3 K).dot ((⟨f.x, f.y, f.z⟩ : Vec3 K).cross ⟨g.x, g.y, g.z⟩)

theorem c47_three_planes_partial_aux (p q r : Plane K) (pt : Vec3 K) :
    p.threePlanes q r = some pt ↔ planeEps ≤ |tripleNormals p.equation q.equation r.equation| ∧
      OnPlane p.equation pt ∧ OnPlane q.equation pt ∧ OnPlane r.equation pt := by
  obtain ⟨_, ⟨a1, b1, c1, d1⟩, _, _⟩ := p
  obtain ⟨_, ⟨a2, b2, c2, d2⟩, _, _⟩ := q
  obtain ⟨_, ⟨a3, b3, c3, d3⟩, _, _⟩ := r
  simp only [Plane.threePlanes, OnPlane]
  have e : tripleNormals (⟨a1, b1, c1, d1⟩ : Vec4 K) ⟨a2, b2, c2, d2⟩ ⟨a3, b3, c3, d3⟩ = determinant3x3 a1 b1 c1 a2 b2 c2 a3 b3 c3 := by
    simp only [tripleNormals, determinant3x3, Vec3.dot, Vec3.cross]; ring
  rw [e]
  by_cases h : |determinant3x3 a1 b1 c1 a2 b2 c2 a3 b3 c3| < planeEps
  · rw [if_pos h]
    simp [not_le.2 h]
  rw [if_neg h]
  have hD : determinant3x3 a1 b1 c1 a2 b2 c2 a3 b3 c3 ≠ 0 := by
    intro h0; rw [h0, abs_zero] at h; exact h planeEps_pos
  rw [Option.some.injEq]
  constructor
  · rintro rfl
    refine ⟨not_lt.1 h, ?_, ?_, ?_⟩
    all_goals
      dsimp only
      apply mul_right_cancel₀ hD
      rw [zero_mul]
      field_simp
      unfold determinant3x3
      ring
  · rintro ⟨-, h1, h2, h3⟩
    ext
    · dsimp only; rw [div_eq_iff hD]; unfold determinant3x3
      linear_combination (-(b2 * c3 - c2 * b3)) * h1 + (b1 * c3 - c1 * b3) * h2 - (b1 * c2 - c1 * b2) * h3
    · dsimp only; rw [div_eq_iff hD]; unfold determinant3x3
      linear_combination (a2 * c3 - c2 * a3) * h1 - (a1 * c3 - c1 * a3) * h2 + (a1 * c2 - c1 * a2) * h3
    · dsimp only; rw [div_eq_iff hD]; unfold determinant3x3
      linear_combination (-(a2 * b3 - b2 * a3)) * h1 + (a1 * b3 - b1 * a3) * h2 - (a1 * b2 - b1 * a2) * h3

/-- **C47** (three planes): a point is returned exactly if the triple product of the normals is at least 1e-8 in absolute value, and it is
the only common point of the three planes. -/
theorem C47_three_planes_partial (p q r : Plane K) (pt : Vec3 K) :
    p.threePlanes q r = some pt ↔ (1 / 10 ^ 8 : K) ≤ |tripleNormals p.equation q.equation r.equation| ∧
      OnPlane p.equation pt ∧ OnPlane q.equation pt ∧ OnPlane r.equation pt := by
  apply c47_three_planes_partial_aux <;> assumption

/-! ### C48 -/

omit [IsStrictOrderedRing K] in
/-- C48: the verdict is the truth about all points but the fourth one. -/
theorem C48_verdict (sqrt fl : K → K) (p0 p1 p2 : Vec3 K) (rest : List (Vec3 K)) (eps : K) :
    isPtsCoplanar sqrt fl (p0 :: p1 :: p2 :: rest) eps = true ↔
      ∀ q ∈ rest.tail, |(Plane.ofPts sqrt fl p0 p1 p2).signedDistance q| < eps := by
  cases rest with
  | nil => simp [isPtsCoplanar]
  | cons a rest => simp [isPtsCoplanar, List.all_eq_true]

/-- **C48** (one direction): if all points are within `eps` of the plane of the first three, the answer is true; lists of up to three
points are always accepted. -/
theorem C48_complete_partial (sqrt fl : K → K) (pts : List (Vec3 K)) (eps : K)
    (h : ∀ p0 p1 p2 rest, pts = p0 :: p1 :: p2 :: rest → ∀ q ∈ rest, |(Plane.ofPts sqrt fl p0 p1 p2).signedDistance q| < eps) :
    isPtsCoplanar sqrt fl pts eps = true := by
  match pts, h with
  | [], _ => rfl
  | [_], _ => rfl
  | [_, _], _ => rfl
  | p0 :: p1 :: p2 :: rest, h =>
    rw [C48_verdict]
    exact fun q hq => h p0 p1 p2 rest rfl q (List.mem_of_mem_tail hq)

/-- C48: the fourth point is never looked at. -/
theorem C48_fourth_ignored (sqrt fl : K → K) (p0 p1 p2 a b : Vec3 K) (rest : List (Vec3 K)) (eps : K) :
    isPtsCoplanar sqrt fl (p0 :: p1 :: p2 :: a :: rest) eps = isPtsCoplanar sqrt fl (p0 :: p1 :: p2 :: b :: rest) eps := rfl

/-- C48: if the first three points are on one line, all points are accepted, wherever they are. (In the code the distances are then NaN, which is not at least
`eps`; in exact arithmetic they are zero.) -/
theorem C48_collinear_start (sqrt fl : K → K) (hf : ∀ x, fl x = x) (p0 p1 p2 : Vec3 K) (h : Collinear p0 p1 p2) (rest : List (Vec3 K)) (eps : K)
    (he : 0 < eps) : isPtsCoplanar sqrt fl (p0 :: p1 :: p2 :: rest) eps = true := by
  rw [C48_verdict]
  intro q _
  obtain ⟨h1, h2, h3⟩ := h
  have e : planeEqFromPts fl p0 p1 p2 = ⟨0, 0, 0, 0⟩ := by
    unfold planeEqFromPts
    simp only [hf]
    congr 1
    · linear_combination h1
    · linear_combination h2
    · linear_combination h3
    · linear_combination (-p0.x) * h1 - p0.y * h2 - p0.z * h3
  have : (Plane.ofPts sqrt fl p0 p1 p2).signedDistance q = 0 := by
    simp [Plane.signedDistance, Plane.ofPts, Plane.ofEquation, e]
  rw [this, abs_zero]
  exact he

example : Collinear (⟨0, 0, 0⟩ : Vec3 ℚ) ⟨1, 0, 0⟩ ⟨2, 0, 0⟩ ∧
    isPtsCoplanar id id [(⟨0, 0, 0⟩ : Vec3 ℚ), ⟨1, 0, 0⟩, ⟨2, 0, 0⟩, ⟨0, 1, 0⟩, ⟨0, 0, 1⟩, ⟨1, 1, 1⟩] (1 / 2 ^ 52) = true :=
  ⟨by unfold Collinear; decide +kernel, by decide +kernel⟩

/-- C48: the corners of a tetrahedron are reported as coplanar. -/
theorem C48_counterexample : ∃ pts : List (Vec3 ℚ), ∃ q ∈ pts, (∃ a b c, ¬ Collinear a b c ∧ a ∈ pts ∧ b ∈ pts ∧ c ∈ pts ∧
      ¬ OnPlane (planeEqFromPts id a b c) q) ∧ isPtsCoplanar id id pts 0 = true := by
  refine ⟨[⟨0, 0, 0⟩, ⟨1, 0, 0⟩, ⟨0, 1, 0⟩, ⟨0, 0, 1⟩], ⟨0, 0, 1⟩, by simp, ⟨⟨0, 0, 0⟩, ⟨1, 0, 0⟩, ⟨0, 1, 0⟩, ?_, by simp, by simp, by simp, ?_⟩, rfl⟩
  · unfold Collinear; decide +kernel
  · unfold OnPlane; decide +kernel

/-! ### C70 -/

/-- The two axes are orthonormal. -/
def Orthonormal (x y : Vec3 K) : Prop := x.dot x = 1 ∧ y.dot y = 1 ∧ x.dot y = 0

/-- **C70**: a coordinate plane built from an origin and two orthonormal axes: its normal is their cross product; the coordinates of
an evaluated point are the parameters and height 0, and every point is recovered from its coordinates, so `evaluateInv` inverts
`evaluate`. -/
theorem C70_round_trip_partial {sqrt : K → K} (hs : IsSqrt sqrt) (o x y : Vec3 K) (h : Orthonormal x y) :
    let p := CPlane.ofAxes sqrt o x y
    p.normal = x.cross y ∧ (∀ u v, p.evaluateInv (p.evaluate u v) = ⟨u, v, 0⟩) ∧
    (∀ q, q = p.evaluate (p.evaluateInv q).x (p.evaluateInv q).y + p.normal.smul (p.evaluateInv q).z) ∧
    (∀ q, sqDist q o = (p.evaluateInv q).sqLength) := by
  obtain ⟨hx, hy, hxy⟩ := h
  intro p
  have hlen : (x.cross y).sqLength = 1 := by
    have : (x.cross y).sqLength = x.dot x * y.dot y - x.dot y * x.dot y := by
      simp only [Vec3.dot, Vec3.cross, Vec3.sqLength]; ring
    rw [this, hx, hy, hxy]; ring
  have hsq : sqrt 1 = 1 := by
    obtain ⟨h1, h2⟩ := hs 1 one_pos
    have : (sqrt 1 - 1) * (sqrt 1 + 1) = 0 := by linear_combination h2
    rcases mul_eq_zero.1 this with h | h
    · linarith
    · linarith
  have hn : p.normal = x.cross y := by
    show (x.cross y).sdiv (sqrt (x.cross y).sqLength) = _
    rw [hlen, hsq]
    ext <;> simp
  have ho : p.origin = o := rfl
  have hpx : p.xaxis = x := rfl
  have hpy : p.yaxis = y := rfl
  have hq : ∀ q : Vec3 K, q = o + x.smul ((q - o).dot x) + y.smul ((q - o).dot y) + (x.cross y).smul ((q - o).dot (x.cross y)) := by
    intro q
    have key : ∀ w : Vec3 K, w = x.smul (w.dot x) + y.smul (w.dot y) + (x.cross y).smul (w.dot (x.cross y)) := by
      intro w
      have c1 : y.cross (x.cross y) = x := by
        simp only [Vec3.dot] at hy hxy
        ext <;> simp only [Vec3.cross]
        · linear_combination x.x * hy - y.x * hxy
        · linear_combination x.y * hy - y.y * hxy
        · linear_combination x.z * hy - y.z * hxy
      have c2 : (x.cross y).cross x = y := by
        simp only [Vec3.dot] at hx hxy
        ext <;> simp only [Vec3.cross]
        · linear_combination y.x * hx - x.x * hxy
        · linear_combination y.y * hx - x.y * hxy
        · linear_combination y.z * hx - x.z * hxy
      generalize hn' : x.cross y = n at *
      have t : ∀ a b : Vec3 K, x.dot (y.cross n) = 1 := fun _ _ => by rw [c1, hx]
      have t := t 0 0
      have hx1 : w.x * x.dot (y.cross n) = w.dot x * (y.cross n).x + w.dot y * (n.cross x).x + w.dot n * (x.cross y).x := by
        simp only [Vec3.dot, Vec3.cross]; ring
      have hy1 : w.y * x.dot (y.cross n) = w.dot x * (y.cross n).y + w.dot y * (n.cross x).y + w.dot n * (x.cross y).y := by
        simp only [Vec3.dot, Vec3.cross]; ring
      have hz1 : w.z * x.dot (y.cross n) = w.dot x * (y.cross n).z + w.dot y * (n.cross x).z + w.dot n * (x.cross y).z := by
        simp only [Vec3.dot, Vec3.cross]; ring
      rw [t, mul_one, c1, c2, hn'] at hx1 hy1 hz1
      ext <;> simp only [Vec3.add_x, Vec3.add_y, Vec3.add_z, Vec3.smul_x, Vec3.smul_y, Vec3.smul_z]
      · linear_combination hx1
      · linear_combination hy1
      · linear_combination hz1
    have hk := key (q - o)
    have kx := congrArg Vec3.x hk; have ky := congrArg Vec3.y hk; have kz := congrArg Vec3.z hk
    generalize (q - o).dot x = A at *
    generalize (q - o).dot y = B at *
    generalize (q - o).dot (x.cross y) = C at *
    simp only [Vec3.add_x, Vec3.add_y, Vec3.add_z, Vec3.sub_x, Vec3.sub_y, Vec3.sub_z, Vec3.smul_x, Vec3.smul_y, Vec3.smul_z] at kx ky kz
    ext <;> simp only [Vec3.add_x, Vec3.add_y, Vec3.add_z, Vec3.smul_x, Vec3.smul_y, Vec3.smul_z]
    · linear_combination kx
    · linear_combination ky
    · linear_combination kz
  refine ⟨hn, fun u v => ?_, fun q => ?_, fun q => ?_⟩
  · simp only [CPlane.evaluateInv, CPlane.evaluate, hn, ho, hpx, hpy]
    simp only [Vec3.dot] at hx hy hxy
    ext <;> simp only [Vec3.dot, Vec3.cross, Vec3.add_x, Vec3.add_y, Vec3.add_z, Vec3.sub_x, Vec3.sub_y, Vec3.sub_z, Vec3.smul_x, Vec3.smul_y, Vec3.smul_z]
    · linear_combination u * hx + v * hxy
    · linear_combination v * hy + u * hxy
    · ring
  · simp only [CPlane.evaluateInv, CPlane.evaluate, hn, ho, hpx, hpy]
    exact hq q
  · simp only [CPlane.evaluateInv, hn, ho, hpx, hpy]
    have hk := hq q
    have kx := congrArg Vec3.x hk; have ky := congrArg Vec3.y hk; have kz := congrArg Vec3.z hk
    have eA : (q - o).dot x = (q.x - o.x) * x.x + (q.y - o.y) * x.y + (q.z - o.z) * x.z := rfl
    have eB : (q - o).dot y = (q.x - o.x) * y.x + (q.y - o.y) * y.y + (q.z - o.z) * y.z := rfl
    have eC : (q - o).dot (x.cross y) = (q.x - o.x) * (x.cross y).x + (q.y - o.y) * (x.cross y).y + (q.z - o.z) * (x.cross y).z := rfl
    generalize (q - o).dot x = A at *
    generalize (q - o).dot y = B at *
    generalize (q - o).dot (x.cross y) = C at *
    generalize x.cross y = n at *
    simp only [Vec3.add_x, Vec3.add_y, Vec3.add_z, Vec3.smul_x, Vec3.smul_y, Vec3.smul_z] at kx ky kz
    simp only [sqDist, Vec3.sqLength]
    linear_combination (q.x - o.x) * kx + (q.y - o.y) * ky + (q.z - o.z) * kz - A * eA - B * eB - C * eC

example : Orthonormal (⟨3/5, 4/5, 0⟩ : Vec3 ℝ) ⟨0, 0, 1⟩ := by
  unfold Orthonormal Vec3.dot; norm_num

/-- C70: the default coordinate plane is z = 0 with the standard axes. -/
theorem C70_default : (CPlane.default : CPlane K).evaluate = (fun u v => ⟨u, v, 0⟩) ∧
    (CPlane.default : CPlane K).evaluateInv = fun q => q := by
  constructor
  · funext u v; ext <;> simp [CPlane.evaluate, CPlane.default, Plane.default]
  · funext q; ext <;> simp [CPlane.evaluateInv, CPlane.default, Plane.default, Vec3.dot]

/-- C70: the overload for many points computes the coordinates of each. -/
theorem C70_inverses (p : CPlane K) (pts : List (Vec3 K)) :
    (p.evaluateInvs pts).length = pts.length ∧
      ∀ (i : Nat) (h : i < pts.length), (p.evaluateInvs pts)[i]? = some (p.evaluateInv pts[i]) := by
  refine ⟨by simp [CPlane.evaluateInvs], fun i h => ?_⟩
  simp [CPlane.evaluateInvs, h]

/-- C70: the signed distance of a coordinate plane is the height above it only if its equation has no constant term; otherwise it is
off by `w / |n|`. -/
theorem C70_signed_distance (p : CPlane K) (h : Coherent p.toPlane) (pt : Vec3 K) :
    p.signedDistanceC pt = (p.evaluateInv pt).z + p.equation.w / p.denominator := by
  obtain ⟨h1, _, h3, h4, h5⟩ := h
  have hd := h1.ne'
  simp only [CPlane.signedDistanceC, Plane.signedDistance, CPlane.evaluateInv, Vec3.dot, ← h3, ← h4, ← h5]
  field_simp

/-- C70: so a coordinate plane can be at non-zero distance from its own origin. -/
theorem C70_signed_distance_counterexample {sqrt : ℚ → ℚ} (h : sqrt 1 = 1) :
    (CPlane.ofAxes sqrt ⟨0, 0, 1⟩ ⟨1, 0, 0⟩ ⟨0, 1, 0⟩).signedDistanceC ⟨0, 0, 1⟩ = -1 := by
  have : ((⟨1, 0, 0⟩ : Vec3 ℚ).cross ⟨0, 1, 0⟩) = ⟨0, 0, 1⟩ := by decide +kernel
  simp only [CPlane.signedDistanceC, CPlane.ofAxes, this, Plane.ofOriginNormal, Plane.signedDistance, Vec3.sqLength]
  norm_num [h]

theorem c70_unitize_aux {sqrt : K → K} (hs : IsSqrt sqrt) (v : Vec3 K) :
    (1 + machEps < sqrt v.sqLength → 0 < v.sqLength → (unitize3 sqrt v).sqLength = 1 ∧
      v = (unitize3 sqrt v).smul (sqrt v.sqLength)) ∧
    (sqrt v.sqLength ≤ 1 + machEps → unitize3 sqrt v = v) := by
  have hm := machEps_pos (K := K)
  constructor
  · intro h hv
    obtain ⟨h1, h2⟩ := hs _ hv
    have hd := h1.ne'
    have e : unitize3 sqrt v = ⟨v.x / sqrt v.sqLength, v.y / sqrt v.sqLength, v.z / sqrt v.sqLength⟩ := by
      unfold unitize3
      dsimp only
      rw [if_neg]
      rintro (h' | h') <;> linarith
    rw [e]
    constructor
    · show v.x / _ * (v.x / _) + v.y / _ * (v.y / _) + v.z / _ * (v.z / _) = 1
      have : v.x / sqrt v.sqLength * (v.x / sqrt v.sqLength) + v.y / sqrt v.sqLength * (v.y / sqrt v.sqLength) +
          v.z / sqrt v.sqLength * (v.z / sqrt v.sqLength) = v.sqLength / (sqrt v.sqLength * sqrt v.sqLength) := by
        rw [Vec3.sqLength]; field_simp
      rw [this, h2, div_self hv.ne']
    · ext <;> simp only [Vec3.smul_x, Vec3.smul_y, Vec3.smul_z] <;> rw [div_mul_cancel₀ _ hd]
  · intro h
    unfold unitize3
    dsimp only
    rw [if_pos (Or.inr (by linarith))]

/-- C70: what `unitize` does: a vector longer than 1 (by more than epsilon) gets length 1 and keeps its direction; all others are
left unchanged. -/
theorem C70_unitize {sqrt : K → K} (hs : IsSqrt sqrt) (v : Vec3 K) :
    (1 + (1 / 2 ^ 52 : K) < sqrt v.sqLength → 0 < v.sqLength → (unitize3 sqrt v).sqLength = 1 ∧
      v = (unitize3 sqrt v).smul (sqrt v.sqLength)) ∧
    (sqrt v.sqLength ≤ 1 + (1 / 2 ^ 52 : K) → unitize3 sqrt v = v) := by
  apply c70_unitize_aux <;> assumption

example : ∃ v : Vec3 ℝ, 0 < v.sqLength ∧ 1 + machEps < Real.sqrt v.sqLength := by
  refine ⟨⟨2, 0, 0⟩, by unfold Vec3.sqLength; norm_num, ?_⟩
  have : (⟨2, 0, 0⟩ : Vec3 ℝ).sqLength = 2 ^ 2 := by unfold Vec3.sqLength; norm_num
  rw [this, Real.sqrt_sq (by norm_num)]
  unfold machEps; norm_num

/-- C70: a coordinate plane through three points near the origin has axes that are not unit vectors, so `evaluate` and `evaluateInv`
are not inverse to each other: here the x axis has length 1/2. -/
theorem C70_three_points_counterexample :
    ∃ (p : CPlane ℝ), p = CPlane.ofPts Real.sqrt id ⟨1/2, 0, 0⟩ ⟨0, 1, 0⟩ ⟨0, 0, 0⟩ ∧ p.evaluateInv (p.evaluate 1 0) ≠ ⟨1, 0, 0⟩ := by
  refine ⟨_, rfl, ?_⟩
  have hq : planeEqFromPts id (⟨1/2, 0, 0⟩ : Vec3 ℝ) ⟨0, 1, 0⟩ ⟨0, 0, 0⟩ = ⟨0, 0, 1/2, 0⟩ := by
    simp [planeEqFromPts]
  have hp : Plane.ofPts Real.sqrt id (⟨1/2, 0, 0⟩ : Vec3 ℝ) ⟨0, 1, 0⟩ ⟨0, 0, 0⟩ = ⟨1/2, ⟨0, 0, 1/2, 0⟩, ⟨0, 0, 1⟩, ⟨0, 0, 0⟩⟩ := by
    have hsq : Real.sqrt (0 * 0 + 0 * 0 + 1 / 2 * (1 / 2)) = 1 / 2 := by
      rw [show (0 * 0 + 0 * 0 + 1 / 2 * (1 / 2) : ℝ) = (1 / 2) ^ 2 by norm_num, Real.sqrt_sq (by norm_num)]
    simp only [Plane.ofPts, hq, Plane.ofEquation, computeDenominator, hsq, Vec3.smul]
    norm_num
  have hx : (CPlane.ofPts Real.sqrt id (⟨1/2, 0, 0⟩ : Vec3 ℝ) ⟨0, 1, 0⟩ ⟨0, 0, 0⟩).xaxis = ⟨1/2, 0, 0⟩ := by
    simp only [CPlane.ofPts, hp]
    rw [show (⟨1/2, 0, 0⟩ : Vec3 ℝ) - ⟨0, 0, 0⟩ = ⟨1/2, 0, 0⟩ by ext <;> simp]
    apply (C70_unitize real_isSqrt _).2
    rw [show (⟨1/2, 0, 0⟩ : Vec3 ℝ).sqLength = (1 / 2) ^ 2 by unfold Vec3.sqLength; norm_num, Real.sqrt_sq (by norm_num)]
    have := machEps_pos (K := ℝ)
    linarith
  intro h
  have := congrArg Vec3.x h
  simp only [CPlane.evaluateInv, CPlane.evaluate, hx, Vec3.dot, Vec3.add_x, Vec3.sub_x, Vec3.smul_x, Vec3.add_y, Vec3.sub_y, Vec3.smul_y,
    Vec3.add_z, Vec3.sub_z, Vec3.smul_z] at this
  norm_num at this

end Cmm.Geom
