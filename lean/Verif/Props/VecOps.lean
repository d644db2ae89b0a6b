import Verif.Model.VecOps
import Verif.Props.Plane
import Mathlib.Tactic.Linarith
import Mathlib.Tactic.Ring
import Mathlib.Tactic.LinearCombination
import Mathlib.Tactic.FieldSimp
/-!
C80: vector indexing and algebra. C81: spherical coordinates. C82: comparison of vectors. C83: homogeneous vectors and the free
vector functions.
-/
namespace Cmm.VecOps
open Cmm.Newton (IsSqrt)
variable {K : Type}

/-! ### C80 -/

/-- The answer of a checked array access. -/
def entry (l : List K) (i : Nat) : Res K := match l[i]? with | some v => .ok v | none => .throws

/-- **C80.** `operator[]` answers the coordinate with that number and throws beyond the last one. -/
theorem C80_index (p : Vec2 K) (q : Vec3 K) (r : Vec4 K) (i : Nat) :
    p.at i = entry [p.x, p.y] i ∧ q.at i = entry [q.x, q.y, q.z] i ∧ r.at i = entry [r.x, r.y, r.z, r.w] i := by
  refine ⟨?_, ?_, ?_⟩
  · match i with
    | 0 | 1 | _ + 2 => rfl
  · match i with
    | 0 | 1 | 2 | _ + 3 => rfl
  · match i with
    | 0 | 1 | 2 | 3 | _ + 4 => rfl

/-- **C80.** Writing coordinate `i` changes that coordinate only; beyond the last one it throws. -/
theorem C80_write (p : Vec2 K) (q : Vec3 K) (r : Vec4 K) (i : Nat) (v : K) :
    ((2 ≤ i ∧ put2 p i v = .throws) ∨ (i < 2 ∧ ∃ p', put2 p i v = .ok p' ∧ p'.at i = .ok v ∧ ∀ j, j ≠ i → p'.at j = p.at j)) ∧
    ((3 ≤ i ∧ put3 q i v = .throws) ∨ (i < 3 ∧ ∃ q', put3 q i v = .ok q' ∧ q'.at i = .ok v ∧ ∀ j, j ≠ i → q'.at j = q.at j)) ∧
    ((4 ≤ i ∧ put4 r i v = .throws) ∨ (i < 4 ∧ ∃ r', put4 r i v = .ok r' ∧ r'.at i = .ok v ∧ ∀ j, j ≠ i → r'.at j = r.at j)) := by
  refine ⟨?_, ?_, ?_⟩
  · match i with
    | 0 | 1 =>
      refine .inr ⟨by omega, _, rfl, rfl, fun j hj => ?_⟩
      match j with
      | 0 | 1 | _ + 2 => first | rfl | exact absurd rfl hj
    | _ + 2 => exact .inl ⟨by omega, rfl⟩
  · match i with
    | 0 | 1 | 2 =>
      refine .inr ⟨by omega, _, rfl, rfl, fun j hj => ?_⟩
      match j with
      | 0 | 1 | 2 | _ + 3 => first | rfl | exact absurd rfl hj
    | _ + 3 => exact .inl ⟨by omega, rfl⟩
  · match i with
    | 0 | 1 | 2 | 3 =>
      refine .inr ⟨by omega, _, rfl, rfl, fun j hj => ?_⟩
      match j with
      | 0 | 1 | 2 | 3 | _ + 4 => first | rfl | exact absurd rfl hj
    | _ + 4 => exact .inl ⟨by omega, rfl⟩

example : (⟨1, 2, 3⟩ : Vec3 ℚ).at 2 = .ok 3 ∧ (⟨1, 2, 3⟩ : Vec3 ℚ).at 3 = .throws ∧
    put4 (⟨1, 2, 3, 4⟩ : Vec4 ℚ) 3 9 = .ok ⟨1, 2, 3, 9⟩ := by decide +kernel

variable [Field K] [LinearOrder K] [IsStrictOrderedRing K]

/-- **C80.** The dot products are symmetric and bilinear, and the dot product of a vector with itself is positive unless it is zero. -/
theorem C80_dot (a b c : Vec3 K) (d e g : Vec2 K) (s : K) :
    (a.dot b = b.dot a ∧ (a + b).dot c = a.dot c + b.dot c ∧ (a - b).dot c = a.dot c - b.dot c ∧ (a.smul s).dot c = s * a.dot c ∧
      (-a).dot c = -a.dot c ∧ a.sqLength = a.dot a ∧ 0 ≤ a.dot a ∧ (a.dot a = 0 ↔ a = 0)) ∧
    (d.dot e = e.dot d ∧ (d + e).dot g = d.dot g + e.dot g ∧ (d - e).dot g = d.dot g - e.dot g ∧ (d.smul s).dot g = s * d.dot g ∧
      (-d).dot g = -d.dot g ∧ d.sqLength = d.dot d ∧ 0 ≤ d.dot d ∧ (d.dot d = 0 ↔ d = ⟨0, 0⟩)) := by
  refine ⟨⟨?_, ?_, ?_, ?_, ?_, rfl, ?_, ?_⟩, ?_, ?_, ?_, ?_, ?_, rfl, ?_, ?_⟩
  · simp [Vec3.dot]; ring
  · simp [Vec3.dot]; ring
  · simp [Vec3.dot]; ring
  · simp [Vec3.dot]; ring
  · simp [Vec3.dot]; ring
  · simp only [Vec3.dot]; nlinarith [mul_self_nonneg a.x, mul_self_nonneg a.y, mul_self_nonneg a.z]
  · constructor
    · intro h
      simp only [Vec3.dot] at h
      have hx := mul_self_nonneg a.x
      have hy := mul_self_nonneg a.y
      have hz := mul_self_nonneg a.z
      cases a
      simp only at *
      rw [mul_self_eq_zero.1 (le_antisymm (by linarith) hx), mul_self_eq_zero.1 (le_antisymm (by linarith) hy),
        mul_self_eq_zero.1 (le_antisymm (by linarith) hz)]
      rfl
    · rintro rfl; simp [Vec3.dot]
  · simp [Vec2.dot]; ring
  · simp [Vec2.dot]; ring
  · simp [Vec2.dot]; ring
  · simp [Vec2.dot]; ring
  · simp [Vec2.dot]; ring
  · simp only [Vec2.dot]; nlinarith [mul_self_nonneg d.x, mul_self_nonneg d.y]
  · constructor
    · intro h
      simp only [Vec2.dot] at h
      have hx := mul_self_nonneg d.x
      have hy := mul_self_nonneg d.y
      cases d
      simp only at *
      rw [mul_self_eq_zero.1 (le_antisymm (by linarith) hx), mul_self_eq_zero.1 (le_antisymm (by linarith) hy)]
    · rintro rfl; simp [Vec2.dot]

omit [LinearOrder K] [IsStrictOrderedRing K] in
/-- **C80.** The cross product is perpendicular to both factors, changes its sign when they are exchanged, has the squared length
`|a|²|b|² - (a·b)²`, and the coordinate axes are right-handed. -/
theorem C80_cross (a b : Vec3 K) :
    (a.cross b).dot a = 0 ∧ (a.cross b).dot b = 0 ∧ a.cross b = -b.cross a ∧ a.cross a = 0 ∧
    (a.cross b).sqLength = a.sqLength * b.sqLength - a.dot b ^ 2 ∧
    (⟨1, 0, 0⟩ : Vec3 K).cross ⟨0, 1, 0⟩ = ⟨0, 0, 1⟩ ∧ (⟨0, 1, 0⟩ : Vec3 K).cross ⟨0, 0, 1⟩ = ⟨1, 0, 0⟩ ∧
    (⟨0, 0, 1⟩ : Vec3 K).cross ⟨1, 0, 0⟩ = ⟨0, 1, 0⟩ := by
  refine ⟨?_, ?_, ?_, ?_, ?_, ?_, ?_, ?_⟩
  · simp only [Vec3.cross, Vec3.dot]; ring
  · simp only [Vec3.cross, Vec3.dot]; ring
  · ext <;> simp only [Vec3.cross, Vec3.neg_x, Vec3.neg_y, Vec3.neg_z] <;> ring
  · ext <;> simp only [Vec3.cross, Vec3.zero_x, Vec3.zero_y, Vec3.zero_z] <;> ring
  · simp only [Vec3.cross, Vec3.dot, Vec3.sqLength]; ring
  · simp [Vec3.cross]
  · simp [Vec3.cross]
  · simp [Vec3.cross]

omit [LinearOrder K] [IsStrictOrderedRing K] in
/-- **C80.** The plane cross product is the z coordinate of the cross product in space: it is bilinear, zero for parallel vectors, and
squares to `|a|²|b|² - (a·b)²`. -/
theorem C80_cross_plane (a b : Vec2 K) (s : K) :
    Vec2.cross a b = ((⟨a.x, a.y, 0⟩ : Vec3 K).cross ⟨b.x, b.y, 0⟩).z ∧ Vec2.cross a b = -Vec2.cross b a ∧ Vec2.cross a (a.smul s) = 0 ∧
    Vec2.cross a b ^ 2 = a.sqLength * b.sqLength - a.dot b ^ 2 := by
  refine ⟨by simp [Vec2.cross, Vec3.cross], ?_, ?_, ?_⟩ <;> simp [Vec2.cross, Vec2.sqLength, Vec2.dot] <;> ring

omit [LinearOrder K] [IsStrictOrderedRing K] in
/-- **C80.** Squared distances. -/
theorem C80_distance (a b : Vec3 K) (c d : Vec2 K) :
    a.distanceSq b = (a.x - b.x) ^ 2 + (a.y - b.y) ^ 2 + (a.z - b.z) ^ 2 ∧ dist2 a b = a.distanceSq b ∧
    c.distanceSq d = (c.x - d.x) ^ 2 + (c.y - d.y) ^ 2 := by
  refine ⟨?_, rfl, ?_⟩
  · simp [Vec3.distanceSq, Vec3.sqLength]; ring
  · simp [Vec2.distanceSq, Vec2.sqLength, Vec2.dot]; ring

/-- **C80.** The projection of `a` on `b` is a multiple of `b`, and the rest of `a` is perpendicular to `b`; `vectorProjection` computes the
same; projecting twice changes nothing. -/
theorem C80_projection (a b : Vec3 K) (h : b ≠ 0) :
    (a - project3 a b).dot b = 0 ∧ (∃ t, project3 a b = b.smul t) ∧ vectorProjection a b = project3 a b ∧
    project3 (project3 a b) b = project3 a b := by
  have hb : b.dot b ≠ 0 := fun e => h (((C80_dot b b b ⟨0, 0⟩ ⟨0, 0⟩ ⟨0, 0⟩ 0).1.2.2.2.2.2.2.2).1 e)
  have hb2 : b.x * b.x + b.y * b.y + b.z * b.z ≠ 0 := hb
  have hb3 : b.x ^ 2 + b.y ^ 2 + b.z ^ 2 ≠ 0 := by convert hb2 using 1; ring
  refine ⟨?_, ⟨_, rfl⟩, ?_, ?_⟩
  · have e : (a - project3 a b).dot b = a.dot b - a.dot b / b.dot b * b.dot b := by
      simp only [project3, Vec3.dot, Vec3.sub_x, Vec3.sub_y, Vec3.sub_z, Vec3.smul_x, Vec3.smul_y, Vec3.smul_z]; ring
    rw [e, div_mul_cancel₀ _ hb, sub_self]
  · have e : b.dot b = b.x ^ 2 + b.y ^ 2 + b.z ^ 2 := by simp only [Vec3.dot]; ring
    ext <;> simp only [vectorProjection, project3, Vec3.smul_x, Vec3.smul_y, Vec3.smul_z, e, Vec3.dot] <;> (field_simp; try ring)
  · have e : (project3 a b).dot b = a.dot b := by
      have : (project3 a b).dot b = a.dot b / b.dot b * b.dot b := by
        simp only [project3, Vec3.dot, Vec3.smul_x, Vec3.smul_y, Vec3.smul_z]; ring
      rw [this, div_mul_cancel₀ _ hb]
    show b.smul ((project3 a b).dot b / b.dot b) = b.smul (a.dot b / b.dot b)
    rw [e]

/-- **C80.** The same in the plane; `projection` is the factor. -/
theorem C80_projection_plane (a b : Vec2 K) (h : b ≠ ⟨0, 0⟩) :
    (a - project2 a b).dot b = 0 ∧ project2 a b = b.smul (projection2 a b) := by
  have hb : b.dot b ≠ 0 := fun e => h (((C80_dot 0 0 0 b b b 0).2.2.2.2.2.2.2.2).1 e)
  refine ⟨?_, rfl⟩
  have e : (a - project2 a b).dot b = a.dot b - a.dot b / b.dot b * b.dot b := by
    simp only [project2, Vec2.dot, Vec2.sub_x, Vec2.sub_y, Vec2.smul_x, Vec2.smul_y]; ring
  rw [e, div_mul_cancel₀ _ hb, sub_self]

/-- **C80.** `vec2::unitize` and `vec2::unit` throw exactly for the zero vector; otherwise the result has length one and the same
direction. `operator/=` throws exactly for zero and is undone by multiplication. -/
theorem C80_unit_plane (sqrt : K → K) (hs : IsSqrt sqrt) (h0 : sqrt 0 = 0) (a : Vec2 K) (s : K) :
    (unitize2 sqrt a = .throws ↔ a = ⟨0, 0⟩) ∧ unitize2 sqrt a = Hash.unit sqrt a ∧
    (a ≠ ⟨0, 0⟩ → ∃ u l, unitize2 sqrt a = .ok u ∧ 0 < l ∧ u.dot u = 1 ∧ a = u.smul l) ∧
    (divAssign2 a s = .throws ↔ s = 0) ∧ (s ≠ 0 → ∃ q, divAssign2 a s = .ok q ∧ q.smul s = a) := by
  have hz : a.dot a = 0 ↔ a = ⟨0, 0⟩ := (C80_dot 0 0 0 a a a 0).2.2.2.2.2.2.2.2
  have hn : 0 ≤ a.dot a := (C80_dot 0 0 0 a a a 0).2.2.2.2.2.2.2.1
  have hpos : a ≠ ⟨0, 0⟩ → 0 < sqrt (a.dot a) ∧ sqrt (a.dot a) * sqrt (a.dot a) = a.dot a := fun h =>
    hs _ (lt_of_le_of_ne hn fun e => h (hz.1 e.symm))
  refine ⟨?_, rfl, ?_, ?_, ?_⟩
  · constructor
    · intro h
      by_contra hne
      unfold unitize2 at h
      simp only [if_neg (hpos hne).1.ne'] at h
      cases h
    · intro h
      unfold unitize2
      simp only
      rw [if_pos (by rw [hz.2 h, h0])]
  · intro hne
    obtain ⟨p1, p2⟩ := hpos hne
    refine ⟨⟨a.x / sqrt (a.dot a), a.y / sqrt (a.dot a)⟩, sqrt (a.dot a), ?_, p1, ?_, ?_⟩
    · unfold unitize2; simp only; rw [if_neg p1.ne']
    · have : (⟨a.x / sqrt (a.dot a), a.y / sqrt (a.dot a)⟩ : Vec2 K).dot ⟨a.x / sqrt (a.dot a), a.y / sqrt (a.dot a)⟩ =
          a.dot a / (sqrt (a.dot a) * sqrt (a.dot a)) := by
        simp only [Vec2.dot]; field_simp
      rw [this, p2, div_self (fun e => hne (hz.1 e))]
    · cases a
      simp only [Vec2.smul]
      rw [div_mul_cancel₀ _ p1.ne', div_mul_cancel₀ _ p1.ne']
  · unfold divAssign2; split <;> simp_all
  · intro hne
    refine ⟨_, by unfold divAssign2; rw [if_neg hne], ?_⟩
    cases a
    simp only [Vec2.smul]
    rw [div_mul_cancel₀ _ hne, div_mul_cancel₀ _ hne]

omit [LinearOrder K] [IsStrictOrderedRing K] in
/-- **C80.** `vec2(from, to)` leads from `from` to `to`; products and quotients by coordinates undo each other. -/
theorem C80_between (p q : Vec2 K) (a b : Vec3 K) (h : b.x ≠ 0 ∧ b.y ≠ 0 ∧ b.z ≠ 0) :
    p + between p q = q ∧ div3 (mul3 a b) b = a ∧ mul3 (div3 a b) b = a := by
  obtain ⟨h1, h2, h3⟩ := h
  refine ⟨?_, ?_, ?_⟩
  · ext <;> simp [between]
  · ext <;> simp only [div3, mul3] <;> exact mul_div_cancel_right₀ _ ‹_›
  · ext <;> simp only [div3, mul3] <;> exact div_mul_cancel₀ _ ‹_›

example : (⟨0, 3, 4⟩ : Vec3 ℚ) ≠ 0 ∧ project3 (⟨1, 1, 0⟩ : Vec3 ℚ) ⟨0, 3, 4⟩ = ⟨0, 9 / 25, 12 / 25⟩ := by decide +kernel

/-! ### C81 -/

theorem atan2_cos (y x : ℝ) (h : ¬ (x = 0 ∧ y = 0)) : Real.cos (atan2 y x) = x / Real.sqrt (x ^ 2 + y ^ 2) := by
  have hne : (⟨x, y⟩ : ℂ) ≠ 0 := fun e => h ⟨congrArg Complex.re e, congrArg Complex.im e⟩
  unfold atan2
  rw [Complex.cos_arg hne, Complex.norm_eq_sqrt_sq_add_sq]

theorem atan2_sin (y x : ℝ) : Real.sin (atan2 y x) = y / Real.sqrt (x ^ 2 + y ^ 2) := by
  unfold atan2
  rw [Complex.sin_arg, Complex.norm_eq_sqrt_sq_add_sq]

theorem polar_part (y x : ℝ) : Real.sqrt (x * x + y * y) * Real.cos (atan2 y x) = x ∧
    Real.sqrt (x * x + y * y) * Real.sin (atan2 y x) = y := by
  have e : Real.sqrt (x * x + y * y) = Real.sqrt (x ^ 2 + y ^ 2) := by congr 1; ring
  rw [e]
  by_cases h : x = 0 ∧ y = 0
  · obtain ⟨rfl, rfl⟩ := h
    simp
  · have hp : 0 < x ^ 2 + y ^ 2 := by
      rcases not_and_or.1 h with h | h
      · positivity
      · positivity
    have hs := (Real.sqrt_pos.2 hp).ne'
    rw [atan2_cos y x h, atan2_sin]
    exact ⟨mul_div_cancel₀ _ hs, mul_div_cancel₀ _ hs⟩

/-- **C81.** Going to spherical coordinates and back returns the point, for every point. -/
theorem C81_round_trip (p : Vec3 ℝ) : ofSpherical (toSpherical p) = p := by
  have hq : 0 ≤ p.x * p.x + p.y * p.y := by nlinarith [mul_self_nonneg p.x, mul_self_nonneg p.y]
  obtain ⟨a1, a2⟩ := polar_part p.y p.x
  obtain ⟨b1, b2⟩ := polar_part (Real.sqrt (p.x * p.x + p.y * p.y)) p.z
  have e : p.z * p.z + Real.sqrt (p.x * p.x + p.y * p.y) * Real.sqrt (p.x * p.x + p.y * p.y) =
      p.x * p.x + p.y * p.y + p.z * p.z := by rw [Real.mul_self_sqrt hq]; ring
  rw [e] at b1 b2
  ext
  · show Real.sqrt (p.x * p.x + p.y * p.y + p.z * p.z) * Real.sin (atan2 (Real.sqrt (p.x * p.x + p.y * p.y)) p.z) *
      Real.cos (atan2 p.y p.x) = p.x
    rw [b2, a1]
  · show Real.sqrt (p.x * p.x + p.y * p.y + p.z * p.z) * Real.sin (atan2 (Real.sqrt (p.x * p.x + p.y * p.y)) p.z) *
      Real.sin (atan2 p.y p.x) = p.y
    rw [b2, a2]
  · exact b1

/-- **C81.** The ranges: the radius is the length, the polar angle is in `[0, π]`, the azimuth in `(-π, π]`. -/
theorem C81_ranges (p : Vec3 ℝ) :
    (toSpherical p).x = Real.sqrt p.sqLength ∧ 0 ≤ (toSpherical p).y ∧ (toSpherical p).y ≤ Real.pi ∧
      -Real.pi < (toSpherical p).z ∧ (toSpherical p).z ≤ Real.pi := by
  refine ⟨rfl, Complex.arg_nonneg_iff.2 (Real.sqrt_nonneg _), Complex.arg_le_pi _, Complex.neg_pi_lt_arg _, Complex.arg_le_pi _⟩

theorem atan2_of_polar {r t : ℝ} (hr : 0 < r) (h1 : -Real.pi < t) (h2 : t ≤ Real.pi) :
    atan2 (r * Real.sin t) (r * Real.cos t) = t := by
  unfold atan2
  have : (⟨r * Real.cos t, r * Real.sin t⟩ : ℂ) = r * (Complex.cos t + Complex.sin t * Complex.I) := by
    apply Complex.ext
    · simp [Complex.cos_ofReal_re]
    · simp [Complex.sin_ofReal_re]
  rw [this, Complex.arg_mul_cos_add_sin_mul_I hr ⟨h1, h2⟩]

/-- **C81.** Going from spherical coordinates to Cartesian ones and back returns them, away from the poles and the origin. -/
theorem C81_round_trip_back (s : Vec3 ℝ) (hr : 0 < s.x) (ht0 : 0 < s.y) (ht1 : s.y < Real.pi) (hp0 : -Real.pi < s.z)
    (hp1 : s.z ≤ Real.pi) : toSpherical (ofSpherical s) = s := by
  have hsin := Real.sin_pos_of_pos_of_lt_pi ht0 ht1
  have hrs : 0 < s.x * Real.sin s.y := mul_pos hr hsin
  have hq : (ofSpherical s).x * (ofSpherical s).x + (ofSpherical s).y * (ofSpherical s).y =
      (s.x * Real.sin s.y) * (s.x * Real.sin s.y) := by
    have := Real.sin_sq_add_cos_sq s.z
    simp only [ofSpherical]
    linear_combination (s.x * Real.sin s.y) ^ 2 * this
  have hq2 : (ofSpherical s).x * (ofSpherical s).x + (ofSpherical s).y * (ofSpherical s).y +
      (ofSpherical s).z * (ofSpherical s).z = s.x * s.x := by
    rw [hq]
    have := Real.sin_sq_add_cos_sq s.y
    simp only [ofSpherical]
    linear_combination s.x ^ 2 * this
  ext
  · show Real.sqrt ((ofSpherical s).x * (ofSpherical s).x + (ofSpherical s).y * (ofSpherical s).y +
      (ofSpherical s).z * (ofSpherical s).z) = s.x
    rw [hq2, Real.sqrt_mul_self hr.le]
  · show atan2 (Real.sqrt ((ofSpherical s).x * (ofSpherical s).x + (ofSpherical s).y * (ofSpherical s).y)) (ofSpherical s).z = s.y
    rw [hq, Real.sqrt_mul_self hrs.le]
    exact atan2_of_polar hr (by linarith) ht1.le
  · exact atan2_of_polar hrs hp0 hp1

/-- **C81.** Directions: on the unit sphere the two-angle versions are inverse to each other, and they are the angles of the
three-coordinate version; the array version works on each entry. -/
theorem C81_directions (p : Vec3 ℝ) (l : List (Vec3 ℝ)) :
    (p.sqLength = 1 → ofAngles (toAngles p) = p) ∧ (ofAngles (toAngles p)).sqLength = 1 ∧
      toAngles p = ⟨(toSpherical p).y, (toSpherical p).z⟩ ∧ toAnglesAll l = l.map toAngles := by
  refine ⟨fun h => ?_, ?_, rfl, rfl⟩
  · have e : ofAngles (toAngles p) = ofSpherical (toSpherical p) := by
      have : (toSpherical p).x = 1 := by
        show Real.sqrt p.sqLength = 1
        rw [h, Real.sqrt_one]
      unfold ofSpherical
      rw [this]
      rfl
    rw [e, C81_round_trip]
  · have h1 := Real.sin_sq_add_cos_sq (toAngles p).x
    have h2 := Real.sin_sq_add_cos_sq (toAngles p).y
    simp only [ofAngles, Vec3.sqLength]
    linear_combination Real.sin (toAngles p).x ^ 2 * h2 + h1

/-! ### C82 -/

omit [IsStrictOrderedRing K] in
/-- **C82.** What `==` means: all coordinates differ by less than the machine epsilon. For `vec4` the weights are not compared. -/
theorem C82_meaning (a b : Vec2 K) (c d : Vec3 K) (e f : Vec4 K) :
    (eq2 a b = true ↔ |a.x - b.x| < 1 / 2 ^ 52 ∧ |a.y - b.y| < 1 / 2 ^ 52) ∧
    (eq3 c d = true ↔ |c.x - d.x| < 1 / 2 ^ 52 ∧ |c.y - d.y| < 1 / 2 ^ 52 ∧ |c.z - d.z| < 1 / 2 ^ 52) ∧
    (eq4 e f = true ↔ |e.x - f.x| < 1 / 2 ^ 52 ∧ |e.y - f.y| < 1 / 2 ^ 52 ∧ |e.z - f.z| < 1 / 2 ^ 52) ∧
    (eq32 c a = true ↔ c.x = a.x ∧ c.y = a.y) := by
  refine ⟨?_, ?_, ?_, ?_⟩
  · unfold eq2 eps
    rw [Bool.and_eq_true, decide_eq_true_iff, decide_eq_true_iff]
  · unfold eq3 eps
    rw [Bool.and_eq_true, Bool.and_eq_true, decide_eq_true_iff, decide_eq_true_iff, decide_eq_true_iff, and_assoc]
  · unfold eq4 eps
    rw [Bool.and_eq_true, Bool.and_eq_true, decide_eq_true_iff, decide_eq_true_iff, decide_eq_true_iff, and_assoc]
  · unfold eq32
    rw [Bool.and_eq_true, decide_eq_true_iff, decide_eq_true_iff, eq_comm, eq_comm (a := a.y)]

/-- **C82.** `==` is reflexive and symmetric, and equal vectors compare equal. -/
theorem C82_reflexive_symmetric_partial (a b : Vec2 K) (c d : Vec3 K) (e f : Vec4 K) :
    eq2 a a = true ∧ eq2 a b = eq2 b a ∧ eq3 c c = true ∧ eq3 c d = eq3 d c ∧ eq4 e e = true ∧ eq4 e f = eq4 f e := by
  have h : (0 : K) < 1 / 2 ^ 52 := by positivity
  refine ⟨?_, ?_, ?_, ?_, ?_, ?_⟩
  · rw [(C82_meaning a a c d e f).1, sub_self, sub_self, abs_zero]; exact ⟨h, h⟩
  · simp only [eq2, abs_sub_comm]
  · rw [(C82_meaning a a c c e f).2.1, sub_self, sub_self, sub_self, abs_zero]; exact ⟨h, h, h⟩
  · simp only [eq3, abs_sub_comm]
  · rw [(C82_meaning a a c c e e).2.2.1, sub_self, sub_self, sub_self, abs_zero]; exact ⟨h, h, h⟩
  · simp only [eq4, abs_sub_comm]

/-- **C82.** It is not transitive, and it takes homogeneous vectors with different weights (different points) for equal. -/
theorem C82_not_transitive_counterexample :
    (∃ a b c : Vec3 ℚ, eq3 a b = true ∧ eq3 b c = true ∧ eq3 a c = false) ∧
    (∃ a b c : Vec2 ℚ, eq2 a b = true ∧ eq2 b c = true ∧ eq2 a c = false) ∧
    (∃ a b : Vec4 ℚ, eq4 a b = true ∧ a.toVec3 ≠ b.toVec3 ∧ a.w ≠ 0 ∧ b.w ≠ 0) := by
  refine ⟨⟨⟨0, 0, 0⟩, ⟨3 / 2 ^ 54, 0, 0⟩, ⟨3 / 2 ^ 53, 0, 0⟩, ?_⟩, ⟨⟨0, 0⟩, ⟨3 / 2 ^ 54, 0⟩, ⟨3 / 2 ^ 53, 0⟩, ?_⟩,
    ⟨⟨1, 0, 0, 1⟩, ⟨1, 0, 0, 2⟩, ?_⟩⟩ <;> decide +kernel

/-! ### C83 -/

omit [LinearOrder K] [IsStrictOrderedRing K] in
/-- **C83.** `to_vec3` does not depend on the scale of the homogeneous vector, and is undone by `set(vec3)`; the cross product with a
vector uses the point; the free `cross` gives the cross product with weight one. -/
theorem C83_homogeneous_partial (a : Vec4 K) (v b : Vec3 K) (t : K) (ht : t ≠ 0) :
    (a.smul t).toVec3 = a.toVec3 ∧ (set43 v).toVec3 = v ∧ cross43 a b = a.toVec3.cross b ∧ (crossInto4 v b).toVec3 = v.cross b ∧
      (cross4 (set43 v) (set43 b)).toVec3 = v.cross b := by
  refine ⟨?_, ?_, rfl, ?_, ?_⟩
  · ext <;> simp only [Vec4.toVec3, Vec4.smul_x, Vec4.smul_y, Vec4.smul_z, Vec4.smul_w] <;> exact mul_div_mul_right _ _ ht
  · ext <;> simp [set43, Vec4.toVec3]
  · ext <;> simp [crossInto4, Vec4.toVec3, Vec3.cross]
  · ext <;> simp [cross4, set43, Vec4.toVec3, Vec3.cross]

omit [LinearOrder K] [IsStrictOrderedRing K] in
/-- **C83.** On ARM with NEON the dot product of `vec4` is that of four coordinates and `add` adds all of them. -/
theorem C83_neon_partial (a b r : Vec4 K) : dot4 true a a = sqLength4 a ∧ dot4 true a b = dot4 true b a ∧
    dot4 true (a + b) r = dot4 true a r + dot4 true b r ∧ dot4 true a (b.smul 2) = 2 * dot4 true a b ∧ add4 true a b r = a + b := by
  refine ⟨?_, ?_, ?_, ?_, rfl⟩ <;> simp [dot4, sqLength4] <;> ring

omit [LinearOrder K] [IsStrictOrderedRing K] in
/-- **C83.** Without NEON the dot product of `vec4` is that of the first three coordinates, and `add` adds these and keeps the fourth coordinate
of the result object. -/
theorem C83_scalar_partial (a b r : Vec4 K) :
    dot4 false a b = (⟨a.x, a.y, a.z⟩ : Vec3 K).dot ⟨b.x, b.y, b.z⟩ ∧ add4 false a b r = ⟨(a + b).x, (a + b).y, (a + b).z, r.w⟩ := ⟨rfl, rfl⟩

/-- **C83.** Elsewhere they leave out the fourth coordinate; the `cross` overload with a result argument is not the cross product
of the two points; `unitize` does not give a vector of length one. -/
theorem C83_vec4_counterexamples :
    (∃ a : Vec4 ℚ, dot4 false a a ≠ sqLength4 a) ∧ (∃ a b r : Vec4 ℚ, add4 false a b r ≠ a + b) ∧
    (∃ a b : Vec4 ℚ, a.w ≠ 0 ∧ b.w ≠ 0 ∧ (cross4out a b).toVec3 ≠ a.toVec3.cross b.toVec3) ∧
    (∃ a b : Vec4 ℚ, a.w ≠ 0 ∧ b.w ≠ 0 ∧ (cross4 a b).toVec3 ≠ a.toVec3.cross b.toVec3) ∧
    (∃ a : Vec4 ℝ, unitize4 Real.sqrt a = ⟨1 / 3, 1 / 6, 0, 1⟩ ∧ sqLength4 (⟨1 / 3, 1 / 6, 0, 1⟩ : Vec4 ℝ) ≠ 1) := by
  refine ⟨⟨⟨0, 0, 0, 1⟩, by decide +kernel⟩, ⟨⟨0, 0, 0, 1⟩, ⟨0, 0, 0, 0⟩, ⟨0, 0, 0, 0⟩, by decide +kernel⟩,
    ⟨⟨1, 0, 0, 1⟩, ⟨0, 1, 1, 1⟩, by decide +kernel⟩, ⟨⟨1, 0, 0, 2⟩, ⟨0, 1, 0, 1⟩, by decide +kernel⟩, ⟨⟨2, 1, 0, 2⟩, ?_, ?_⟩⟩
  · have e : Real.sqrt (sqLength4 (⟨2, 1, 0, 2⟩ : Vec4 ℝ)) = 3 := by
      rw [show sqLength4 (⟨2, 1, 0, 2⟩ : Vec4 ℝ) = 3 * 3 by norm_num [sqLength4], Real.sqrt_mul_self (by norm_num)]
    unfold unitize4
    simp only [e]
    rw [if_neg (by norm_num [eps])]
    norm_num
  · norm_num [sqLength4]

/-- **C83.** `vec4::unitize` leaves short vectors alone (length up to one), and otherwise gives the point divided by the length of the
four-vector, with weight one. -/
theorem C83_unitize_partial (sqrt : K → K) (a : Vec4 K) :
    (sqrt (sqLength4 a) ≤ 1 → unitize4 sqrt a = a) ∧
    (1 + 1 / 2 ^ 52 < sqrt (sqLength4 a) →
      unitize4 sqrt a = set43 (a.toVec3.sdiv (sqrt (sqLength4 a)))) := by
  have he : (0 : K) < eps := by unfold eps; positivity
  constructor
  · intro h
    unfold unitize4
    simp only
    rw [if_pos (.inr (by linarith))]
  · intro h
    have h' : 1 + eps < sqrt (sqLength4 a) := h
    have h1 : (eps : K) ≤ 1 := by
      unfold eps
      rw [div_le_one (by positivity)]
      exact one_le_pow₀ (by norm_num)
    unfold unitize4
    simp only
    rw [if_neg (by rintro (h2 | h2) <;> linarith)]
    simp only [set43, Vec3.sdiv_x, Vec3.sdiv_y, Vec3.sdiv_z, Vec4.toVec3, div_div]

/-- **C83.** The free `dist` is not the distance and `mag2` is not the squared length. -/
theorem C83_dist_counterexample :
    (∃ a b : Vec3 ℝ, dist Real.sqrt a b ≠ Real.sqrt (a.distanceSq b)) ∧ (∃ a : Vec3 ℝ, mag2 Real.sqrt a ≠ a.sqLength) ∧
    (∃ a b : Vec3 ℝ, a.distanceSq b = 1 ∧ dist Real.sqrt a b = 0) := by
  have h2 : Real.sqrt 4 = 2 := by rw [show (4 : ℝ) = 2 * 2 by norm_num, Real.sqrt_mul_self (by norm_num)]
  refine ⟨⟨⟨4, 0, 0⟩, ⟨0, 0, 0⟩, ?_⟩, ⟨⟨4, 0, 0⟩, ?_⟩, ⟨⟨0, 0, 0⟩, ⟨1, 0, 0⟩, ?_, ?_⟩⟩
  · have e1 : dist Real.sqrt (⟨4, 0, 0⟩ : Vec3 ℝ) ⟨0, 0, 0⟩ = 2 := by simp [dist, h2]
    have e2 : Real.sqrt ((⟨4, 0, 0⟩ : Vec3 ℝ).distanceSq ⟨0, 0, 0⟩) = 4 := by
      rw [show (⟨4, 0, 0⟩ : Vec3 ℝ).distanceSq ⟨0, 0, 0⟩ = 4 * 4 by simp [Vec3.distanceSq, Vec3.sqLength],
        Real.sqrt_mul_self (by norm_num)]
    rw [e1, e2]; norm_num
  · simp [mag2, h2, Vec3.sqLength]; norm_num
  · simp [Vec3.distanceSq, Vec3.sqLength]
  · simp [dist, Real.sqrt_eq_zero_of_nonpos]

/-- **C83.** The formulas of `dist` and `mag2`: right only for points differing in one coordinate by 0 or 1, and for a first coordinate
0 or 1. -/
theorem C83_dist_partial (sqrt : K → K) (hs : IsSqrt sqrt) (h0 : sqrt 0 = 0) (a b : Vec3 K) (y z : K) :
    (0 ≤ a.x - b.x + (a.y - b.y) + (a.z - b.z) → dist sqrt a b ^ 2 = a.x - b.x + (a.y - b.y) + (a.z - b.z)) ∧
    mag2 sqrt ⟨0, y, z⟩ = (⟨0, y, z⟩ : Vec3 K).sqLength ∧ mag2 sqrt ⟨1, y, z⟩ = (⟨1, y, z⟩ : Vec3 K).sqLength := by
  have h1 : sqrt 1 = 1 := by
    obtain ⟨p, q⟩ := hs 1 one_pos
    nlinarith
  refine ⟨fun h => ?_, by simp [mag2, Vec3.sqLength, h0], by simp [mag2, Vec3.sqLength, h1]⟩
  unfold dist
  rcases h.lt_or_eq with h | h
  · rw [pow_two, (hs _ h).2]
  · rw [← h, h0]; ring

omit [LinearOrder K] [IsStrictOrderedRing K] in
/-- **C83.** The array version of `dot_product` always reads past the end. -/
theorem C83_dot_products_undefined (v : Vec3 K) (vecs : List (Vec3 K)) : dotProducts v vecs = .ub := by
  have : ∀ (l : List Nat), (∀ i ∈ l, i < vecs.length) → ∀ acc : List K, ∃ r, l.foldl (dotProductStep v vecs) (.ok acc) = .ok r := by
    intro l
    induction l with
    | nil => intro _ acc; exact ⟨acc, rfl⟩
    | cons i l ih =>
      intro h acc
      rw [List.foldl_cons, dotProductStep, Res.ok_bind, List.getElem?_eq_getElem (h i (by simp))]
      exact ih (fun j hj => h j (by simp [hj])) _
  obtain ⟨r, hr⟩ := this (List.range vecs.length) (fun i hi => List.mem_range.1 hi) []
  unfold dotProducts
  rw [List.range_succ, List.foldl_append, hr, List.foldl_cons, List.foldl_nil, dotProductStep, Res.ok_bind]
  simp

end Cmm.VecOps
