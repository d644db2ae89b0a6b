import Verif.Lemmas.FloatLength
import Mathlib.Analysis.SpecialFunctions.Pow.Real
import Verif.Props.Plane
import Mathlib.Tactic.LinearCombination
/-!
Lengths and unit vectors as the code computes them, in `float` (C134), and the collinearity test (C135). `sqLen v` is the exact square of the length of a vector of
numbers of the format.
-/
namespace Cmm.VecOps
open Cmm.Newton
section
variable {K : Type} [Field K] [LinearOrder K] [IsStrictOrderedRing K] [FloorRing K] {R : Rounding K} {u : K} {sqrt : K → K}

/-- The exact square of the length. -/
def sqLen (v : Vec3 (Fp R)) : K := v.x.val ^ 2 + v.y.val ^ 2 + v.z.val ^ 2

omit [IsStrictOrderedRing K] [FloorRing K] in
theorem exactSq_eq (a b : Vec3 (Fp R)) : KD.exactSq a b = (a.x.val - b.x.val) ^ 2 + (a.y.val - b.y.val) ^ 2 + (a.z.val - b.z.val) ^ 2 := rfl

theorem pow5_bounds (h0 : 0 ≤ u) (h1 : u ≤ 1 / 2 ^ 40) : 1 - 1 / 2 ^ 30 ≤ (1 - u) ^ 5 ∧ (1 + u) ^ 5 ≤ 1 + 1 / 2 ^ 30 := by
  have a := one_add_mul_le_pow (a := -u) (by linarith) 5
  have e : (1 - u) ^ 5 = (1 + -u) ^ 5 := by ring
  have b : (1 + u) ^ 5 ≤ (1 + 1 / 2 ^ 40) ^ 5 := pow_le_pow_left₀ (by linarith) (by linarith) 5
  constructor
  · rw [e]; refine le_trans ?_ a; push_cast; linarith
  · exact b.trans (by norm_num)

/-- The length of a square that is computed up to `2 ^ -30`. -/
theorem length_of_sq (hs : IsSqrt sqrt) {S s : K} (lo : 1 / 2 ^ 125 ≤ S) (hi : S ≤ 2 ^ 126) (h1 : (1 - 1 / 2 ^ 30) * S ≤ s)
    (h2 : s ≤ (1 + 1 / 2 ^ 30) * S) :
    ∃ l, ((toFloat s).bind fun s => toFloat (sqrt s)) = some l ∧ |l - sqrt S| ≤ 1 / 2 ^ 23 * sqrt S := by
  have hS : 0 < S := lt_of_lt_of_le (by positivity) lo
  have z126 : (2 : K) ^ (-126 : ℤ) = 1 / 2 ^ 126 := by rw [zpow_neg]; norm_num
  have e125 : (1 : K) / 2 ^ 125 = 2 * (1 / 2 ^ 126) := by norm_num
  have e127 : (2 : K) ^ 127 = 2 * 2 ^ 126 := by norm_num
  have p126 : (0 : K) < 1 / 2 ^ 126 := by positivity
  obtain ⟨f, hf, ef⟩ := toFloat_near (x := s) (by rw [z126]; linarith) (by rw [e127]; linarith)
  obtain ⟨f1, f2⟩ := abs_le.mp ef
  have g1 : (1 - 1 / 2 ^ 23 * (5 / 8)) * S ≤ f := by
    have : (1 - 1 / 2 ^ 24) * ((1 - 1 / 2 ^ 30) * S) ≤ (1 - 1 / 2 ^ 24) * s := mul_le_mul_of_nonneg_left h1 (by norm_num)
    nlinarith
  have g2 : f ≤ (1 + 1 / 2 ^ 23 * (5 / 8)) * S := by
    have : (1 + 1 / 2 ^ 24) * s ≤ (1 + 1 / 2 ^ 24) * ((1 + 1 / 2 ^ 30) * S) := mul_le_mul_of_nonneg_left h2 (by norm_num)
    nlinarith
  have hf0 : 0 < f := lt_of_lt_of_le (by have := hS; nlinarith) g1
  obtain ⟨a1, a2⟩ := hs S hS
  obtain ⟨b1, b2⟩ := hs f hf0
  -- the root of the converted number
  have c1 : (1 - 1 / 2 ^ 23 * (3 / 8)) * sqrt S ≤ sqrt f := by
    by_contra h
    push Not at h
    have := mul_lt_mul'' h h b1.le b1.le
    have e : (1 - 1 / 2 ^ 23 * (3 / 8)) * sqrt S * ((1 - 1 / 2 ^ 23 * (3 / 8)) * sqrt S) = (1 - 1 / 2 ^ 23 * (3 / 8)) ^ 2 * S := by
      linear_combination (1 - 1 / 2 ^ 23 * (3 / 8)) ^ 2 * a2
    rw [b2, e] at this
    have : ((1 : K) - 1 / 2 ^ 23 * (3 / 8)) ^ 2 ≤ 1 - 1 / 2 ^ 23 * (5 / 8) := by norm_num
    nlinarith
  have c2 : sqrt f ≤ (1 + 1 / 2 ^ 23 * (3 / 8)) * sqrt S := by
    by_contra h
    push Not at h
    have := mul_lt_mul'' h h (by positivity) (by positivity)
    have e : (1 + 1 / 2 ^ 23 * (3 / 8)) * sqrt S * ((1 + 1 / 2 ^ 23 * (3 / 8)) * sqrt S) = (1 + 1 / 2 ^ 23 * (3 / 8)) ^ 2 * S := by
      linear_combination (1 + 1 / 2 ^ 23 * (3 / 8)) ^ 2 * a2
    rw [b2, e] at this
    have : 1 + 1 / 2 ^ 23 * (5 / 8) ≤ ((1 : K) + 1 / 2 ^ 23 * (3 / 8)) ^ 2 := by norm_num
    nlinarith
  -- the range of the root
  have d1 : 1 / 2 ^ 64 ≤ sqrt f := by
    by_contra h
    push Not at h
    have := mul_lt_mul'' h h b1.le b1.le
    rw [b2] at this
    have e : (1 : K) / 2 ^ 64 * (1 / 2 ^ 64) = 1 / 4 * (1 / 2 ^ 126) := by norm_num
    rw [e] at this
    linarith
  have d2 : sqrt f ≤ 2 ^ 64 := by
    by_contra h
    push Not at h
    have := mul_lt_mul'' h h (by positivity) (by positivity)
    rw [b2] at this
    have e : (2 : K) ^ 64 * 2 ^ 64 = 4 * 2 ^ 126 := by norm_num
    rw [e] at this
    have : (0 : K) < 2 ^ 126 := by positivity
    linarith
  obtain ⟨l, hl, el⟩ := toFloat_near (x := sqrt f) (le_trans (by rw [z126]; norm_num) d1) (d2.trans (by norm_num))
  refine ⟨l, by rw [hf]; exact hl, ?_⟩
  obtain ⟨l1, l2⟩ := abs_le.mp el
  rw [abs_le]
  constructor <;> linarith

/-- **C134** (partial: single instead of double precision, and only in the range of `float`): the length of a vector of moderate size is computed up to the
relative error `2 ^ -23`. -/
theorem C134_length_partial (hs : IsSqrt sqrt) (hu : R.RelError u) (h0 : 0 ≤ u) (h1 : u ≤ 1 / 2 ^ 40) (v : Vec3 (Fp R))
    (lo : 1 / 2 ^ 125 ≤ sqLen v) (hi : sqLen v ≤ 2 ^ 126) :
    ∃ l, length sqrt v = some l ∧ |l - sqrt (sqLen v)| ≤ 1 / 2 ^ 23 * sqrt (sqLen v) := by
  have hS : 0 < sqLen v := lt_of_lt_of_le (by positivity) lo
  obtain ⟨e1, e2⟩ := sqLength_error hu h0 (h1.trans (by norm_num)) v
  obtain ⟨p1, p2⟩ := pow5_bounds h0 h1
  exact length_of_sq hs lo hi ((mul_le_mul_of_nonneg_right p1 hS.le).trans e1) (e2.trans (mul_le_mul_of_nonneg_right p2 hS.le))

/-- **C134** (partial, as for the length): so is the distance of two points. -/
theorem C134_distance_partial (hs : IsSqrt sqrt) (hu : R.RelError u) (h0 : 0 ≤ u) (h1 : u ≤ 1 / 2 ^ 40) (a b : Vec3 (Fp R))
    (lo : 1 / 2 ^ 125 ≤ (a.x.val - b.x.val) ^ 2 + (a.y.val - b.y.val) ^ 2 + (a.z.val - b.z.val) ^ 2)
    (hi : (a.x.val - b.x.val) ^ 2 + (a.y.val - b.y.val) ^ 2 + (a.z.val - b.z.val) ^ 2 ≤ 2 ^ 126) :
    ∃ l, distance sqrt a b = some l ∧
      |l - sqrt ((a.x.val - b.x.val) ^ 2 + (a.y.val - b.y.val) ^ 2 + (a.z.val - b.z.val) ^ 2)| ≤
        1 / 2 ^ 23 * sqrt ((a.x.val - b.x.val) ^ 2 + (a.y.val - b.y.val) ^ 2 + (a.z.val - b.z.val) ^ 2) := by
  rw [← exactSq_eq] at *
  have hS : 0 < KD.exactSq a b := lt_of_lt_of_le (by positivity) lo
  obtain ⟨e1, e2⟩ := KD.distanceSq_error hu h0 (h1.trans (by norm_num)) a b
  obtain ⟨p1, p2⟩ := pow5_bounds h0 h1
  exact length_of_sq hs lo hi ((mul_le_mul_of_nonneg_right p1 hS.le).trans e1) (e2.trans (mul_le_mul_of_nonneg_right p2 hS.le))

/-- C134, where it fails: every two points nearer than `2 ^ -76` have the distance zero. -/
theorem C134_underflow (h00 : sqrt 0 = 0) (hu : R.RelError u) (h0 : 0 ≤ u) (h1 : u ≤ 1 / 2 ^ 40) (a b : Vec3 (Fp R))
    (h : (a.x.val - b.x.val) ^ 2 + (a.y.val - b.y.val) ^ 2 + (a.z.val - b.z.val) ^ 2 ≤ 1 / 2 ^ 152) : distance sqrt a b = some 0 := by
  rw [← exactSq_eq] at h
  obtain ⟨e1, e2⟩ := KD.distanceSq_error hu h0 (h1.trans (by norm_num)) a b
  obtain ⟨p1, p2⟩ := pow5_bounds h0 h1
  have hS : 0 ≤ KD.exactSq a b := by rw [exactSq_eq]; positivity
  have h3 : 0 ≤ (a.distanceSq b).val := (mul_nonneg (by linarith) hS).trans e1
  have h4 : (a.distanceSq b).val < (2 : K) ^ (-150 : ℤ) := by
    have z : (2 : K) ^ (-150 : ℤ) = 4 * (1 / 2 ^ 152) := by rw [zpow_neg]; norm_num
    have := mul_le_mul_of_nonneg_right p2 hS
    have : (0 : K) < 1 / 2 ^ 152 := by positivity
    rw [z]; linarith
  unfold distance length
  rw [show (a - b).sqLength = a.distanceSq b from rfl, toFloat_small h3 h4, Option.bind_some, h00, toFloat_zero]

/-- C134, where it fails: every vector longer than about `2 ^ 64` has infinite length, and `unitize` turns it into the zero vector. -/
theorem C134_overflow (hu : R.RelError u) (h0 : 0 ≤ u) (h1 : u ≤ 1 / 2 ^ 40) (v : Vec3 (Fp R)) (h : 2 ^ 129 ≤ sqLen v) :
    length sqrt v = none ∧ unitize sqrt v = ⟨0, 0, 0⟩ := by
  obtain ⟨e1, e2⟩ := sqLength_error hu h0 (h1.trans (by norm_num)) v
  obtain ⟨p1, p2⟩ := pow5_bounds h0 h1
  have hS : 0 ≤ sqLen v := le_trans (by positivity) h
  have e : length sqrt v = none := by
    have k : (2 : K) ^ 128 ≤ v.sqLength.val := by
      have := mul_le_mul_of_nonneg_right p1 hS
      have e3 : (2 : K) ^ 129 = 2 * 2 ^ 128 := by norm_num
      unfold sqLen at *
      rw [e3] at h
      linarith
    unfold length
    rw [toFloat_large k]; rfl
  refine ⟨e, ?_⟩
  unfold unitize
  rw [e]

theorem quot_sq (hu : R.RelError u) (h0 : 0 ≤ u) (h1 : u ≤ 1 / 2 ^ 40) (y : K) :
    (1 - 1 / 2 ^ 30) * y ^ 2 ≤ R.rnd y ^ 2 ∧ R.rnd y ^ 2 ≤ (1 + 1 / 2 ^ 30) * y ^ 2 := by
  have e := abs_le.mp (hu y)
  rw [← sq_abs y, ← sq_abs (R.rnd y)]
  have a0 := abs_nonneg y
  have b1 : |R.rnd y| ≤ (1 + u) * |y| := by
    have := abs_add_le (R.rnd y - y) y
    rw [sub_add_cancel] at this
    have := hu y
    linarith
  have b2 : (1 - u) * |y| ≤ |R.rnd y| := by
    have := abs_sub_abs_le_abs_sub y (R.rnd y)
    rw [abs_sub_comm] at this
    have := hu y
    linarith
  have c1 := pow_le_pow_left₀ (abs_nonneg _) b1 2
  have c2 := pow_le_pow_left₀ (mul_nonneg (by linarith) a0) b2 2
  rw [mul_pow] at c1 c2
  have d1 : (1 + u) ^ 2 ≤ 1 + 1 / 2 ^ 30 := by nlinarith
  have d2 : 1 - 1 / 2 ^ 30 ≤ (1 - u) ^ 2 := by nlinarith
  exact ⟨(mul_le_mul_of_nonneg_right d2 (sq_nonneg _)).trans c2, c1.trans (mul_le_mul_of_nonneg_right d1 (sq_nonneg _))⟩

/-- **C134** (partial: single instead of double precision): `unitize` of a vector longer than `1 + 2 ^ -20` gives a vector whose squared length differs from one by at
most `2 ^ -21`. -/
theorem C134_unit_partial (hs : IsSqrt sqrt) (hu : R.RelError u) (h0 : 0 ≤ u) (h1 : u ≤ 1 / 2 ^ 40) (v : Vec3 (Fp R))
    (lo : (1 + 1 / 2 ^ 20) ^ 2 ≤ sqLen v) (hi : sqLen v ≤ 2 ^ 126) : |sqLen (unitize sqrt v) - 1| ≤ 1 / 2 ^ 21 := by
  have hS : 0 < sqLen v := lt_of_lt_of_le (by norm_num) lo
  obtain ⟨l, hl, el⟩ := C134_length_partial hs hu h0 h1 v (le_trans (by norm_num) lo) hi
  obtain ⟨s1, s2⟩ := hs _ hS
  have s3 : 1 + 1 / 2 ^ 20 ≤ sqrt (sqLen v) := by
    by_contra h
    push Not at h
    have := mul_lt_mul'' h h s1.le s1.le
    rw [s2] at this
    nlinarith
  set T := sqrt (sqLen v) with hT
  obtain ⟨l1, l2⟩ := abs_le.mp el
  have g1 : (1 - 1 / 2 ^ 23) * T ≤ l := by linarith
  have g2 : l ≤ (1 + 1 / 2 ^ 23) * T := by linarith
  have l0 : 0 < l := lt_of_lt_of_le (mul_pos (by norm_num) s1) g1
  have big : 1 + 1 / 2 ^ 21 ≤ l := by
    have := mul_le_mul_of_nonneg_left s3 (show (0 : K) ≤ 1 - 1 / 2 ^ 23 by norm_num)
    have : (1 : K) + 1 / 2 ^ 21 ≤ (1 - 1 / 2 ^ 23) * (1 + 1 / 2 ^ 20) := by norm_num
    linarith
  have c : ¬ (l ≤ eps ∨ R.rnd (l - 1) ≤ eps) := by
    have r := (KD.rel_bounds hu (show 0 ≤ l - 1 by linarith)).1
    have q : (1 - u) * (1 / 2 ^ 21) ≤ (1 - u) * (l - 1) := mul_le_mul_of_nonneg_left (by linarith) (by linarith)
    have q2 : (1 - 1 / 2 ^ 40) * (1 / 2 ^ 21) ≤ (1 - u) * (1 / 2 ^ 21) := mul_le_mul_of_nonneg_right (by linarith) (by norm_num)
    have e : (eps : K) < (1 - 1 / 2 ^ 40) * (1 / 2 ^ 21) := by unfold eps; norm_num
    have e' : (eps : K) < 1 := by unfold eps; norm_num
    push Not
    constructor <;> linarith
  have e : sqLen (unitize sqrt v) = R.rnd (v.x.val / l) ^ 2 + R.rnd (v.y.val / l) ^ 2 + R.rnd (v.z.val / l) ^ 2 := by
    unfold unitize
    rw [hl]
    dsimp only
    rw [if_neg c]; rfl
  obtain ⟨x1, x2⟩ := quot_sq hu h0 h1 (v.x.val / l)
  obtain ⟨y1, y2⟩ := quot_sq hu h0 h1 (v.y.val / l)
  obtain ⟨z1, z2⟩ := quot_sq hu h0 h1 (v.z.val / l)
  have q : (v.x.val / l) ^ 2 + (v.y.val / l) ^ 2 + (v.z.val / l) ^ 2 = T * T / l ^ 2 := by
    rw [s2]; unfold sqLen; field_simp
  have w1 : T * T / l ^ 2 ≤ 1 + 1 / 2 ^ 22 + 1 / 2 ^ 24 := by
    rw [div_le_iff₀ (by positivity)]
    have := mul_le_mul g1 g1 (mul_nonneg (by norm_num) s1.le) l0.le
    have e3 : (1 : K) ≤ (1 + 1 / 2 ^ 22 + 1 / 2 ^ 24) * (1 - 1 / 2 ^ 23) ^ 2 := by norm_num
    nlinarith [mul_pos s1 s1]
  have w2 : 1 - 1 / 2 ^ 22 ≤ T * T / l ^ 2 := by
    rw [le_div_iff₀ (by positivity)]
    have := mul_le_mul g2 g2 l0.le (mul_nonneg (by norm_num) s1.le)
    have e3 : (1 - 1 / 2 ^ 22 : K) * (1 + 1 / 2 ^ 23) ^ 2 ≤ 1 := by norm_num
    nlinarith [mul_pos s1 s1]
  rw [e, abs_le]
  constructor <;> linarith

/-- **C134** (partial: single precision): the conversion rounds to the nearest number of type `float`, and of two equally near ones to the one with the even last digit. -/
theorem C134_conversion_partial (x r : K) (h : toFloat x = some r) :
    ∃ m : ℤ, r = m * floatUlp x ∧ |x - r| ≤ floatUlp x / 2 ∧ (|x - r| = floatUlp x / 2 → Even m) := by
  have hp := floatUlp_pos x
  unfold toFloat at h
  dsimp only at h
  split_ifs at h
  obtain rfl := Option.some.inj h
  refine ⟨roundEven (x / floatUlp x), rfl, ?_⟩
  have e : x - (roundEven (x / floatUlp x) : K) * floatUlp x = (x / floatUlp x - roundEven (x / floatUlp x)) * floatUlp x := by
    rw [sub_mul, div_mul_cancel₀ _ hp.ne']
  rw [e, abs_mul, abs_of_pos hp, abs_sub_comm]
  refine ⟨?_, fun h => roundEven_tie ?_⟩
  · have := mul_le_mul_of_nonneg_right (roundEven_error (x / floatUlp x)) hp.le
    linarith
  · have h : |(roundEven (x / floatUlp x) : K) - x / floatUlp x| * floatUlp x = 1 / 2 * floatUlp x := by linarith
    exact mul_right_cancel₀ hp.ne' h

/-- `2 ^ 24 + 1` lies between two numbers of type `float` and is rounded down, `2 ^ 24 + 3` is rounded up. -/
example : toFloat (2 ^ 24 + 1 : ℚ) = some (2 ^ 24) ∧ toFloat (2 ^ 24 + 3 : ℚ) = some (2 ^ 24 + 4) := by decide +kernel

/-! ### Collinearity -/

omit [IsStrictOrderedRing K] in
theorem unitize_axes {a : Vec3 (Fp R)} : (a.x = 0 → (unitize sqrt a).x = 0) ∧ (a.y = 0 → (unitize sqrt a).y = 0) ∧ (a.z = 0 → (unitize sqrt a).z = 0) := by
  have z : (0 : Fp R).val = 0 := R.zero
  have q : ∀ l : K, Fp.round R ((0 : Fp R).val / l) = 0 := by
    intro l
    rw [z, zero_div]; rfl
  unfold unitize
  split
  · exact ⟨fun _ => rfl, fun _ => rfl, fun _ => rfl⟩
  · split
    · exact ⟨id, id, id⟩
    · refine ⟨fun h => ?_, fun h => ?_, fun h => ?_⟩ <;> · simp only [h, q]

/-- C135: vectors along different axes are never collinear, whatever the rounding. -/
theorem C135_axes (a b : Vec3 (Fp R)) (h1 : a.x = 0 ∨ b.x = 0) (h2 : a.y = 0 ∨ b.y = 0) (h3 : a.z = 0 ∨ b.z = 0) : collinear sqrt a b = false := by
  have z : (0 : Fp R).val = 0 := R.zero
  have m : ∀ s t : Fp R, s = 0 ∨ t = 0 → s * t = 0 := by
    rintro s t (rfl | rfl)
    · show Fp.round R ((0 : Fp R).val * t.val) = 0
      rw [z, zero_mul]; rfl
    · show Fp.round R (s.val * (0 : Fp R).val) = 0
      rw [z, mul_zero]; rfl
  have p : (0 : Fp R) + 0 = 0 := by
    show Fp.round R ((0 : Fp R).val + (0 : Fp R).val) = 0
    rw [z, add_zero]; rfl
  have A := unitize_axes (sqrt := sqrt) (a := a)
  have B := unitize_axes (sqrt := sqrt) (a := b)
  unfold collinear Vec3.dot
  rw [m _ _ (h1.imp A.1 B.1), m _ _ (h2.imp A.2.1 B.2.1), m _ _ (h3.imp A.2.2 B.2.2), p, p, z]
  simp

/-- Two points of different axes. -/
example (R : Rounding ℚ) (sqrt : ℚ → ℚ) : collinear sqrt (⟨Fp.round R 7, 0, 0⟩ : Vec3 (Fp R)) ⟨0, Fp.round R (-2), 0⟩ = false :=
  C135_axes _ _ (.inr rfl) (.inl rfl) (.inl rfl)

/-- C135, where it fails: two points with weight one on different axes are collinear as `vec4` with NEON, because the dot product counts the
weights; without NEON they are not. -/
theorem C135_vec4_axes {K : Type} [Field K] [LinearOrder K] [IsStrictOrderedRing K] (sqrt : K → K) (neon : Bool) (a b : Vec4 K)
    (ha : a.w = 1) (hb : b.w = 1) (h1 : a.x = 0 ∨ b.x = 0) (h2 : a.y = 0 ∨ b.y = 0) (h3 : a.z = 0 ∨ b.z = 0) : collinear4 sqrt neon a b = neon := by
  have A : ∀ a : Vec4 K, a.w = 1 →
      (a.x = 0 → (unitize4 sqrt a).x = 0) ∧ (a.y = 0 → (unitize4 sqrt a).y = 0) ∧ (a.z = 0 → (unitize4 sqrt a).z = 0) ∧ (unitize4 sqrt a).w = 1 := by
    intro a hw
    unfold unitize4
    dsimp only
    split
    · exact ⟨id, id, id, hw⟩
    · refine ⟨fun h => ?_, fun h => ?_, fun h => ?_, rfl⟩ <;> simp [h]
  have A1 := A a ha
  have B1 := A b hb
  have k1 := mul_eq_zero.mpr (h1.imp A1.1 B1.1)
  have k2 := mul_eq_zero.mpr (h2.imp A1.2.1 B1.2.1)
  have k3 := mul_eq_zero.mpr (h3.imp A1.2.2.1 B1.2.2.1)
  unfold collinear4
  cases neon <;> simp [dot4, k1, k2, k3, A1.2.2.2, B1.2.2.2]

/-- The points `(3, 0, 0)` and `(0, 0, 5)`. -/
example (neon : Bool) : collinear4 Real.sqrt neon (⟨3, 0, 0, 1⟩ : Vec4 ℝ) ⟨0, 0, 5, 1⟩ = neon :=
  C135_vec4_axes _ _ _ _ rfl rfl (.inr rfl) (.inl rfl) (.inl rfl)

/-- C135, where it fails: no point with weight one away from the origin is collinear with itself as a `vec4`, with or without NEON. -/
theorem C135_vec4 {K : Type} [Field K] [LinearOrder K] [IsStrictOrderedRing K] {sqrt : K → K} (hs : IsSqrt sqrt) (neon : Bool) (a : Vec4 K) (hw : a.w = 1)
    (hl : (1 + 1 / 2 ^ 51) ^ 2 ≤ a.x ^ 2 + a.y ^ 2 + a.z ^ 2 + 1) : collinear4 sqrt neon a a = false := by
  have e : sqLength4 a = a.x ^ 2 + a.y ^ 2 + a.z ^ 2 + 1 := by unfold sqLength4; rw [hw]; ring
  have h1 : 0 < sqLength4 a := by rw [e]; positivity
  obtain ⟨s1, s2⟩ := hs _ h1
  have s3 : 1 + 1 / 2 ^ 51 ≤ sqrt (sqLength4 a) := by
    by_contra h
    push Not at h
    have := mul_lt_mul'' h h s1.le s1.le
    rw [s2, e] at this
    nlinarith
  have c : ¬ (sqrt (sqLength4 a) ≤ eps ∨ sqrt (sqLength4 a) - 1 ≤ eps) := by
    have e : (eps : K) < 1 / 2 ^ 51 := by unfold eps; norm_num
    have e2 : (eps : K) < 1 := by unfold eps; norm_num
    push Not
    constructor <;> linarith
  have q : unitize4 sqrt a = ⟨a.x / sqrt (sqLength4 a), a.y / sqrt (sqLength4 a), a.z / sqrt (sqLength4 a), 1⟩ := by
    unfold unitize4
    simp only [if_neg c, hw, one_mul]
  set l := sqrt (sqLength4 a) with hl'
  have l0 : l ≠ 0 := s1.ne'
  have k : a.x ^ 2 + a.y ^ 2 + a.z ^ 2 = l * l - 1 := by rw [s2, e]; ring
  have d : (a.x / l) * (a.x / l) + (a.y / l) * (a.y / l) + (a.z / l) * (a.z / l) = 1 - 1 / (l * l) := by
    have : 1 - 1 / (l * l) = (l * l - 1) / (l * l) := by field_simp
    rw [this, ← k]; field_simp
  have l1 : 1 < l * l := by nlinarith
  have m0 : 0 < 1 / (l * l) := by positivity
  have m1 : 1 / (l * l) < 1 := by rw [div_lt_one (by positivity)]; exact l1
  unfold collinear4
  rw [decide_eq_false_iff_not, q]
  cases neon
  · simp only [dot4, Bool.false_eq_true, if_false, d]
    rw [abs_of_pos (by linarith)]
    linarith
  · have : dot4 true (⟨a.x / l, a.y / l, a.z / l, 1⟩ : Vec4 K) ⟨a.x / l, a.y / l, a.z / l, 1⟩ = 1 - 1 / (l * l) + 1 := by
      simp only [dot4, if_true]; linear_combination d
    rw [this, abs_of_pos (by linarith)]
    linarith

end

section exact
variable {K : Type} [Field K] [LinearOrder K] [IsStrictOrderedRing K] {sqrt : K → K}

theorem unitize3_long (hs : IsSqrt sqrt) {v : Vec3 K} (h : (1 + 1 / 2 ^ 51) ^ 2 ≤ v.sqLength) :
    0 < sqrt v.sqLength ∧ sqrt v.sqLength * sqrt v.sqLength = v.sqLength ∧
      Geom.unitize3 sqrt v = ⟨v.x / sqrt v.sqLength, v.y / sqrt v.sqLength, v.z / sqrt v.sqLength⟩ := by
  have h1 : 0 < v.sqLength := lt_of_lt_of_le (by positivity) h
  obtain ⟨s1, s2⟩ := hs _ h1
  have s3 : 1 + 1 / 2 ^ 51 ≤ sqrt v.sqLength := by
    by_contra h'
    push Not at h'
    have := mul_lt_mul'' h' h' s1.le s1.le
    rw [s2] at this
    nlinarith
  refine ⟨s1, s2, ?_⟩
  unfold Geom.unitize3
  refine if_neg ?_
  have e : (Geom.machEps : K) < 1 / 2 ^ 51 := by unfold Geom.machEps; norm_num
  have e2 : (Geom.machEps : K) < 1 := by unfold Geom.machEps; norm_num
  push Not
  constructor <;> linarith

/-- **C135** (partial: in exact arithmetic, and only for vectors longer than one): `collinear` holds exactly for vectors whose cross product is zero. -/
theorem C135_collinear_partial (hs : IsSqrt sqrt) (a b : Vec3 K) (ha : (1 + 1 / 2 ^ 51) ^ 2 ≤ a.sqLength) (hb : (1 + 1 / 2 ^ 51) ^ 2 ≤ b.sqLength) :
    collinear3 sqrt a b = true ↔ a.y * b.z = a.z * b.y ∧ a.z * b.x = a.x * b.z ∧ a.x * b.y = a.y * b.x := by
  obtain ⟨a1, a2, a3⟩ := unitize3_long hs ha
  obtain ⟨b1, b2, b3⟩ := unitize3_long hs hb
  unfold collinear3
  rw [decide_eq_true_iff, a3, b3]
  set la := sqrt a.sqLength
  set lb := sqrt b.sqLength
  have e : (⟨a.x / la, a.y / la, a.z / la⟩ : Vec3 K).dot ⟨b.x / lb, b.y / lb, b.z / lb⟩ = (a.x * b.x + a.y * b.y + a.z * b.z) / (la * lb) := by
    simp only [Vec3.dot]; field_simp
  have hp : 0 < la * lb := mul_pos a1 b1
  rw [e, abs_div, abs_of_pos hp, div_eq_one_iff_eq hp.ne', ← abs_of_pos hp, ← sq_eq_sq_iff_abs_eq_abs]
  have e2 : (la * lb) ^ 2 = (a.x * a.x + a.y * a.y + a.z * a.z) * (b.x * b.x + b.y * b.y + b.z * b.z) := by
    rw [mul_pow, sq, sq, a2, b2]; rfl
  rw [e2]
  constructor
  · intro h
    have z : (a.y * b.z - a.z * b.y) ^ 2 + (a.z * b.x - a.x * b.z) ^ 2 + (a.x * b.y - a.y * b.x) ^ 2 = 0 := by linear_combination -h
    have k1 := sq_nonneg (a.y * b.z - a.z * b.y)
    have k2 := sq_nonneg (a.z * b.x - a.x * b.z)
    have k3 := sq_nonneg (a.x * b.y - a.y * b.x)
    exact ⟨sub_eq_zero.mp (pow_eq_zero_iff two_ne_zero |>.mp (by linarith)), sub_eq_zero.mp (pow_eq_zero_iff two_ne_zero |>.mp (by linarith)),
      sub_eq_zero.mp (pow_eq_zero_iff two_ne_zero |>.mp (by linarith))⟩
  · rintro ⟨h1, h2, h3⟩
    linear_combination -(a.y * b.z - a.z * b.y) * h1 - (a.z * b.x - a.x * b.z) * h2 - (a.x * b.y - a.y * b.x) * h3

/-- C135, where it fails: a vector shorter than one, which `unit` leaves alone, is not collinear with itself. -/
theorem C135_short (hs : IsSqrt sqrt) (h0 : sqrt 0 = 0) (a : Vec3 K) (ha : a.sqLength < 1) : collinear3 sqrt a a = false := by
  have n : 0 ≤ a.sqLength := by
    simp only [Vec3.sqLength]
    nlinarith [mul_self_nonneg a.x, mul_self_nonneg a.y, mul_self_nonneg a.z]
  have l : sqrt a.sqLength ≤ 1 := by
    rcases n.eq_or_lt with e | e
    · rw [← e, h0]; exact zero_le_one
    · obtain ⟨s1, s2⟩ := hs _ e
      nlinarith
  have q : Geom.unitize3 sqrt a = a := by
    unfold Geom.unitize3
    refine if_pos (Or.inr ?_)
    have : (0 : K) ≤ Geom.machEps := by unfold Geom.machEps; positivity
    linarith
  unfold collinear3
  rw [decide_eq_false_iff_not, q, show a.dot a = a.sqLength from rfl, abs_of_nonneg n]
  exact ha.ne

/-- C135: `project` on `vec4` (without NEON) leaves a remainder at right angles to the other vector, and does not depend on its length. -/
theorem C135_project4 (a b : Vec4 K) (hb : b.x ^ 2 + b.y ^ 2 + b.z ^ 2 ≠ 0) :
    (a.x - (project4 false a b).x) * b.x + (a.y - (project4 false a b).y) * b.y + (a.z - (project4 false a b).z) * b.z = 0 ∧
      ∃ f, project4 false a b = ⟨b.x * f, b.y * f, b.z * f, b.w * f⟩ := by
  refine ⟨?_, _, rfl⟩
  have hb' : b.x * b.x + b.y * b.y + b.z * b.z ≠ 0 := by simpa only [sq] using hb
  simp only [project4, dot4, Bool.false_eq_true, if_false]
  field_simp
  ring

end exact

/-! ### Counterexamples with the rounding of `double` -/

/-- The rounding of `double`. -/
noncomputable abbrev R53 : Rounding ℝ := Rounding.float 53 (by norm_num)

/-- A real number as a `double`. -/
noncomputable def dbl (x : ℝ) : Fp R53 := Fp.round R53 x

theorem rnd_dyadic (n : ℕ) (k : ℤ) (hn : n < 2 ^ 53) {x : ℝ} (h : x = n * 2 ^ k) : R53.rnd x = x := by
  rw [h]; exact nearest_dyadic 53 n k hn

/-- The vector `(2, 2 ^ -12, 0)`. -/
noncomputable def skew : Vec3 (Fp R53) := ⟨dbl 2, dbl (1 / 2 ^ 12), dbl 0⟩

theorem skew_vals : skew.x.val = 2 ∧ skew.y.val = 1 / 2 ^ 12 ∧ skew.z.val = 0 :=
  ⟨rnd_dyadic 2 0 (by norm_num) (by norm_num), rnd_dyadic 1 (-12) (by norm_num) (by rw [zpow_neg]; norm_num), R53.zero⟩

theorem skew_sq : skew.sqLength.val = 4 + 1 / 2 ^ 24 := by
  obtain ⟨hx, hy, hz⟩ := skew_vals
  show R53.rnd (R53.rnd (R53.rnd (skew.x.val * skew.x.val) + R53.rnd (skew.y.val * skew.y.val)) + R53.rnd (skew.z.val * skew.z.val)) = _
  rw [hx, hy, hz, rnd_dyadic (x := 2 * 2) 4 0 (by norm_num) (by norm_num),
    rnd_dyadic (x := 1 / 2 ^ 12 * (1 / 2 ^ 12)) 1 (-24) (by norm_num) (by rw [zpow_neg]; norm_num), mul_zero, R53.zero, add_zero]
  rw [rnd_dyadic (x := 2 * 2 + 1 / 2 ^ 12 * (1 / 2 ^ 12)) (2 ^ 26 + 1) (-24) (by norm_num) (by rw [zpow_neg]; norm_num)]
  rw [rnd_dyadic (x := 2 * 2 + 1 / 2 ^ 12 * (1 / 2 ^ 12)) (2 ^ 26 + 1) (-24) (by norm_num) (by rw [zpow_neg]; norm_num)]
  norm_num

theorem log_eq {x : ℝ} (k : ℤ) (h1 : (2 : ℝ) ^ k ≤ x) (h2 : x < (2 : ℝ) ^ (k + 1)) : Int.log 2 x = k := by
  have hx : 0 < x := lt_of_lt_of_le (zpow_pos (by norm_num) _) h1
  have a : k ≤ Int.log 2 x := by rw [← Int.zpow_le_iff_le_log (by norm_num) hx]; exact_mod_cast h1
  have b : Int.log 2 x < k + 1 := by rw [← Int.lt_zpow_iff_log_lt (by norm_num) hx]; exact_mod_cast h2
  omega

theorem toFloat_eq {x : ℝ} (k : ℤ) (n : ℤ) (hk : -126 ≤ k) (h1 : (2 : ℝ) ^ k ≤ x) (h2 : x < (2 : ℝ) ^ (k + 1)) (h3 : n * (2 : ℝ) ^ (k - 23) ≤ x)
    (h4 : x < (n + 1 / 2) * (2 : ℝ) ^ (k - 23)) (h5 : n * (2 : ℝ) ^ (k - 23) < 2 ^ 128) : toFloat x = some (n * (2 : ℝ) ^ (k - 23)) := by
  have hp : (0 : ℝ) < (2 : ℝ) ^ (k - 23) := zpow_pos (by norm_num) _
  have hu : floatUlp x = (2 : ℝ) ^ (k - 23) := by
    unfold floatUlp
    rw [log_eq k h1 h2]
    exact max_eq_left (zpow_le_zpow_right₀ (by norm_num) (by omega))
  unfold toFloat
  dsimp only
  rw [hu, roundEven_of_floor n (by rwa [le_div_iff₀ hp]) (by rw [sub_lt_iff_lt_add, div_lt_iff₀ hp, add_comm]; exact h4), if_pos h5]

theorem skew_length : length Real.sqrt skew = some 2 := by
  unfold length
  rw [skew_sq, toFloat_eq 2 (2 ^ 23) (by norm_num) (by norm_num) (by norm_num) (by norm_num) (by norm_num) (by norm_num)]
  have e : ((2 ^ 23 : ℤ) : ℝ) * 2 ^ ((2 : ℤ) - 23) = 2 * 2 := by norm_num
  rw [Option.bind_some, e, Real.sqrt_mul_self (by norm_num),
    toFloat_eq 1 (2 ^ 23) (by norm_num) (by norm_num) (by norm_num) (by norm_num) (by norm_num) (by norm_num)]
  norm_num

/-- C134, where it fails: the length of `(2, 2 ^ -12, 0)` is wrong in the ninth decimal place, not in the sixteenth. -/
theorem C134_precision_counterexample :
    ∃ (v : Vec3 (Fp R53)) (l : ℝ), length Real.sqrt v = some l ∧ 1 / 2 ^ 28 * Real.sqrt (sqLen v) < |l - Real.sqrt (sqLen v)| := by
  refine ⟨skew, 2, skew_length, ?_⟩
  obtain ⟨hx, hy, hz⟩ := skew_vals
  have e : sqLen skew = 4 + 1 / 2 ^ 24 := by unfold sqLen; rw [hx, hy, hz]; norm_num
  rw [e]
  have h1 : (2 + 1 / 2 ^ 26 - 1 / 2 ^ 50 : ℝ) ≤ Real.sqrt (4 + 1 / 2 ^ 24) := Real.le_sqrt_of_sq_le (by norm_num)
  rw [abs_sub_comm, abs_of_nonneg (by norm_num at h1 ⊢; linarith)]
  norm_num at h1 ⊢
  linarith

theorem skew_unit : unitize Real.sqrt skew = ⟨dbl 1, dbl (1 / 2 ^ 13), dbl 0⟩ := by
  obtain ⟨hx, hy, hz⟩ := skew_vals
  unfold unitize
  rw [skew_length]
  dsimp only
  have r1 : R53.rnd (2 - 1) = 1 := by
    have := rnd_dyadic (x := 2 - 1) 1 0 (by norm_num) (by norm_num)
    rw [this]; norm_num
  rw [if_neg (by rw [r1]; unfold eps; norm_num), hx, hy, hz]
  simp only [dbl]
  congr 2 <;> norm_num

/-- C135, where it fails: with the rounding of the code even the long vector `(2, 2 ^ -12, 0)` is not collinear with itself. -/
theorem C135_rounded_counterexample : ∃ v : Vec3 (Fp R53), 4 ≤ sqLen v ∧ collinear Real.sqrt v v = false := by
  obtain ⟨hx, hy, hz⟩ := skew_vals
  refine ⟨skew, by unfold sqLen; rw [hx, hy, hz]; norm_num, ?_⟩
  unfold collinear
  rw [decide_eq_false_iff_not, skew_unit]
  have v1 : (dbl 1).val = 1 := rnd_dyadic 1 0 (by norm_num) (by norm_num)
  have v2 : (dbl (1 / 2 ^ 13)).val = 1 / 2 ^ 13 := rnd_dyadic 1 (-13) (by norm_num) (by rw [zpow_neg]; norm_num)
  have v3 : (dbl 0).val = 0 := R53.zero
  have e : ((⟨dbl 1, dbl (1 / 2 ^ 13), dbl 0⟩ : Vec3 (Fp R53)).dot ⟨dbl 1, dbl (1 / 2 ^ 13), dbl 0⟩).val = 1 + 1 / 2 ^ 26 := by
    show R53.rnd (R53.rnd (R53.rnd ((dbl 1).val * (dbl 1).val) + R53.rnd ((dbl (1 / 2 ^ 13)).val * (dbl (1 / 2 ^ 13)).val)) +
      R53.rnd ((dbl 0).val * (dbl 0).val)) = _
    rw [v1, v2, v3, rnd_dyadic (x := 1 * 1) 1 0 (by norm_num) (by norm_num),
      rnd_dyadic (x := 1 / 2 ^ 13 * (1 / 2 ^ 13)) 1 (-26) (by norm_num) (by rw [zpow_neg]; norm_num), mul_zero, R53.zero, add_zero]
    rw [rnd_dyadic (x := 1 * 1 + 1 / 2 ^ 13 * (1 / 2 ^ 13)) (2 ^ 26 + 1) (-26) (by norm_num) (by rw [zpow_neg]; norm_num)]
    rw [rnd_dyadic (x := 1 * 1 + 1 / 2 ^ 13 * (1 / 2 ^ 13)) (2 ^ 26 + 1) (-26) (by norm_num) (by rw [zpow_neg]; norm_num)]
    norm_num
  rw [e]
  norm_num

/-! ### The hypotheses are met -/

/-- The vector `(2, 2 ^ -12, 0)` meets the hypotheses of `C134_length_partial` and `C134_unit_partial`. -/
example : R53.RelError (1 / 2 ^ 53) ∧ (1 + 1 / 2 ^ 20) ^ 2 ≤ sqLen skew ∧ sqLen skew ≤ 2 ^ 126 := by
  obtain ⟨hx, hy, hz⟩ := skew_vals
  refine ⟨float_error 53 (by norm_num), ?_, ?_⟩ <;> (unfold sqLen; rw [hx, hy, hz]; norm_num)

/-- Two different points at distance zero. -/
example : (⟨dbl (1 / 2 ^ 76), dbl 0, dbl 0⟩ : Vec3 (Fp R53)) ≠ ⟨dbl 0, dbl 0, dbl 0⟩ ∧
    distance Real.sqrt (⟨dbl (1 / 2 ^ 76), dbl 0, dbl 0⟩ : Vec3 (Fp R53)) ⟨dbl 0, dbl 0, dbl 0⟩ = some 0 := by
  have v2 : (dbl (1 / 2 ^ 76)).val = 1 / 2 ^ 76 := rnd_dyadic 1 (-76) (by norm_num) (by rw [zpow_neg]; norm_num)
  have v3 : (dbl 0).val = 0 := R53.zero
  constructor
  · intro h
    have := congrArg (fun v => v.x.val) h
    simp only [v2, v3] at this
    norm_num at this
  · refine C134_underflow Real.sqrt_zero (float_error 53 (by norm_num)) (by norm_num) (by norm_num) _ _ ?_
    simp only [v2, v3]
    norm_num

/-- A vector that `unitize` turns into zero. -/
example : unitize Real.sqrt (⟨dbl (2 ^ 65), dbl 0, dbl 0⟩ : Vec3 (Fp R53)) = ⟨0, 0, 0⟩ := by
  have v2 : (dbl (2 ^ 65)).val = 2 ^ 65 := rnd_dyadic 1 65 (by norm_num) (by norm_num)
  have v3 : (dbl 0).val = 0 := R53.zero
  refine (C134_overflow (float_error 53 (by norm_num)) (by norm_num) (by norm_num) _ ?_).2
  unfold sqLen
  simp only [v2, v3]
  norm_num

/-- Two vectors longer than one, collinear. -/
example : collinear3 Real.sqrt (⟨2, 0, 0⟩ : Vec3 ℝ) ⟨-3, 0, 0⟩ = true :=
  (C135_collinear_partial Geom.real_isSqrt _ _ (by norm_num [Vec3.sqLength]) (by norm_num [Vec3.sqLength])).mpr (by norm_num)

/-- A vector shorter than one, and a point with weight one. -/
example : (⟨1 / 2, 0, 0⟩ : Vec3 ℚ).sqLength < 1 ∧ (1 + 1 / 2 ^ 51) ^ 2 ≤ (1 : ℚ) ^ 2 + 0 ^ 2 + 0 ^ 2 + 1 := by norm_num [Vec3.sqLength]

end Cmm.VecOps
