import Verif.Lemmas.RoundingHull2d
import Verif.Lemmas.RoundingIntegrate
/-!
Which laws of vector algebra are left when every operation is rounded (cmmcore/vec.h).
-/
namespace Cmm.VecFp
open Cmm.Num
variable {K : Type} [Field K] [LinearOrder K]

section
variable {R : Rounding K}

private theorem add_comm' (x y : Fp R) : x + y = y + x := Subtype.ext (congrArg R.rnd (add_comm x.val y.val))

private theorem mul_comm' (x y : Fp R) : x * y = y * x := Subtype.ext (congrArg R.rnd (mul_comm x.val y.val))

private theorem sub_self' (x : Fp R) : x - x = 0 := Subtype.ext (congrArg R.rnd (sub_self x.val))

/-- **C153**: whatever the rounding, sums and dot products do not depend on the order of the two vectors. -/
theorem C153_commutative (a b : Vec3 (Fp R)) (c d : Vec2 (Fp R)) : a + b = b + a ∧ a.dot b = b.dot a ∧ c + d = d + c ∧ c.dot d = d.dot c := by
  refine ⟨?_, ?_, ?_, ?_⟩
  · exact Vec3.ext (add_comm' _ _) (add_comm' _ _) (add_comm' _ _)
  · unfold Vec3.dot
    rw [mul_comm' a.x, mul_comm' a.y, mul_comm' a.z]
  · exact Vec2.ext (add_comm' _ _) (add_comm' _ _)
  · unfold Vec2.dot
    rw [mul_comm' c.x, mul_comm' c.y]

/-- **C153**: whatever the rounding, the difference and the cross product of a vector with itself are zero, exactly. -/
theorem C153_zero (a : Vec3 (Fp R)) (c : Vec2 (Fp R)) : a - a = 0 ∧ a.cross a = 0 ∧ c.cross c = 0 := by
  refine ⟨Vec3.ext (sub_self' _) (sub_self' _) (sub_self' _), ?_, ?_⟩
  · unfold Vec3.cross
    rw [mul_comm' a.z a.y, mul_comm' a.x a.z, mul_comm' a.y a.x, sub_self', sub_self', sub_self']
    rfl
  · unfold Vec2.cross
    rw [mul_comm' c.y c.x, sub_self']

section
variable (hs : ∀ x, R.rnd (-x) = -R.rnd x)
include hs

private theorem sub_neg' (x y : Fp R) : x - y = -(y - x) := by
  apply Subtype.ext
  show R.rnd (x.val - y.val) = R.rnd (-(R.rnd (y.val - x.val)))
  rw [hs, R.idem, ← hs, neg_sub]

/-- **C153**: if rounding treats both signs alike, exchanging the vectors changes the sign of a cross product and of a difference, exactly, and leaves the distance. -/
theorem C153_exchange [IsStrictOrderedRing K] (a b : Vec3 (Fp R)) (c d : Vec2 (Fp R)) :
    b.cross a = -(a.cross b) ∧ b - a = -(a - b) ∧ b.distanceSq a = a.distanceSq b ∧ d.cross c = -(c.cross d) ∧ d.distanceSq c = c.distanceSq d := by
  have sq : ∀ x y : Fp R, (x - y) * (x - y) = (y - x) * (y - x) := fun x y => by
    apply Subtype.ext
    show R.rnd (R.rnd (x.val - y.val) * R.rnd (x.val - y.val)) = R.rnd (R.rnd (y.val - x.val) * R.rnd (y.val - x.val))
    rw [← neg_sub y.val x.val, hs, neg_mul_neg]
  refine ⟨?_, Vec3.ext (sub_neg' hs _ _) (sub_neg' hs _ _) (sub_neg' hs _ _), ?_, ?_, ?_⟩
  · unfold Vec3.cross
    rw [mul_comm' b.y a.z, mul_comm' b.z a.y, mul_comm' b.z a.x, mul_comm' b.x a.z, mul_comm' b.x a.y, mul_comm' b.y a.x]
    exact Vec3.ext (sub_neg' hs _ _) (sub_neg' hs _ _) (sub_neg' hs _ _)
  · show (b.x - a.x) * (b.x - a.x) + (b.y - a.y) * (b.y - a.y) + (b.z - a.z) * (b.z - a.z) = (a.x - b.x) * (a.x - b.x) + (a.y - b.y) * (a.y - b.y) + (a.z - b.z) * (a.z - b.z)
    rw [sq b.x, sq b.y, sq b.z]
  · unfold Vec2.cross
    rw [mul_comm' d.x c.y, mul_comm' d.y c.x]
    exact sub_neg' hs _ _
  · show (d.x - c.x) * (d.x - c.x) + (d.y - c.y) * (d.y - c.y) = (c.x - d.x) * (c.x - d.x) + (c.y - d.y) * (c.y - d.y)
    rw [sq d.x, sq d.y]

end

variable [IsStrictOrderedRing K]

private theorem rnd_nonneg {x : K} (h : 0 ≤ x) : 0 ≤ R.rnd x := by
  have := R.mono 0 x h
  rwa [R.zero] at this

private theorem rnd_zero_iff {u : K} (hu : R.RelError u) (h1 : u < 1) {x : K} : R.rnd x = 0 ↔ x = 0 := by
  refine ⟨fun h => ?_, fun h => by rw [h, R.zero]⟩
  by_contra hx
  have := hu x
  rw [h, zero_sub, abs_neg] at this
  have := abs_pos.2 hx
  nlinarith

/-- **C153**: a squared distance is never negative, and it is zero for equal points only. -/
theorem C153_distance_zero {u : K} (hu : R.RelError u) (h1 : u < 1) (a b : Vec3 (Fp R)) : 0 ≤ (a.distanceSq b).val ∧ ((a.distanceSq b).val = 0 ↔ a = b) := by
  have e : (a.distanceSq b).val = R.rnd (R.rnd (R.rnd (R.rnd (a.x.val - b.x.val) * R.rnd (a.x.val - b.x.val)) + R.rnd (R.rnd (a.y.val - b.y.val) * R.rnd (a.y.val - b.y.val))) +
      R.rnd (R.rnd (a.z.val - b.z.val) * R.rnd (a.z.val - b.z.val))) := rfl
  have p := fun x : K => rnd_nonneg (R := R) (mul_self_nonneg (R.rnd x))
  have z : ∀ x : K, R.rnd (R.rnd x * R.rnd x) = 0 ↔ x = 0 := fun x => by rw [rnd_zero_iff hu h1, mul_self_eq_zero, rnd_zero_iff hu h1]
  rw [e]
  refine ⟨rnd_nonneg (add_nonneg (rnd_nonneg (add_nonneg (p _) (p _))) (p _)), ?_⟩
  rw [rnd_zero_iff hu h1, add_eq_zero_iff_of_nonneg (rnd_nonneg (add_nonneg (p _) (p _))) (p _), rnd_zero_iff hu h1, add_eq_zero_iff_of_nonneg (p _) (p _), z, z, z,
    sub_eq_zero, sub_eq_zero, sub_eq_zero]
  constructor
  · rintro ⟨⟨h1, h2⟩, h3⟩
    exact Vec3.ext (Subtype.ext h1) (Subtype.ext h2) (Subtype.ext h3)
  · rintro rfl
    exact ⟨⟨rfl, rfl⟩, rfl⟩

/-- **C153**: the error of a dot product, relative to the sum of the absolute values of the products. -/
theorem C153_dot_error {u : K} (hu : R.RelError u) (h0 : 0 ≤ u) (a b : Vec3 (Fp R)) :
    |(a.dot b).val - (a.x.val * b.x.val + a.y.val * b.y.val + a.z.val * b.z.val)| ≤ ((1 + u) ^ 3 - 1) * (|a.x.val * b.x.val| + |a.y.val * b.y.val| + |a.z.val * b.z.val|) := by
  have m := fun x y : K => (Num.Near.refl (u := u) (le_refl |x * y|)).rnd hu h0
  have s1 := ((m a.x.val b.x.val).add (m a.y.val b.y.val)).rnd hu h0
  exact ((s1.add (Num.Near.weaken h0 (m a.z.val b.z.val) (by norm_num))).rnd hu h0).2

/-- **C153**: the relative error of a squared distance, however close the points are. -/
theorem C153_distance_error {u : K} (hu : R.RelError u) (h0 : 0 ≤ u) (a b : Vec3 (Fp R)) :
    let d := (a.x.val - b.x.val) ^ 2 + (a.y.val - b.y.val) ^ 2 + (a.z.val - b.z.val) ^ 2
    |(a.distanceSq b).val - d| ≤ ((1 + u) ^ 5 - 1) * d := by
  intro d
  have m := fun x : K => (Num.Near.refl (u := u) (le_refl |x|)).rnd hu h0
  have q := fun x : K => ((m x).mul (m x)).rnd hu h0
  have s1 := ((q (a.x.val - b.x.val)).add (q (a.y.val - b.y.val))).rnd hu h0
  have := ((s1.add (Num.Near.weaken h0 (q (a.z.val - b.z.val)) (by norm_num))).rnd hu h0).2
  simp only [abs_mul_abs_self] at this
  have e : d = (a.x.val - b.x.val) * (a.x.val - b.x.val) + (a.y.val - b.y.val) * (a.y.val - b.y.val) + (a.z.val - b.z.val) * (a.z.val - b.z.val) := by ring
  rw [e]
  exact this

/-- **C153**: the error of a cross product, coordinate by coordinate. -/
theorem C153_cross_error {u : K} (hu : R.RelError u) (h0 : 0 ≤ u) (a b : Vec3 (Fp R)) :
    |(a.cross b).x.val - (a.y.val * b.z.val - a.z.val * b.y.val)| ≤ ((1 + u) ^ 2 - 1) * (|a.y.val * b.z.val| + |a.z.val * b.y.val|) ∧
    |(a.cross b).y.val - (a.z.val * b.x.val - a.x.val * b.z.val)| ≤ ((1 + u) ^ 2 - 1) * (|a.z.val * b.x.val| + |a.x.val * b.z.val|) ∧
    |(a.cross b).z.val - (a.x.val * b.y.val - a.y.val * b.x.val)| ≤ ((1 + u) ^ 2 - 1) * (|a.x.val * b.y.val| + |a.y.val * b.x.val|) := by
  have m := fun x y : K => (Num.Near.refl (u := u) (le_refl |x * y|)).rnd hu h0
  have s : ∀ x y z w : K, |R.rnd (R.rnd (x * y) - R.rnd (z * w)) - (x * y - z * w)| ≤ ((1 + u) ^ 2 - 1) * (|x * y| + |z * w|) := fun x y z w => by
    have := (((m x y).add (Hull2d.near_neg (m z w))).rnd hu h0).2
    rwa [← sub_eq_add_neg, ← sub_eq_add_neg] at this
  exact ⟨s _ _ _ _, s _ _ _ _, s _ _ _ _⟩

end

/-- Rounding to nearest in `double` treats both signs alike, and its unit is `2 ^ -53`. -/
example : (∀ x, (Rounding.float (K := ℚ) 53 Nat.one_le_ofNat).rnd (-x) = -(Rounding.float (K := ℚ) 53 Nat.one_le_ofNat).rnd x) ∧
    (Rounding.float (K := ℚ) 53 Nat.one_le_ofNat).RelError (1 / 2 ^ 53) := by
  refine ⟨fun x => ?_, float_error 53 _⟩
  show nearest 53 (-x) = -nearest 53 x
  unfold nearest
  rcases lt_trichotomy x 0 with h | h | h
  · rw [if_neg (by linarith), if_pos h, neg_neg]
  · subst h
    have : nearestPos 53 (0 : ℚ) = 0 := by decide +kernel
    simp [this]
  · rw [if_pos (by linarith), if_neg (by linarith), neg_neg]

/-- The `double` next to a number. -/
private abbrev dbl (x : ℚ) : Fp (Rounding.float (K := ℚ) 53 Nat.one_le_ofNat) := ⟨(Rounding.float (K := ℚ) 53 Nat.one_le_ofNat).rnd x, (Rounding.float (K := ℚ) 53 Nat.one_le_ofNat).idem x⟩

/-- **C153**: the cross product is not orthogonal to its arguments in `double`: with `a = (0.3, 0.1, 0.5)` and `b = (0.1, 0.5, 0.8)` the computed `a · (a × b)` is not zero. -/
theorem C153_orthogonal_counterexample : let a : Vec3 _ := ⟨dbl (3 / 10), dbl (1 / 10), dbl (5 / 10)⟩
    let b : Vec3 _ := ⟨dbl (1 / 10), dbl (5 / 10), dbl (8 / 10)⟩
    (a.dot (a.cross b)).val ≠ 0 := by
  decide +kernel

/-- **C153**: addition of vectors is not associative in `double`. -/
theorem C153_associative_counterexample : let a : Vec3 _ := ⟨dbl (1 / 10), dbl 0, dbl 0⟩
    let b : Vec3 _ := ⟨dbl (2 / 10), dbl 0, dbl 0⟩
    let c : Vec3 _ := ⟨dbl (3 / 10), dbl 0, dbl 0⟩
    ((a + b) + c).x.val ≠ (a + (b + c)).x.val := by
  decide +kernel

/-- The error bound of the dot product is about a computed value that does differ from the exact one. -/
example : let a : Vec3 _ := ⟨dbl (3 / 10), dbl (1 / 10), dbl (5 / 10)⟩
    (a.dot a).val ≠ a.x.val * a.x.val + a.y.val * a.y.val + a.z.val * a.z.val := by
  decide +kernel

end Cmm.VecFp
