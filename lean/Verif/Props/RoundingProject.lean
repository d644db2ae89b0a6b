import Verif.Lemmas.RoundingEval
import Verif.Model.VecOps
/-!
The projection of a vector on another with every operation rounded (cmmcore/vec.h 438-440 `vec3::project`).
-/
namespace Cmm.VecFp
variable {K : Type} [Field K] [LinearOrder K] [IsStrictOrderedRing K]

/-- Product with an exact factor. -/
private theorem near_factor {ρ A a b : K} {k : Nat} (c : K) (g : Near ρ k A a b) : Near ρ k (|c| * A) (c * a) (c * b) := by
  refine ⟨by rw [abs_mul]; exact mul_le_mul_of_nonneg_left g.1 (abs_nonneg c), ?_⟩
  rw [← mul_sub, abs_mul]
  calc |c| * |b - a| ≤ |c| * ((ρ ^ k - 1) * A) := mul_le_mul_of_nonneg_left g.2 (abs_nonneg c)
    _ = (ρ ^ k - 1) * (|c| * A) := by ring

/-- The inequality of Cauchy and Schwarz with absolute values, for one coordinate `c` of the second vector. -/
private theorem size_le {a1 a2 a3 b1 b2 b3 c : K} (hb : 0 < b1 * b1 + b2 * b2 + b3 * b3) (hc : c * c ≤ b1 * b1 + b2 * b2 + b3 * b3) :
    (|c| * ((|a1 * b1| + |a2 * b2| + |a3 * b3|) / (b1 * b1 + b2 * b2 + b3 * b3))) ^ 2 ≤ a1 ^ 2 + a2 ^ 2 + a3 ^ 2 := by
  have h1 : (|a1 * b1| + |a2 * b2| + |a3 * b3|) ^ 2 ≤ (a1 ^ 2 + a2 ^ 2 + a3 ^ 2) * (b1 * b1 + b2 * b2 + b3 * b3) := by
    rw [abs_mul, abs_mul, abs_mul, ← sq_abs a1, ← sq_abs a2, ← sq_abs a3, ← abs_mul_abs_self b1, ← abs_mul_abs_self b2, ← abs_mul_abs_self b3]
    nlinarith [sq_nonneg (|a1| * |b2| - |a2| * |b1|), sq_nonneg (|a1| * |b3| - |a3| * |b1|), sq_nonneg (|a2| * |b3| - |a3| * |b2|)]
  rw [mul_pow, sq_abs, div_pow, ← mul_div_assoc, div_le_iff₀ (by positivity)]
  have h2 : 0 ≤ a1 ^ 2 + a2 ^ 2 + a3 ^ 2 := by positivity
  calc c ^ 2 * (|a1 * b1| + |a2 * b2| + |a3 * b3|) ^ 2
      ≤ (b1 * b1 + b2 * b2 + b3 * b3) * ((a1 ^ 2 + a2 ^ 2 + a3 ^ 2) * (b1 * b1 + b2 * b2 + b3 * b3)) :=
        mul_le_mul (by rw [pow_two]; exact hc) h1 (sq_nonneg _) hb.le
    _ = (a1 ^ 2 + a2 ^ 2 + a3 ^ 2) * (b1 * b1 + b2 * b2 + b3 * b3) ^ 2 := by ring

/-- **C154**: each coordinate of the computed projection of `a` on `b` differs from that of the exact orthogonal projection by at most `1 / (1 - u) ^ 8 - 1`
times the length of `a`, for every `b` other than zero. -/
theorem C154_project_error {R : Rounding K} {u : K} (hu : R.RelError u) (h0 : 0 ≤ u) (h1 : u < 1) (a b : Vec3 (Fp R))
    (hb : b.x.val ≠ 0 ∨ b.y.val ≠ 0 ∨ b.z.val ≠ 0) :
    let t := (a.x.val * b.x.val + a.y.val * b.y.val + a.z.val * b.z.val) / (b.x.val * b.x.val + b.y.val * b.y.val + b.z.val * b.z.val)
    let e := ((1 / (1 - u)) ^ 8 - 1) ^ 2 * (a.x.val ^ 2 + a.y.val ^ 2 + a.z.val ^ 2)
    ((VecOps.project3 a b).x.val - b.x.val * t) ^ 2 ≤ e ∧ ((VecOps.project3 a b).y.val - b.y.val * t) ^ 2 ≤ e ∧
      ((VecOps.project3 a b).z.val - b.z.val * t) ^ 2 ≤ e := by
  intro t e
  have h : ErrUnit R u (1 / (1 - u)) := ⟨hu, h0, h1, by rw [one_div, inv_mul_cancel₀ (by linarith)]⟩
  have m := fun x y : K => (Near.refl h (k := 0) (le_refl |x * y|)).rnd h
  have num := (((((m a.x.val b.x.val).add h (m a.y.val b.y.val)).rnd h).add h ((m a.z.val b.z.val).mono h (l := 2) (by norm_num))).rnd h)
  have q := fun x : K => (Close.refl h (k := 0) (mul_self_nonneg x)).rnd h
  have den := (((((q b.x.val).add (q b.y.val)).rnd h).add ((q b.z.val).mono h (l := 2) (by norm_num))).rnd h)
  have sx := mul_self_nonneg b.x.val
  have sy := mul_self_nonneg b.y.val
  have sz := mul_self_nonneg b.z.val
  have hpos : 0 < b.x.val * b.x.val + b.y.val * b.y.val + b.z.val * b.z.val := by
    rcases hb with g | g | g
    · have := mul_self_pos.2 g; linarith
    · have := mul_self_pos.2 g; linarith
    · have := mul_self_pos.2 g; linarith
  have quo := (num.div h den hpos).rnd h
  have fin : ∀ c : K, c * c ≤ b.x.val * b.x.val + b.y.val * b.y.val + b.z.val * b.z.val →
      (R.rnd (c * (a.dot b / b.dot b).val) - c * t) ^ 2 ≤ e := fun c hc => by
    have g := ((near_factor c quo).rnd h).2
    have := pow_le_pow_left₀ (abs_nonneg _) g 2
    rw [sq_abs, mul_pow] at this
    exact this.trans (mul_le_mul_of_nonneg_left (size_le hpos hc) (sq_nonneg _))
  exact ⟨fin _ (by linarith), fin _ (by linarith), fin _ (by linarith)⟩

/-- **C154** for `double`: at most `1e-15` times the length of `a`. -/
theorem C154_project_double (a b : Vec3 (Fp (Rounding.float (K := ℚ) 53 Nat.one_le_ofNat))) (hb : b.x.val ≠ 0 ∨ b.y.val ≠ 0 ∨ b.z.val ≠ 0) :
    let t := (a.x.val * b.x.val + a.y.val * b.y.val + a.z.val * b.z.val) / (b.x.val * b.x.val + b.y.val * b.y.val + b.z.val * b.z.val)
    let e := (1 / 10 ^ 15) ^ 2 * (a.x.val ^ 2 + a.y.val ^ 2 + a.z.val ^ 2)
    ((VecOps.project3 a b).x.val - b.x.val * t) ^ 2 ≤ e ∧ ((VecOps.project3 a b).y.val - b.y.val * t) ^ 2 ≤ e ∧
      ((VecOps.project3 a b).z.val - b.z.val * t) ^ 2 ≤ e := by
  intro t e
  have k := C154_project_error (float_error 53 Nat.one_le_ofNat) (by norm_num) (by norm_num) a b hb
  have l : ((1 / (1 - 1 / 2 ^ 53 : ℚ)) ^ 8 - 1) ^ 2 ≤ (1 / 10 ^ 15) ^ 2 := by norm_num
  have le := mul_le_mul_of_nonneg_right l (show 0 ≤ a.x.val ^ 2 + a.y.val ^ 2 + a.z.val ^ 2 by positivity)
  exact ⟨k.1.trans le, k.2.1.trans le, k.2.2.trans le⟩

/-- A product of two computed numbers, rounded. -/
private theorem near_mul {R : Rounding K} {u ρ : K} (h : ErrUnit R u ρ) {k l : Nat} {A B a b c d : K} (g : Near ρ k A a b) (g' : Near ρ l B c d) :
    Near ρ (k + l + 1) (A * B) (a * c) (R.rnd (b * d)) := by
  refine Near.rnd h ⟨by rw [abs_mul]; exact mul_le_mul g.1 g'.1 (abs_nonneg _) g.size_nonneg, ?_⟩
  have e : b * d - a * c = b * (d - c) + (b - a) * c := by ring
  rw [e]
  refine (abs_add_le _ _).trans ?_
  rw [abs_mul, abs_mul]
  have h1 : |b| * |d - c| ≤ (ρ ^ k * A) * ((ρ ^ l - 1) * B) := mul_le_mul (g.abs_le_mul h) g'.2 (abs_nonneg _) (mul_nonneg (h.pow_pos k).le g.size_nonneg)
  have h2 : |b - a| * |c| ≤ ((ρ ^ k - 1) * A) * B :=
    mul_le_mul g.2 g'.1 (abs_nonneg _) (mul_nonneg (by linarith [h.one_le_pow k]) g.size_nonneg)
  rw [pow_add]
  linarith

/-- **C154** for the free function `vectorProjection`, that the closest point functions use: the same with one more rounding. -/
theorem C154_vectorProjection_error {R : Rounding K} {u : K} (hu : R.RelError u) (h0 : 0 ≤ u) (h1 : u < 1) (hone : R.rnd 1 = 1) (a b : Vec3 (Fp R))
    (hb : b.x.val ≠ 0 ∨ b.y.val ≠ 0 ∨ b.z.val ≠ 0) :
    let t := (a.x.val * b.x.val + a.y.val * b.y.val + a.z.val * b.z.val) / (b.x.val * b.x.val + b.y.val * b.y.val + b.z.val * b.z.val)
    let e := ((1 / (1 - u)) ^ 9 - 1) ^ 2 * (a.x.val ^ 2 + a.y.val ^ 2 + a.z.val ^ 2)
    ((VecOps.vectorProjection a b).x.val - b.x.val * t) ^ 2 ≤ e ∧ ((VecOps.vectorProjection a b).y.val - b.y.val * t) ^ 2 ≤ e ∧
      ((VecOps.vectorProjection a b).z.val - b.z.val * t) ^ 2 ≤ e := by
  intro t e
  have h : ErrUnit R u (1 / (1 - u)) := ⟨hu, h0, h1, by rw [one_div, inv_mul_cancel₀ (by linarith)]⟩
  have q := fun x : K => (Close.refl h (k := 0) (mul_self_nonneg x)).rnd h
  have den := (((((q b.x.val).add (q b.y.val)).rnd h).add ((q b.z.val).mono h (l := 2) (by norm_num))).rnd h)
  have sx := mul_self_nonneg b.x.val
  have sy := mul_self_nonneg b.y.val
  have sz := mul_self_nonneg b.z.val
  have hpos : 0 < b.x.val * b.x.val + b.y.val * b.y.val + b.z.val * b.z.val := by
    rcases hb with g | g | g
    · have := mul_self_pos.2 g; linarith
    · have := mul_self_pos.2 g; linarith
    · have := mul_self_pos.2 g; linarith
  have self := fun x : K => Near.refl h (k := 0) (le_refl |x|)
  have x3 := ((self 1).div h den hpos).rnd h
  obtain ⟨s, hs⟩ : ∃ s, s = b.x.val * b.x.val + b.y.val * b.y.val + b.z.val * b.z.val := ⟨_, rfl⟩
  obtain ⟨y, hy⟩ : ∃ y, y = R.rnd (1 / R.rnd (R.rnd (R.rnd (b.x.val * b.x.val) + R.rnd (b.y.val * b.y.val)) + R.rnd (b.z.val * b.z.val))) := ⟨_, rfl⟩
  have hval : (1 / (b.x * b.x + b.y * b.y + b.z * b.z) : Fp R).val = y := by
    rw [hy]
    show R.rnd (R.rnd 1 / _) = _
    rw [hone]
    rfl
  rw [← hs, ← hy] at x3
  have x := fun c : K => near_mul h (self c) x3
  have sq := fun c d : K => near_mul h (self c) (self d)
  have fin : ∀ c w A' : K, c * c ≤ s → |w - c * t| ≤ ((1 / (1 - u)) ^ 9 - 1) * A' → A' = |c| * ((|a.x.val * b.x.val| + |a.y.val * b.y.val| + |a.z.val * b.z.val|) / s) →
      (w - c * t) ^ 2 ≤ e := fun c w A' hc hw hA => by
    have := pow_le_pow_left₀ (abs_nonneg _) hw 2
    rw [sq_abs, mul_pow, hA, hs] at this
    exact this.trans (mul_le_mul_of_nonneg_left (size_le hpos (hs ▸ hc)) (sq_nonneg _))
  have sne : s ≠ 0 := by rw [hs]; exact hpos.ne'
  have ht : t = (a.x.val * b.x.val + a.y.val * b.y.val + a.z.val * b.z.val) / s := by rw [hs]
  have sum : ∀ {A B C p q r p' q' r' : K}, Near (1 / (1 - u)) 7 A p p' → Near (1 / (1 - u)) 7 B q q' → Near (1 / (1 - u)) 7 C r r' →
      Near (1 / (1 - u)) 9 (A + B + C) (p + q + r) (R.rnd (R.rnd (p' + q') + r')) := fun gp gq gr =>
    (((gp.add h gq).rnd h).add h (gr.mono h (by norm_num))).rnd h
  have gx := sum (near_mul h (self b.x.val) (near_mul h (self b.z.val) (x a.z.val))) (near_mul h (sq b.x.val b.x.val) (x a.x.val))
    (near_mul h (x a.y.val) (sq b.x.val b.y.val))
  have gy := sum (near_mul h (self b.y.val) (near_mul h (self b.z.val) (x a.z.val))) (near_mul h (sq b.y.val b.y.val) (x a.y.val))
    (near_mul h (sq b.x.val b.y.val) (x a.x.val))
  have gz := sum (near_mul h (sq b.x.val b.z.val) (x a.x.val)) (near_mul h (sq b.y.val b.z.val) (x a.y.val)) (near_mul h (sq b.z.val b.z.val) (x a.z.val))
  refine ⟨fin _ _ _ (by rw [hs]; linarith) (by
      have := gx.2
      rw [← hval] at this
      convert this using 3
      · rfl
      · rw [ht]; ring) (by simp only [abs_mul, abs_one]; ring),
    fin _ _ _ (by rw [hs]; linarith) (by
      have := gy.2
      rw [← hval] at this
      convert this using 3
      · rfl
      · rw [ht]; ring) (by simp only [abs_mul, abs_one]; ring),
    fin _ _ _ (by rw [hs]; linarith) (by
      have := gz.2
      rw [← hval] at this
      convert this using 3
      · rfl
      · rw [ht]; ring) (by simp only [abs_mul, abs_one]; ring)⟩

/-- **C154** for `double`: at most `1e-15` times the length of `a` here too. -/
theorem C154_vectorProjection_double (a b : Vec3 (Fp (Rounding.float (K := ℚ) 53 Nat.one_le_ofNat))) (hb : b.x.val ≠ 0 ∨ b.y.val ≠ 0 ∨ b.z.val ≠ 0) :
    let t := (a.x.val * b.x.val + a.y.val * b.y.val + a.z.val * b.z.val) / (b.x.val * b.x.val + b.y.val * b.y.val + b.z.val * b.z.val)
    let e := (1 / 10 ^ 15) ^ 2 * (a.x.val ^ 2 + a.y.val ^ 2 + a.z.val ^ 2)
    ((VecOps.vectorProjection a b).x.val - b.x.val * t) ^ 2 ≤ e ∧ ((VecOps.vectorProjection a b).y.val - b.y.val * t) ^ 2 ≤ e ∧
      ((VecOps.vectorProjection a b).z.val - b.z.val * t) ^ 2 ≤ e := by
  intro t e
  have k := C154_vectorProjection_error (float_error 53 Nat.one_le_ofNat) (by norm_num) (by norm_num) (by decide +kernel) a b hb
  have l : ((1 / (1 - 1 / 2 ^ 53 : ℚ)) ^ 9 - 1) ^ 2 ≤ (1 / 10 ^ 15) ^ 2 := by norm_num
  have le := mul_le_mul_of_nonneg_right l (show 0 ≤ a.x.val ^ 2 + a.y.val ^ 2 + a.z.val ^ 2 by positivity)
  exact ⟨k.1.trans le, k.2.1.trans le, k.2.2.trans le⟩

/-- The `double` next to a number. -/
private abbrev dbl (x : ℚ) : Fp (Rounding.float (K := ℚ) 53 Nat.one_le_ofNat) := ⟨(Rounding.float (K := ℚ) 53 Nat.one_le_ofNat).rnd x, (Rounding.float (K := ℚ) 53 Nat.one_le_ofNat).idem x⟩

/-- **C154**: in `double` the bound cannot be zero, and projecting again moves the vector: for `a = (9, 2, 1)` and `b = (5, 3, 1)` the projection of the projection
is another vector. -/
theorem C154_again_counterexample : let a : Vec3 _ := ⟨dbl 9, dbl 2, dbl 1⟩
    let b : Vec3 _ := ⟨dbl 5, dbl 3, dbl 1⟩
    (VecOps.project3 (VecOps.project3 a b) b).x.val ≠ (VecOps.project3 a b).x.val ∧ (VecOps.project3 a b).x.val ≠ 5 * (52 / 35) := by
  decide +kernel

/-- The hypothesis is met by a `b` that is not along an axis. -/
example : (dbl 5).val ≠ 0 ∨ (dbl 3).val ≠ 0 ∨ (dbl 1).val ≠ 0 := by
  decide +kernel

end Cmm.VecFp
