import Verif.Model.FloatLength
import Verif.Lemmas.FloatOne
import Verif.Props.KDTree
import Verif.Spec.Newton
/-! Lemmas on rounding to `float`. -/
namespace Cmm.VecOps
open Cmm.Newton
variable {K : Type} [Field K] [LinearOrder K] [IsStrictOrderedRing K] [FloorRing K]

theorem roundEven_error (x : K) : |(roundEven x : K) - x| ≤ 1 / 2 := by
  have h1 := Int.floor_le x
  have h2 := Int.lt_floor_add_one x
  unfold roundEven
  dsimp only
  rw [abs_le]
  split_ifs <;> push_cast <;> constructor <;> linarith

theorem roundEven_tie {x : K} (h : |(roundEven x : K) - x| = 1 / 2) : Even (roundEven x) := by
  have h1 := Int.floor_le x
  have h2 := Int.lt_floor_add_one x
  unfold roundEven at h ⊢
  dsimp only at h ⊢
  split_ifs at h ⊢ with c1 c2 c3
  · rw [abs_sub_comm, abs_of_nonneg (by linarith)] at h; linarith
  · push_cast at h; rw [abs_of_nonneg (by linarith)] at h; linarith
  · exact Int.even_iff.mpr c3
  · rw [Int.even_iff]; omega

theorem roundEven_of_floor {x : K} (n : Int) (h1 : (n : K) ≤ x) (h2 : x - n < 1 / 2) : roundEven x = n := by
  have : ⌊x⌋ = n := by rw [Int.floor_eq_iff]; constructor <;> linarith
  unfold roundEven
  simp only [this, if_pos h2]

theorem roundEven_nonneg {x : K} (h : 0 ≤ x) : 0 ≤ roundEven x := by
  have := Int.floor_nonneg.mpr h
  unfold roundEven
  dsimp only
  split_ifs <;> omega

theorem floatUlp_pos (x : K) : 0 < floatUlp x := lt_max_of_lt_left (zpow_pos (by norm_num) _)

/-- In the range of normal numbers the conversion is exact up to half a unit in the last place. -/
theorem toFloat_near {x : K} (h1 : (2 : K) ^ (-126 : ℤ) ≤ x) (h2 : x ≤ 2 ^ 127) : ∃ r, toFloat x = some r ∧ |r - x| ≤ 1 / 2 ^ 24 * x := by
  have hx : 0 < x := lt_of_lt_of_le (zpow_pos (by norm_num) _) h1
  have hl : -126 ≤ Int.log 2 x := by
    rw [← Int.zpow_le_iff_le_log (by norm_num) hx]; exact_mod_cast h1
  have hu : floatUlp x = (2 : K) ^ (Int.log 2 x - 23) := max_eq_left (zpow_le_zpow_right₀ (by norm_num) (by omega))
  have hp := floatUlp_pos x
  have k1 := Int.zpow_log_le_self (b := 2) (by norm_num) hx
  push_cast at k1
  have k2 : floatUlp x * 2 ^ 23 ≤ x := by
    refine le_trans (le_of_eq ?_) k1
    rw [hu, ← zpow_natCast, ← zpow_add₀ (by norm_num)]; congr 1; push_cast; ring
  have e := roundEven_error (x / floatUlp x)
  have key : |(roundEven (x / floatUlp x) : K) * floatUlp x - x| ≤ 1 / 2 ^ 24 * x := by
    have : (roundEven (x / floatUlp x) : K) * floatUlp x - x = ((roundEven (x / floatUlp x) : K) - x / floatUlp x) * floatUlp x := by
      rw [sub_mul, div_mul_cancel₀ _ hp.ne']
    rw [this, abs_mul, abs_of_pos hp]
    calc _ ≤ 1 / 2 * floatUlp x := mul_le_mul_of_nonneg_right e hp.le
      _ ≤ 1 / 2 ^ 24 * x := by linarith
  refine ⟨_, if_pos ?_, key⟩
  have := (abs_le.mp key).2
  have : (0 : K) < 2 ^ 127 := by positivity
  have e2 : (2 : K) ^ 128 = 2 * 2 ^ 127 := by ring
  rw [e2]
  linarith

theorem toFloat_zero : toFloat (0 : K) = some 0 := by
  have : roundEven ((0 : K) / floatUlp 0) = 0 := by
    rw [zero_div]; exact roundEven_of_floor 0 (by norm_num) (by norm_num)
  unfold toFloat
  dsimp only
  rw [this]; simp

theorem toFloat_small {x : K} (h0 : 0 ≤ x) (h : x < (2 : K) ^ (-150 : ℤ)) : toFloat x = some 0 := by
  rcases h0.eq_or_lt with rfl | h0
  · exact toFloat_zero
  have hl : Int.log 2 x < -150 := by
    rw [← Int.lt_zpow_iff_log_lt (by norm_num) h0]; exact_mod_cast h
  have hu : floatUlp x = (2 : K) ^ (-149 : ℤ) := max_eq_right (zpow_le_zpow_right₀ (by norm_num) (by omega))
  have hp := floatUlp_pos x
  have : roundEven (x / floatUlp x) = 0 := by
    refine roundEven_of_floor 0 (by push_cast; positivity) ?_
    rw [Int.cast_zero, sub_zero, div_lt_iff₀ hp, hu]
    refine lt_of_lt_of_eq h ?_
    rw [show (-149 : ℤ) = -150 + 1 by norm_num, zpow_add₀ (by norm_num)]; ring
  unfold toFloat
  dsimp only
  rw [this]; simp

theorem toFloat_large {x : K} (h : (2 : K) ^ 128 ≤ x) : toFloat x = none := by
  have hx : 0 < x := lt_of_lt_of_le (by positivity) h
  have hl : 128 ≤ Int.log 2 x := by
    rw [← Int.zpow_le_iff_le_log (by norm_num) hx]; exact_mod_cast h
  have hu : floatUlp x = (2 : K) ^ (Int.log 2 x - 23) := max_eq_left (zpow_le_zpow_right₀ (by norm_num) (by omega))
  have hp := floatUlp_pos x
  have k1 := Int.zpow_log_le_self (b := 2) (by norm_num) hx
  push_cast at k1
  have k2 : (2 : K) ^ 23 ≤ x / floatUlp x := by
    rw [le_div_iff₀ hp]
    refine le_trans (le_of_eq ?_) k1
    rw [hu, ← zpow_natCast, ← zpow_add₀ (by norm_num)]; congr 1; push_cast; ring
  have k3 : (2 ^ 23 : ℤ) ≤ roundEven (x / floatUlp x) := by
    have : (2 ^ 23 : ℤ) ≤ ⌊x / floatUlp x⌋ := by rw [Int.le_floor]; exact_mod_cast k2
    unfold roundEven
    dsimp only
    split_ifs <;> omega
  refine if_neg (not_lt.mpr ?_)
  have k4 : ((2 ^ 23 : ℤ) : K) ≤ (roundEven (x / floatUlp x) : K) := by exact_mod_cast k3
  push_cast at k4
  calc (2 : K) ^ 128 = 2 ^ 23 * 2 ^ (105 : ℤ) := by norm_num
    _ ≤ 2 ^ 23 * floatUlp x := by
      refine mul_le_mul_of_nonneg_left ?_ (by positivity)
      rw [hu]; exact zpow_le_zpow_right₀ (by norm_num) (by omega)
    _ ≤ _ := mul_le_mul_of_nonneg_right (le_trans (by norm_num) k4) hp.le

/-- Numbers with at most `p` binary digits are numbers of the format. -/
theorem nearest_dyadic (p : Nat) (n : ℕ) (k : ℤ) (hn : n < 2 ^ p) : nearest p ((n : K) * 2 ^ k) = (n : K) * 2 ^ k := by
  have h0 : (0 : K) ≤ (n : K) * 2 ^ k := by positivity
  unfold nearest
  rw [if_neg (not_lt.mpr h0)]
  rcases Nat.eq_zero_or_pos n with rfl | hn0
  · simp [nearestPos_zero]
  have hn0' : (0 : K) < n := by exact_mod_cast hn0
  have hx : (0 : K) < (n : K) * 2 ^ k := by positivity
  set x := (n : K) * 2 ^ k with ex
  have hL : Int.log 2 x < p + k := by
    rw [← Int.lt_zpow_iff_log_lt (by norm_num) hx]
    push_cast
    rw [zpow_add₀ (by norm_num), zpow_natCast]
    refine mul_lt_mul_of_pos_right ?_ (zpow_pos (by norm_num) _)
    exact_mod_cast hn
  obtain ⟨m, hm⟩ : ∃ m : ℕ, (m : ℤ) = k - (Int.log 2 x - (p - 1 : ℤ)) := ⟨(k - (Int.log 2 x - (p - 1 : ℤ))).toNat, by omega⟩
  refine nearestPos_fixed p (n * 2 ^ m) ?_
  push_cast
  rw [ulp, mul_assoc, ← zpow_natCast, ← zpow_add₀ (by norm_num), hm, ex]
  congr 2
  ring

theorem IsSqrt.sqrt_eq {sqrt : K → K} (hs : IsSqrt sqrt) {x y : K} (hy : 0 < y) (h : y * y = x) : sqrt x = y := by
  obtain ⟨h1, h2⟩ := hs x (h ▸ mul_pos hy hy)
  nlinarith

omit [FloorRing K] in
/-- The square of the length is computed up to a relative error. -/
theorem sqLength_error {R : Rounding K} {u : K} (hu : R.RelError u) (h0 : 0 ≤ u) (h1 : u ≤ 1) (v : Vec3 (Fp R)) :
    (1 - u) ^ 5 * (v.x.val ^ 2 + v.y.val ^ 2 + v.z.val ^ 2) ≤ v.sqLength.val ∧
    v.sqLength.val ≤ (1 + u) ^ 5 * (v.x.val ^ 2 + v.y.val ^ 2 + v.z.val ^ 2) := by
  have e0 : ∀ a : Fp R, a - 0 = a := fun a => by
    apply Subtype.ext
    show R.rnd (a.val - R.rnd 0) = a.val
    rw [R.zero, sub_zero]; exact a.2
  have e : v - ⟨0, 0, 0⟩ = v := by
    obtain ⟨x, y, z⟩ := v
    show (⟨x - 0, y - 0, z - 0⟩ : Vec3 (Fp R)) = _
    rw [e0, e0, e0]
  have z : (0 : Fp R).val = 0 := R.zero
  have := KD.distanceSq_error hu h0 h1 v ⟨0, 0, 0⟩
  unfold KD.exactSq Vec3.distanceSq at this
  rw [e] at this
  simpa only [z, sub_zero] using this

end Cmm.VecOps
