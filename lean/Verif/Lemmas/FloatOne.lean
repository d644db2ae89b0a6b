import Verif.Lemmas.RoundingInsert
/-! Rounding to nearest near one: `alpha + (1 - alpha)` is one. -/
namespace Cmm
variable {K : Type} [Field K] [LinearOrder K] [IsStrictOrderedRing K] [FloorRing K]

theorem nearestPos_half (p : Nat) {x : K} : |nearestPos p x - x| ≤ 1 / 2 * ulp p x := by
  have hq := ulp_pos p x
  have hf := Int.floor_le (x / ulp p x + 1 / 2)
  have hg := Int.lt_floor_add_one (x / ulp p x + 1 / 2)
  have e : nearestPos p x - x = (⌊x / ulp p x + 1 / 2⌋ - x / ulp p x) * ulp p x := by
    rw [nearestPos, sub_mul, div_mul_cancel₀ _ hq.ne']
  have hb : |(⌊x / ulp p x + 1 / 2⌋ : K) - x / ulp p x| ≤ 1 / 2 := by
    rw [abs_le]; constructor <;> linarith
  rw [e, abs_mul, abs_of_pos hq]
  exact mul_le_mul_of_nonneg_right hb hq.le

theorem ulp_of_log (p : Nat) (hp : 1 ≤ p) {x : K} (h : Int.log 2 x = 0) : 2 ^ (p - 1) * ulp p x = 1 := by
  rw [ulp, h, ← zpow_natCast, ← zpow_add₀ (by norm_num)]
  have : ((p - 1 : ℕ) : ℤ) + (0 - ((p : ℤ) - 1)) = 0 := by omega
  rw [this, zpow_zero]

theorem ulp_of_log_neg (p : Nat) {x : K} (h : Int.log 2 x ≤ -1) : 2 ^ p * ulp p x ≤ 1 := by
  rw [ulp, ← zpow_natCast, ← zpow_add₀ (by norm_num)]
  refine zpow_le_one_of_nonpos₀ (by norm_num) ?_
  omega

theorem log_of_ge_one {x : K} (h1 : 1 ≤ x) (h2 : x < 2) : Int.log 2 x = 0 := by
  have hx : 0 < x := by linarith
  have a : 0 ≤ Int.log 2 x := by
    rw [← Int.zpow_le_iff_le_log (by norm_num) hx]; simpa using h1
  have b : Int.log 2 x < 1 := by
    rw [← Int.lt_zpow_iff_log_lt (by norm_num) hx]; simpa using h2
  omega

theorem log_of_lt_one {x : K} (hx : 0 < x) (h2 : x < 1) : Int.log 2 x ≤ -1 := by
  have b : Int.log 2 x < 0 := by
    rw [← Int.lt_zpow_iff_log_lt (by norm_num) hx]; simpa using h2
  omega

/-- Rounding a number between zero and one is off by at most `1 / 2 ^ (p + 1)`. -/
theorem nearestPos_unit (p : Nat) (hp : 1 ≤ p) {x : K} (h0 : 0 ≤ x) (h1 : x ≤ 1) : |nearestPos p x - x| ≤ 1 / 2 ^ (p + 1) := by
  rcases h0.eq_or_lt with rfl | h0
  · rw [nearestPos_zero]; simp
  rcases h1.eq_or_lt with rfl | h1
  · have e := ulp_of_log p hp (log_of_ge_one (le_refl (1 : K)) (by norm_num))
    rw [nearestPos_fixed p (2 ^ (p - 1)) (by push_cast; exact e.symm)]; simp
  · have h := ulp_of_log_neg p (log_of_lt_one h0 h1)
    refine nearestPos_half p |>.trans ?_
    rw [le_div_iff₀ (by positivity), pow_succ]
    linarith

/-- A number within `1 / 2 ^ (p + 1)` of one is rounded to one. -/
theorem nearestPos_one (p : Nat) (hp : 1 ≤ p) {y : K} (h : |y - 1| ≤ 1 / 2 ^ (p + 1)) : nearestPos p y = 1 := by
  rw [abs_le] at h
  have hs : (1 : K) / 2 ^ (p + 1) ≤ 1 / 4 := by
    rw [div_le_div_iff₀ (by positivity) (by norm_num)]
    have : (2 : K) ^ 2 ≤ 2 ^ (p + 1) := pow_le_pow_right₀ (by norm_num) (by omega)
    linarith
  have hq := ulp_pos p y
  rcases le_or_gt 1 y with g | g
  · have e := ulp_of_log p hp (log_of_ge_one g (by linarith))
    have e1 : (1 : K) / 2 ^ (p + 1) = ulp p y / 4 := by
      obtain ⟨k, rfl⟩ : ∃ k, p = k + 1 := ⟨p - 1, by omega⟩
      rw [Nat.add_sub_cancel] at e
      rw [div_eq_div_iff (by positivity) (by norm_num), pow_succ, pow_succ]
      linear_combination -4 * e
    have hf : ⌊y / ulp p y + 1 / 2⌋ = 2 ^ (p - 1) := by
      rw [Int.floor_eq_iff]
      push_cast
      have e2 : y / ulp p y = 2 ^ (p - 1) + (y - 1) / ulp p y := by
        rw [div_eq_iff hq.ne', add_mul, div_mul_cancel₀ _ hq.ne', e]; ring
      have e3 : 0 ≤ (y - 1) / ulp p y := div_nonneg (by linarith) hq.le
      have e4 : (y - 1) / ulp p y ≤ 1 / 4 := by rw [div_le_iff₀ hq]; linarith
      rw [e2]
      constructor <;> linarith
    rw [nearestPos, hf]; push_cast; exact e
  · have hy : 0 < y := by linarith
    have hl : Int.log 2 y = -1 := by
      have a : -1 ≤ Int.log 2 y := by
        rw [← Int.zpow_le_iff_le_log (by norm_num) hy]
        norm_num; linarith
      have := log_of_lt_one hy g
      omega
    have e : (2 : K) ^ p * ulp p y = 1 := by
      rw [ulp, hl, ← zpow_natCast, ← zpow_add₀ (by norm_num)]
      have : (p : ℤ) + (-1 - ((p : ℤ) - 1)) = 0 := by omega
      rw [this, zpow_zero]
    have e1 : (1 : K) / 2 ^ (p + 1) = ulp p y / 2 := by
      rw [div_eq_div_iff (by positivity) (by norm_num), pow_succ]
      linear_combination -2 * e
    have hf : ⌊y / ulp p y + 1 / 2⌋ = 2 ^ p := by
      rw [Int.floor_eq_iff]
      push_cast
      have e2 : y / ulp p y = 2 ^ p - (1 - y) / ulp p y := by
        rw [div_eq_iff hq.ne', sub_mul, div_mul_cancel₀ _ hq.ne', e]; ring
      have e3 : 0 ≤ (1 - y) / ulp p y := div_nonneg (by linarith) hq.le
      have e4 : (1 - y) / ulp p y ≤ 1 / 2 := by rw [div_le_iff₀ hq]; linarith
      rw [e2]
      constructor <;> linarith
    rw [nearestPos, hf]; push_cast; exact e

/-- `alpha + (1 - alpha)`, computed to nearest, is one. -/
theorem float_one (p : Nat) (hp : 1 ≤ p) {α : K} (h0 : 0 ≤ α) (h1 : α ≤ 1) : nearest p (α + nearest p (1 - α)) = 1 := by
  have e1 : nearest p (1 - α) = nearestPos p (1 - α) := by rw [nearest, if_neg (by linarith)]
  have hn := nearestPos_nonneg p hp (x := 1 - α) (by linarith)
  rw [e1, nearest, if_neg (by linarith)]
  refine nearestPos_one p hp ?_
  have := nearestPos_unit p hp (x := 1 - α) (by linarith) (by linarith)
  rwa [show α + nearestPos p (1 - α) - 1 = nearestPos p (1 - α) - (1 - α) by ring]

theorem float_rnd_one (p : Nat) (hp : 1 ≤ p) : nearest p (1 : K) = 1 := by
  rw [nearest, if_neg (by norm_num)]
  exact nearestPos_one p hp (by rw [sub_self, abs_zero]; positivity)

namespace Nurbs

/-- The triangle of insertion keeps weights of one. -/
theorem tri_one (p : Nat) (hp : 1 ≤ p) {q k : Nat} {U : Nat → Fp (Rounding.float (K := K) p hp)} {t : Fp (Rounding.float (K := K) p hp)}
    {P : Nat → Fp (Rounding.float (K := K) p hp)}
    (hU : ∀ a b, a ≤ b → b ≤ k + q → (U a).val ≤ (U b).val) (h1 : (U k).val ≤ t.val) (h2 : t.val < (U (k + 1)).val)
    (hP : ∀ r, r ≤ k → P r = 1) (j : Nat) : ∀ m, j ≤ q → m ≤ k → k + j ≤ m + q → tri lerp1r q U t P j m = 1 := by
  induction j with
  | zero => intro m _ hm _; exact hP m hm
  | succ j ih =>
    intro m hj hm hk
    have l1 : (U m).val ≤ t.val := (hU m k hm (by omega)).trans h1
    have l2 : t.val < (U (m + q - j)).val := h2.trans_le (hU (k + 1) (m + q - j) (by omega) (by omega))
    rw [tri, ih m (by omega) hm (by omega), ih (m - 1) (by omega) (by omega) (by omega), lerp1r]
    have one_val : (1 : Fp (Rounding.float (K := K) p hp)).val = 1 := float_rnd_one p hp
    have one_mul' : ∀ a : Fp (Rounding.float (K := K) p hp), 1 * a = a := fun a => by
      rw [Fp.mul_def, one_val, one_mul, Fp.round_val]
    rw [one_mul', one_mul']
    set α := (t - U m) / (U (m + q - j) - U m) with hα
    have a0 : 0 ≤ (t - U m).val := by
      have := (Rounding.float (K := K) p hp).mono 0 (t.val - (U m).val) (by linarith)
      rwa [Rounding.zero] at this
    have a1 : (t - U m).val ≤ (U (m + q - j) - U m).val := (Rounding.float (K := K) p hp).mono _ _ (by linarith)
    have b0 : 0 ≤ α.val := by
      have := (Rounding.float (K := K) p hp).mono 0 ((t - U m).val / (U (m + q - j) - U m).val) (div_nonneg a0 (a0.trans a1))
      rwa [Rounding.zero] at this
    have b1 : α.val ≤ 1 := by
      have := (Rounding.float (K := K) p hp).mono ((t - U m).val / (U (m + q - j) - U m).val) 1 (div_le_one_of_le₀ a1 (a0.trans a1))
      rwa [show (Rounding.float (K := K) p hp).rnd 1 = 1 from float_rnd_one p hp] at this
    apply Subtype.ext
    show nearest p (α.val + nearest p ((1 : Fp (Rounding.float (K := K) p hp)).val - α.val)) = nearest p 1
    rw [one_val, float_one p hp b0 b1, float_rnd_one p hp]

theorem insArray_one (p : Nat) (hp : 1 ≤ p) {q k num s n : Nat} {U : Nat → Fp (Rounding.float (K := K) p hp)} {t : Fp (Rounding.float (K := K) p hp)}
    {P init : Nat → Fp (Rounding.float (K := K) p hp)} (hq : q ≤ k) (hs : num + s ≤ q) (hkn : k < n)
    (hU : ∀ a b, a ≤ b → b ≤ k + q → (U a).val ≤ (U b).val) (h1 : (U k).val ≤ t.val) (h2 : t.val < (U (k + 1)).val)
    (hP : ∀ r, r < n → P r = 1) (x : Nat) (hx : x < n + num) : insArray lerp1r q U P t num s k init x = 1 := by
  have hT := tri_one p hp hU h1 h2 (fun r hr => hP r (by omega))
  rw [insArray_spec lerp1r hq hs]
  split
  · exact hP _ (by omega)
  split
  · exact hT _ _ (by omega) (by omega) (by omega)
  split
  · exact hT _ _ (by omega) (by omega) (by omega)
  split
  · exact hT _ _ (by omega) (by omega) (by omega)
  · exact hP _ (by omega)

end Nurbs
end Cmm
