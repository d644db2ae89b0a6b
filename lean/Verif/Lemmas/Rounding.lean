import Verif.Spec.Rounding
import Mathlib.Data.Int.Log
import Mathlib.Data.Rat.Floor
import Mathlib.Tactic.FieldSimp
import Mathlib.Tactic.Positivity
import Mathlib.Tactic.NormNum
namespace Cmm
variable {K : Type} [Field K] [LinearOrder K] [IsStrictOrderedRing K]

/-- Exact arithmetic. -/
instance MonoArith.ofField : MonoArith K where
  add_mono _ _ _ _ h1 h2 := add_le_add h1 h2
  add_zero a := _root_.add_zero a
  zero_add a := _root_.zero_add a
  sub_mono _ _ _ _ h1 h2 := sub_le_sub h1 h2
  sub_self a := _root_.sub_self a
  mul_mono _ _ _ _ h0 h1 h2 h3 := mul_le_mul h1 h3 h2 (h0.trans h1)
  mul_mono_neg a b c d h1 h2 h3 h4 := by
    have : (-a) * (-c) ≤ (-b) * (-d) := mul_le_mul (neg_le_neg h1) (neg_le_neg h3) (neg_nonneg.mpr h4) (neg_nonneg.mpr (h1.trans h2))
    rwa [neg_mul_neg, neg_mul_neg] at this
  zero_mul a := MulZeroClass.zero_mul a
  mul_zero a := MulZeroClass.mul_zero a

namespace Fp
variable {R : Rounding K}

omit [IsStrictOrderedRing K] in
theorem le_iff {a b : Fp R} : a ≤ b ↔ a.val ≤ b.val := Iff.rfl
omit [IsStrictOrderedRing K] in
theorem round_val (a : Fp R) : round R a.val = a := Subtype.ext a.2
omit [IsStrictOrderedRing K] in
theorem round_mono {x y : K} (h : x ≤ y) : round R x ≤ round R y := R.mono x y h
omit [IsStrictOrderedRing K] in
theorem zero_val : (0 : Fp R).val = 0 := R.zero
omit [IsStrictOrderedRing K] in
theorem add_def (a b : Fp R) : a + b = round R (a.val + b.val) := rfl
omit [IsStrictOrderedRing K] in
theorem sub_def (a b : Fp R) : a - b = round R (a.val - b.val) := rfl
omit [IsStrictOrderedRing K] in
theorem mul_def (a b : Fp R) : a * b = round R (a.val * b.val) := rfl
omit [IsStrictOrderedRing K] in
theorem round_zero : round R 0 = 0 := rfl

instance : MonoArith (Fp R) where
  add_mono _ _ _ _ h1 h2 := round_mono (add_le_add h1 h2)
  add_zero a := by rw [add_def, zero_val, _root_.add_zero, round_val]
  zero_add a := by rw [add_def, zero_val, _root_.zero_add, round_val]
  sub_mono _ _ _ _ h1 h2 := round_mono (sub_le_sub h1 h2)
  sub_self a := by rw [sub_def, _root_.sub_self, round_zero]
  mul_mono a b c d h0 h1 h2 h3 := by
    rw [le_iff, zero_val] at h0 h2
    exact round_mono (MonoArith.mul_mono _ _ _ _ h0 h1 h2 h3)
  mul_mono_neg a b c d h1 h2 h3 h4 := by
    rw [le_iff, zero_val] at h2 h4
    exact round_mono (MonoArith.mul_mono_neg _ _ _ _ h1 h2 h3 h4)
  zero_mul a := by rw [mul_def, zero_val, MulZeroClass.zero_mul, round_zero]
  mul_zero a := by rw [mul_def, zero_val, MulZeroClass.mul_zero, round_zero]

end Fp

/-! ### Rounding to nearest -/
section float
variable [FloorRing K]

/-- The unit in the last place of a positive number with `p` significant binary digits. -/
def ulp (p : Nat) (x : K) : K := 2 ^ (Int.log 2 x - (p - 1 : ℤ))

/-- A number that is not negative, rounded to the nearest one with `p` significant binary digits (upwards if two are equally near). -/
def nearestPos (p : Nat) (x : K) : K := ⌊x / ulp p x + 1 / 2⌋ * ulp p x

/-- Rounded to the nearest number with `p` significant binary digits. -/
def nearest (p : Nat) (x : K) : K := if x < 0 then - nearestPos p (-x) else nearestPos p x

theorem ulp_pos (p : Nat) (x : K) : 0 < ulp p x := zpow_pos (by norm_num) _

theorem ulp_bounds (p : Nat) (hp : 1 ≤ p) {x : K} (hx : 0 < x) : 2 ^ (p - 1) * ulp p x ≤ x ∧ x < 2 ^ p * ulp p x := by
  have h1 := Int.zpow_log_le_self (b := 2) (by norm_num) hx
  have h2 := Int.lt_zpow_succ_log_self (b := 2) (by norm_num) x
  have e1 : (2 : K) ^ (p - 1) * ulp p x = 2 ^ Int.log 2 x := by
    rw [ulp, ← zpow_natCast, ← zpow_add₀ (by norm_num)]
    congr 1
    have : ((p - 1 : ℕ) : ℤ) = (p : ℤ) - 1 := by omega
    rw [this]; ring
  have e2 : (2 : K) ^ p * ulp p x = 2 ^ (Int.log 2 x + 1) := by
    rw [ulp, ← zpow_natCast, ← zpow_add₀ (by norm_num)]
    congr 1
    ring
  push_cast at h1 h2
  rw [e1, e2]
  exact ⟨h1, h2⟩

theorem ulp_eq (p : Nat) {x y : K} (h : Int.log 2 x = Int.log 2 y) : ulp p x = ulp p y := by rw [ulp, ulp, h]

theorem floor_half (n : ℤ) : ⌊(n : K) + 1 / 2⌋ = n := by
  rw [Int.floor_eq_iff]
  constructor <;> linarith

/-- The rounded number stays between the powers of two. -/
theorem nearestPos_bounds (p : Nat) (hp : 1 ≤ p) {x : K} (hx : 0 < x) : 2 ^ (p - 1) * ulp p x ≤ nearestPos p x ∧ nearestPos p x ≤ 2 ^ p * ulp p x := by
  obtain ⟨h1, h2⟩ := ulp_bounds p hp hx
  have hq := ulp_pos p x
  rw [← le_div_iff₀ hq] at h1
  rw [← div_lt_iff₀ hq] at h2
  unfold nearestPos
  constructor
  · refine mul_le_mul_of_nonneg_right ?_ hq.le
    have : ((2 : ℤ) ^ (p - 1)) ≤ ⌊x / ulp p x + 1 / 2⌋ := by
      rw [Int.le_floor]; push_cast; linarith
    exact_mod_cast this
  · refine mul_le_mul_of_nonneg_right ?_ hq.le
    have : ⌊x / ulp p x + 1 / 2⌋ ≤ (2 : ℤ) ^ p := by
      rw [← Int.lt_add_one_iff, Int.floor_lt]; push_cast; linarith
    exact_mod_cast this

theorem nearestPos_zero (p : Nat) : nearestPos p (0 : K) = 0 := by
  have : ⌊(0 : K) / ulp p 0 + 1 / 2⌋ = 0 := by
    have := floor_half (K := K) 0
    simpa using this
  rw [nearestPos, this]; simp

theorem nearestPos_nonneg (p : Nat) (hp : 1 ≤ p) {x : K} (hx : 0 ≤ x) : 0 ≤ nearestPos p x := by
  rcases hx.eq_or_lt with rfl | hx
  · rw [nearestPos_zero]
  · have := (nearestPos_bounds p hp hx).1
    have hq := ulp_pos p x
    exact (by positivity : (0 : K) ≤ 2 ^ (p - 1) * ulp p x).trans this

theorem nearestPos_mono (p : Nat) (hp : 1 ≤ p) {x y : K} (hx : 0 ≤ x) (h : x ≤ y) : nearestPos p x ≤ nearestPos p y := by
  rcases hx.eq_or_lt with rfl | hx
  · rw [nearestPos_zero]; exact nearestPos_nonneg p hp h
  · have hy := hx.trans_le h
    rcases (Int.log_mono_right (b := 2) hx h).eq_or_lt with e | e
    · have hq := ulp_pos p y
      unfold nearestPos
      rw [ulp_eq p e]
      refine mul_le_mul_of_nonneg_right ?_ hq.le
      have : ⌊x / ulp p y + 1 / 2⌋ ≤ ⌊y / ulp p y + 1 / 2⌋ := Int.floor_le_floor (by
        have := div_le_div_of_nonneg_right h hq.le
        linarith)
      exact_mod_cast this
    · refine ((nearestPos_bounds p hp hx).2.trans ?_).trans (nearestPos_bounds p hp hy).1
      rw [ulp, ulp, ← zpow_natCast, ← zpow_natCast, ← zpow_add₀ (by norm_num), ← zpow_add₀ (by norm_num)]
      refine zpow_le_zpow_right₀ (by norm_num) ?_
      omega

theorem nearestPos_fixed (p : Nat) {x : K} (n : ℤ) (h : x = n * ulp p x) : nearestPos p x = x := by
  have hq := ulp_pos p x
  have e : x / ulp p x = n := by rw [div_eq_iff hq.ne']; exact h
  rw [nearestPos, e, floor_half]; exact h.symm

theorem nearestPos_idem (p : Nat) (hp : 1 ≤ p) {x : K} (hx : 0 ≤ x) : nearestPos p (nearestPos p x) = nearestPos p x := by
  rcases hx.eq_or_lt with rfl | hx
  · rw [nearestPos_zero, nearestPos_zero]
  · obtain ⟨h1, h2⟩ := nearestPos_bounds p hp hx
    have hq := ulp_pos p x
    rcases h2.eq_or_lt with e | e
    · refine nearestPos_fixed p (2 ^ (p - 1)) ?_
      have e2 : nearestPos p x = (2 : K) ^ (Int.log 2 x + 1) := by
        rw [e, ulp, ← zpow_natCast, ← zpow_add₀ (by norm_num)]
        congr 1; ring
      have e3 : Int.log 2 (nearestPos p x) = Int.log 2 x + 1 := by
        rw [e2]
        exact_mod_cast Int.log_zpow (R := K) (b := 2) (by norm_num) _
      rw [ulp, e3, e2]
      push_cast
      rw [← zpow_natCast, ← zpow_add₀ (by norm_num)]
      congr 1
      omega
    · refine nearestPos_fixed p ⌊x / ulp p x + 1 / 2⌋ ?_
      have hpos : 0 < nearestPos p x := lt_of_lt_of_le (by positivity) h1
      have e3 : Int.log 2 (nearestPos p x) = Int.log 2 x := by
        obtain ⟨k1, k2⟩ := ulp_bounds p hp hpos
        have l1 : Int.log 2 x ≤ Int.log 2 (nearestPos p x) := by
          rw [← Int.zpow_le_iff_le_log (by norm_num) hpos]
          push_cast
          refine le_trans (le_of_eq ?_) h1
          rw [ulp, ← zpow_natCast, ← zpow_add₀ (by norm_num)]
          congr 1; omega
        have l2 : Int.log 2 (nearestPos p x) < Int.log 2 x + 1 := by
          rw [← Int.lt_zpow_iff_log_lt (by norm_num) hpos]
          push_cast
          refine lt_of_lt_of_eq e ?_
          rw [ulp, ← zpow_natCast, ← zpow_add₀ (by norm_num)]
          congr 1; ring
        omega
      rw [ulp_eq p e3]
      rfl

theorem nearestPos_error (p : Nat) (hp : 1 ≤ p) {x : K} (hx : 0 ≤ x) : |nearestPos p x - x| ≤ 1 / 2 ^ p * x := by
  rcases hx.eq_or_lt with rfl | hx
  · rw [nearestPos_zero]; simp
  · have hq := ulp_pos p x
    have h1 := (ulp_bounds p hp hx).1
    have hf := Int.floor_le (x / ulp p x + 1 / 2)
    have hg := Int.lt_floor_add_one (x / ulp p x + 1 / 2)
    have e : nearestPos p x - x = (⌊x / ulp p x + 1 / 2⌋ - x / ulp p x) * ulp p x := by
      rw [nearestPos, sub_mul, div_mul_cancel₀ _ hq.ne']
    have hb : |(⌊x / ulp p x + 1 / 2⌋ : K) - x / ulp p x| ≤ 1 / 2 := by
      rw [abs_le]; constructor <;> linarith
    rw [e, abs_mul, abs_of_pos hq]
    calc |(⌊x / ulp p x + 1 / 2⌋ : K) - x / ulp p x| * ulp p x ≤ 1 / 2 * ulp p x := mul_le_mul_of_nonneg_right hb hq.le
      _ = 1 / 2 ^ p * (2 ^ (p - 1) * ulp p x) := by
        obtain ⟨k, rfl⟩ : ∃ k, p = k + 1 := ⟨p - 1, by omega⟩
        rw [Nat.add_sub_cancel, pow_succ]; field_simp
      _ ≤ 1 / 2 ^ p * x := mul_le_mul_of_nonneg_left h1 (by positivity)

/-- Rounding to the nearest number with `p` significant binary digits. -/
def Rounding.float (p : Nat) (hp : 1 ≤ p) : Rounding K where
  rnd := nearest p
  mono x y h := by
    unfold nearest
    split <;> split
    · exact neg_le_neg (nearestPos_mono p hp (by linarith) (by linarith))
    · have h1 := nearestPos_nonneg p hp (x := -x) (by linarith)
      have h2 := nearestPos_nonneg p hp (x := y) (by linarith)
      linarith
    · linarith
    · exact nearestPos_mono p hp (by linarith) h
  idem x := by
    unfold nearest
    by_cases hx : x < 0
    · rw [if_pos hx]
      have h1 := nearestPos_nonneg p hp (x := -x) (by linarith)
      rcases h1.eq_or_lt with e | h1
      · rw [← e]; simp [nearestPos_zero]
      · rw [if_pos (by linarith), neg_neg, nearestPos_idem p hp (by linarith)]
    · rw [if_neg hx]
      have h1 := nearestPos_nonneg p hp (x := x) (by linarith)
      rw [if_neg (by linarith), nearestPos_idem p hp (by linarith)]
  zero := by simp [nearest, nearestPos_zero]

theorem float_error (p : Nat) (hp : 1 ≤ p) : (Rounding.float (K := K) p hp).RelError (1 / 2 ^ p) := by
  intro x
  show |nearest p x - x| ≤ _
  unfold nearest
  split
  · rename_i h
    have := nearestPos_error p hp (x := -x) (by linarith)
    rw [abs_of_neg h]
    rwa [show -nearestPos p (-x) - x = -(nearestPos p (-x) - -x) by ring, abs_neg]
  · rename_i h
    rw [abs_of_nonneg (a := x) (not_lt.mp h)]
    exact nearestPos_error p hp (not_lt.mp h)

end float

end Cmm
