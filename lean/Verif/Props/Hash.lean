import Verif.Model.Hash
import Verif.Spec.Newton
import Verif.Props.Plane
import Mathlib.Data.Rat.Floor
import Mathlib.Tactic.Linarith
import Mathlib.Tactic.Ring
import Mathlib.Tactic.LinearCombination
import Mathlib.Tactic.FieldSimp
/-!
C54: hash functions agree with equality. C71: which points the quantised keys identify.
-/
namespace Cmm.Hash
open Cmm.Newton (IsSqrt)
variable {K : Type} [Field K] [LinearOrder K] [IsStrictOrderedRing K] [FloorRing K]

omit [IsStrictOrderedRing K] in
theorem ok_of_bind {A B : Type} {x : Res A} {f : A → Res B} {b : B} (h : (x >>= f) = .ok b) : ∃ a, x = .ok a ∧ f a = .ok b := by
  cases x with
  | ok a => exact ⟨a, rfl, h⟩
  | throws => cases h
  | ub => cases h

omit [IsStrictOrderedRing K] in
theorem vec2Equal_iff {a b : Vec2 K} : vec2Equal a b = .ok true ↔
    ∃ x y, quantize a.x decimals = .ok x ∧ quantize b.x decimals = .ok x ∧ quantize a.y decimals = .ok y ∧ quantize b.y decimals = .ok y := by
  constructor
  · intro h
    obtain ⟨x, e1, h⟩ := ok_of_bind h
    obtain ⟨x', e2, h⟩ := ok_of_bind h
    split at h
    · rename_i hx
      subst hx
      obtain ⟨y, e3, h⟩ := ok_of_bind h
      obtain ⟨y', e4, h⟩ := ok_of_bind h
      have := of_decide_eq_true (Res.ok.inj h)
      subst this
      exact ⟨x, y, e1, e2, e3, e4⟩
    · cases h
  · rintro ⟨x, y, e1, e2, e3, e4⟩
    simp [vec2Equal, e1, e2, e3, e4]

omit [IsStrictOrderedRing K] in
theorem vec3Equal_iff {a b : Vec3 K} : vec3Equal a b = .ok true ↔
    ∃ x y z, quantize a.x decimals = .ok x ∧ quantize b.x decimals = .ok x ∧ quantize a.y decimals = .ok y ∧ quantize b.y decimals = .ok y ∧
      quantize a.z decimals = .ok z ∧ quantize b.z decimals = .ok z := by
  constructor
  · intro h
    obtain ⟨x, e1, h⟩ := ok_of_bind h
    obtain ⟨x', e2, h⟩ := ok_of_bind h
    split at h
    · rename_i hx
      subst hx
      obtain ⟨y, e3, h⟩ := ok_of_bind h
      obtain ⟨y', e4, h⟩ := ok_of_bind h
      split at h
      · rename_i hy
        subst hy
        obtain ⟨z, e5, h⟩ := ok_of_bind h
        obtain ⟨z', e6, h⟩ := ok_of_bind h
        have := of_decide_eq_true (Res.ok.inj h)
        subst this
        exact ⟨x, y, z, e1, e2, e3, e4, e5, e6⟩
      · cases h
    · cases h
  · rintro ⟨x, y, z, e1, e2, e3, e4, e5, e6⟩
    simp [vec3Equal, e1, e2, e3, e4, e5, e6]

omit [IsStrictOrderedRing K] in
/-- **C54**: pairs of numbers that compare equal have equal hashes. -/
theorem C54_pair (a b : K × K) (h : pairEqual a b = true) : pairHash a = pairHash b := by
  simp only [pairEqual, Bool.and_eq_true, decide_eq_true_eq] at h
  simp only [pairHash, h.1]

omit [Field K] [IsStrictOrderedRing K] [FloorRing K] in
/-- C54: the comparison of pairs is equality. -/
theorem C54_pair_equal_iff (a b : K × K) : pairEqual a b = true ↔ a = b := by
  simp [pairEqual, Prod.ext_iff]

omit [IsStrictOrderedRing K] in
/-- **C54**: plane vectors that compare equal have defined and equal hashes. -/
theorem C54_vec2 (a b : Vec2 K) (h : vec2Equal a b = .ok true) : ∃ k, vec2Hash a = .ok k ∧ vec2Hash b = .ok k := by
  obtain ⟨x, y, e1, e2, e3, e4⟩ := vec2Equal_iff.1 h
  exact ⟨_, by simp only [vec2Hash, e1, e3, Res.ok_bind]; rfl, by simp only [vec2Hash, e2, e4, Res.ok_bind]; rfl⟩

omit [IsStrictOrderedRing K] in
/-- **C54**: vectors that compare equal have defined and equal hashes. -/
theorem C54_vec3 (a b : Vec3 K) (h : vec3Equal a b = .ok true) : ∃ k, vec3Hash a = .ok k ∧ vec3Hash b = .ok k := by
  obtain ⟨x, y, z, e1, e2, e3, e4, e5, e6⟩ := vec3Equal_iff.1 h
  exact ⟨_, by simp only [vec3Hash, e1, e3, e5, Res.ok_bind]; rfl, by simp only [vec3Hash, e2, e4, e6, Res.ok_bind]; rfl⟩

example : vec3Equal (⟨1/2, -1/2, 3⟩ : Vec3 ℚ) ⟨51/100, -51/100, 3⟩ = .ok true ∧ (⟨1/2, -1/2, 3⟩ : Vec3 ℚ) ≠ ⟨51/100, -51/100, 3⟩ := by
  decide +kernel
example : vec2Equal (⟨1/2, -1/2⟩ : Vec2 ℚ) ⟨51/100, -51/100⟩ = .ok true := by decide +kernel
example : vec3Equal (⟨1/2, -1/2, 3⟩ : Vec3 ℚ) ⟨1/2, -1/2, 4⟩ = .ok false := by decide +kernel

omit [IsStrictOrderedRing K] in
/-- **C54**: the equality of vectors used in the containers is symmetric and transitive, and reflexive on the vectors that have a hash. -/
theorem C54_vec3_equivalence (a b c : Vec3 K) :
    ((∃ k, vec3Hash a = .ok k) ↔ vec3Equal a a = .ok true) ∧ (vec3Equal a b = .ok true → vec3Equal b a = .ok true) ∧
      (vec3Equal a b = .ok true → vec3Equal b c = .ok true → vec3Equal a c = .ok true) := by
  refine ⟨⟨fun ⟨k, h⟩ => ?_, fun h => ?_⟩, fun h => ?_, fun h h' => ?_⟩
  · obtain ⟨x, e1, h⟩ := ok_of_bind h
    obtain ⟨y, e2, h⟩ := ok_of_bind h
    obtain ⟨z, e3, h⟩ := ok_of_bind h
    exact vec3Equal_iff.2 ⟨x, y, z, e1, e1, e2, e2, e3, e3⟩
  · obtain ⟨k, h, -⟩ := C54_vec3 a a h
    exact ⟨k, h⟩
  · obtain ⟨x, y, z, e1, e2, e3, e4, e5, e6⟩ := vec3Equal_iff.1 h
    exact vec3Equal_iff.2 ⟨x, y, z, e2, e1, e4, e3, e6, e5⟩
  · obtain ⟨x, y, z, e1, e2, e3, e4, e5, e6⟩ := vec3Equal_iff.1 h
    obtain ⟨x', y', z', f1, f2, f3, f4, f5, f6⟩ := vec3Equal_iff.1 h'
    rw [e2] at f1; rw [e4] at f3; rw [e6] at f5
    cases f1; cases f3; cases f5
    exact vec3Equal_iff.2 ⟨x, y, z, e1, f2, e3, f4, e5, f6⟩

omit [IsStrictOrderedRing K] in
/-- C54: the equality of plane vectors is symmetric and transitive, and reflexive on the vectors that have a hash. -/
theorem C54_vec2_equivalence (a b c : Vec2 K) :
    ((∃ k, vec2Hash a = .ok k) ↔ vec2Equal a a = .ok true) ∧ (vec2Equal a b = .ok true → vec2Equal b a = .ok true) ∧
      (vec2Equal a b = .ok true → vec2Equal b c = .ok true → vec2Equal a c = .ok true) := by
  refine ⟨⟨fun ⟨k, h⟩ => ?_, fun h => ?_⟩, fun h => ?_, fun h h' => ?_⟩
  · obtain ⟨x, e1, h⟩ := ok_of_bind h
    obtain ⟨y, e2, h⟩ := ok_of_bind h
    exact vec2Equal_iff.2 ⟨x, y, e1, e1, e2, e2⟩
  · obtain ⟨k, h, -⟩ := C54_vec2 a a h
    exact ⟨k, h⟩
  · obtain ⟨x, y, e1, e2, e3, e4⟩ := vec2Equal_iff.1 h
    exact vec2Equal_iff.2 ⟨x, y, e2, e1, e4, e3⟩
  · obtain ⟨x, y, e1, e2, e3, e4⟩ := vec2Equal_iff.1 h
    obtain ⟨x', y', f1, f2, f3, f4⟩ := vec2Equal_iff.1 h'
    rw [e2] at f1; rw [e4] at f3
    cases f1; cases f3
    exact vec2Equal_iff.2 ⟨x, y, e1, f2, e3, f4⟩

omit [FloorRing K] in
theorem unit_spec {sqrt : K → K} (hs : IsSqrt sqrt) {v u : Vec2 K} (h : unit sqrt v = .ok u) (h0 : sqrt 0 = 0) : u.dot u = 1 ∧ v.dot v ≠ 0 := by
  unfold unit at h
  dsimp only at h
  split at h
  · cases h
  · rename_i hl
    have := Res.ok.inj h
    subst this
    have hn : v.dot v ≠ 0 := fun e => hl (by rw [e, h0])
    refine ⟨?_, hn⟩
    have hp : 0 < v.dot v := lt_of_le_of_ne (by simp only [Vec2.dot]; nlinarith [sq_nonneg v.x, sq_nonneg v.y]) (Ne.symm hn)
    obtain ⟨p, e⟩ := hs _ hp
    show v.x / sqrt (v.dot v) * (v.x / sqrt (v.dot v)) + v.y / sqrt (v.dot v) * (v.y / sqrt (v.dot v)) = 1
    rw [div_mul_div_comm, div_mul_div_comm, e, ← add_div]
    exact div_self hn

/-- Two unit vectors with product `±1` are equal or opposite. -/
theorem unit_pm {u v : Vec2 K} (hu : u.dot u = 1) (hv : v.dot v = 1) (h : |u.dot v| = 1) : v = u ∨ v = -u := by
  rcases (abs_eq zero_le_one).1 h with h | h
  · left
    have : (v.x - u.x) ^ 2 + (v.y - u.y) ^ 2 = 0 := by
      simp only [Vec2.dot] at *; linear_combination hu + hv - 2 * h
    have h1 : (v.x - u.x) ^ 2 = 0 := le_antisymm (by nlinarith [sq_nonneg (v.y - u.y)]) (sq_nonneg _)
    have h2 : (v.y - u.y) ^ 2 = 0 := by linarith
    exact Vec2.ext (sub_eq_zero.1 (pow_eq_zero_iff two_ne_zero |>.1 h1)) (sub_eq_zero.1 (pow_eq_zero_iff two_ne_zero |>.1 h2))
  · right
    have : (v.x + u.x) ^ 2 + (v.y + u.y) ^ 2 = 0 := by
      simp only [Vec2.dot] at *; linear_combination hu + hv + 2 * h
    have h1 : (v.x + u.x) ^ 2 = 0 := le_antisymm (by nlinarith [sq_nonneg (v.y + u.y)]) (sq_nonneg _)
    have h2 : (v.y + u.y) ^ 2 = 0 := by linarith
    exact Vec2.ext (eq_neg_of_add_eq_zero_left (pow_eq_zero_iff two_ne_zero |>.1 h1))
      (eq_neg_of_add_eq_zero_left (pow_eq_zero_iff two_ne_zero |>.1 h2))

omit [IsStrictOrderedRing K] in
theorem quantize_cases (c : K) : quantize c decimals = .ub ∨ ∃ r, quantize c decimals = .ok r := by
  unfold quantize toInt; dsimp only; split_ifs <;> simp

/-- **C54**: directions that compare equal (collinear, in exact arithmetic) have equal hashes. -/
theorem C54_normal (sqrt : K → K) (hs : IsSqrt sqrt) (h0 : sqrt 0 = 0) (a b : Vec2 K) (h : collinear sqrt a b = .ok true) :
    normalHash sqrt a = normalHash sqrt b := by
  obtain ⟨u, e1, h⟩ := ok_of_bind h
  obtain ⟨v, e2, h⟩ := ok_of_bind h
  have h := of_decide_eq_true (Res.ok.inj h)
  obtain ⟨hu, -⟩ := unit_spec hs e1 h0
  obtain ⟨hv, -⟩ := unit_spec hs e2 h0
  unfold normalHash
  rw [e1, e2]
  simp only [Res.ok_bind]
  rcases unit_pm hu hv h with rfl | rfl
  · rfl
  · have n1 : (-u).x = -u.x := rfl
    have n2 : (-u).y = -u.y := rfl
    rw [n1, n2, neg_neg, neg_neg]
    rcases quantize_cases u.x with h1 | ⟨x, h1⟩ <;> rcases quantize_cases u.y with h2 | ⟨y, h2⟩ <;>
      rcases quantize_cases (-u.x) with h3 | ⟨x', h3⟩ <;> rcases quantize_cases (-u.y) with h4 | ⟨y', h4⟩ <;>
      simp only [h1, h2, h3, h4, Res.ok_bind, Res.ub_bind]
    rw [max_comm]

omit [FloorRing K] in
/-- C54: two vectors compare equal as directions exactly if they are parallel, of either orientation; a zero vector throws. -/
theorem C54_collinear_iff (sqrt : K → K) (hs : IsSqrt sqrt) (h0 : sqrt 0 = 0) (a b : Vec2 K) :
    (collinear sqrt a b = .throws ↔ a = ⟨0, 0⟩ ∨ b = ⟨0, 0⟩) ∧ collinear sqrt a b ≠ .ub ∧
      (collinear sqrt a b = .ok true ↔ a ≠ ⟨0, 0⟩ ∧ b ≠ ⟨0, 0⟩ ∧ a.x * b.y = a.y * b.x) := by
  have z : ∀ v : Vec2 K, unit sqrt v = .throws ∧ v = ⟨0, 0⟩ ∨ v ≠ ⟨0, 0⟩ ∧ 0 < sqrt (v.dot v) ∧ sqrt (v.dot v) * sqrt (v.dot v) = v.dot v ∧
      unit sqrt v = .ok ⟨v.x / sqrt (v.dot v), v.y / sqrt (v.dot v)⟩ := by
    intro v
    by_cases hv : v = ⟨0, 0⟩
    · left; subst hv; simp [unit, Vec2.dot, h0]
    · right
      have hp : 0 < v.dot v := by
        simp only [Vec2.dot]
        by_contra hn
        have h1 : v.x = 0 := by nlinarith [sq_nonneg v.x, sq_nonneg v.y]
        have h2 : v.y = 0 := by nlinarith [sq_nonneg v.x, sq_nonneg v.y]
        exact hv (Vec2.ext h1 h2)
      obtain ⟨p, e⟩ := hs _ hp
      exact ⟨hv, p, e, by simp [unit, ne_of_gt p]⟩
  rcases z a with ⟨e1, ha⟩ | ⟨ha, pa, sa, e1⟩
  · have e : collinear sqrt a b = .throws := by unfold collinear; rw [e1]; rfl
    rw [e]; simp [ha]
  rcases z b with ⟨e2, hb⟩ | ⟨hb, pb, sb, e2⟩
  · have e : collinear sqrt a b = .throws := by unfold collinear; rw [e1, e2]; rfl
    rw [e]; simp [hb]
  have e : collinear sqrt a b = .ok (decide (|a.x / sqrt (a.dot a) * (b.x / sqrt (b.dot b)) + a.y / sqrt (a.dot a) * (b.y / sqrt (b.dot b))| = 1)) := by
    unfold collinear; rw [e1, e2]; rfl
  rw [e]
  refine ⟨by simp [ha, hb], by simp, ?_⟩
  simp only [Res.ok.injEq, decide_eq_true_eq, ne_eq, ha, hb, not_false_eq_true, true_and]
  generalize sqrt (a.dot a) = l at pa sa
  generalize sqrt (b.dot b) = m at pb sb
  have e : a.x / l * (b.x / m) + a.y / l * (b.y / m) = a.dot b / (l * m) := by
    rw [div_mul_div_comm, div_mul_div_comm, ← add_div]; rfl
  have hlm : 0 < l * m := mul_pos pa pb
  rw [e, abs_div, abs_of_pos hlm, div_eq_one_iff_eq (ne_of_gt hlm), ← abs_of_pos hlm, ← sq_eq_sq_iff_abs_eq_abs]
  have e2 : (l * m) ^ 2 = a.dot a * b.dot b := by rw [← sa, ← sb]; ring
  rw [e2]
  simp only [Vec2.dot]
  constructor
  · intro h
    have : (a.x * b.y - a.y * b.x) ^ 2 = 0 := by linear_combination -h
    exact sub_eq_zero.1 (pow_eq_zero_iff two_ne_zero |>.1 this)
  · intro h
    linear_combination -(a.x * b.y - a.y * b.x) * h

/-- Opposite directions of different lengths compare equal. -/
example : collinear Real.sqrt ⟨1, -2⟩ ⟨-2, 4⟩ = .ok true :=
  (C54_collinear_iff Real.sqrt Geom.real_isSqrt Real.sqrt_zero _ _).2.2.2 ⟨by simp, by simp, by norm_num⟩

omit [IsStrictOrderedRing K] in
/-- **C54**: spatial keys that compare equal have equal hashes; the comparison is equality. -/
theorem C54_key (a b : PointKey) : (keyEqual a b = true ↔ a = b) ∧ (keyEqual a b = true → keyHash a = keyHash b) := by
  have h : keyEqual a b = true ↔ a = b := by
    cases a; cases b; simp [keyEqual, and_assoc]
  exact ⟨h, fun e => by rw [h.1 e]⟩

/-- What the conversion to `int` does: rounds towards zero. -/
theorem toInt_spec {x : K} {r : Int} (h : toInt x = .ok r) : (0 ≤ x → (r : K) ≤ x ∧ x < r + 1) ∧ (x < 0 → (r : K) - 1 < x ∧ x ≤ r) ∧
    (x ≤ 0 → r ≤ 0) ∧ (0 ≤ x → 0 ≤ r) := by
  unfold toInt at h
  dsimp only at h
  split_ifs at h with h0
  · have h := Res.ok.inj h
    · subst h
      refine ⟨fun _ => ⟨Int.floor_le x, Int.lt_floor_add_one x⟩, fun h => absurd h0 (not_le.2 h), fun h => ?_, fun _ => Int.floor_nonneg.2 h0⟩
      rw [le_antisymm h h0]; simp
  · have h := Res.ok.inj h
    · subst h
      refine ⟨fun h => absurd h h0, fun _ => ⟨?_, Int.le_ceil x⟩, fun h => ?_, fun h => absurd h h0⟩
      · have := Int.ceil_lt_add_one x; linarith
      · rw [Int.ceil_le]; simpa using h

/-- The conversion is undefined exactly beyond the range of `int`. -/
theorem toInt_ub {x : K} : toInt x = .ub ↔ x ≤ -2147483649 ∨ 2147483648 ≤ x := by
  unfold toInt
  dsimp only
  split
  · rename_i h0
    have e : ∀ n : Int, ⌊x⌋ ≤ n ↔ x < n + 1 := fun n => by rw [← Int.lt_add_one_iff, Int.floor_lt]; push_cast; rfl
    constructor
    · intro h
      split at h
      · cases h
      · rename_i hr
        right
        by_contra hx
        refine hr ⟨(by norm_num : (-2147483648 : Int) ≤ 0).trans (Int.floor_nonneg.2 h0), ?_⟩
        rw [e]; push_cast; linarith
    · intro h
      rw [if_neg]
      rintro ⟨-, h2⟩
      rw [e] at h2
      push_cast at h2
      rcases h with h | h <;> linarith
  · rename_i h0
    have h0 := not_le.1 h0
    have e : ∀ n : Int, n ≤ ⌈x⌉ ↔ (n : K) - 1 < x := fun n => by rw [← Int.sub_one_lt_iff, Int.lt_ceil]; push_cast; rfl
    constructor
    · intro h
      split at h
      · cases h
      · rename_i hr
        left
        by_contra hx
        refine hr ⟨?_, ?_⟩
        · rw [e]; push_cast; linarith
        · rw [Int.ceil_le]; push_cast; linarith
    · intro h
      rw [if_neg]
      rintro ⟨h1, -⟩
      rw [e] at h1
      push_cast at h1
      rcases h with h | h <;> linarith

/-- Equal quantised values are less than two cells apart, and less than one if they have the same sign. -/
theorem quantize_close {x y : K} {r : Int} (h1 : quantize x decimals = .ok r) (h2 : quantize y decimals = .ok r) :
    |x - y| < 2 / 15 ∧ (0 ≤ x * y → |x - y| < 1 / 15) := by
  unfold quantize decimals at h1 h2
  obtain ⟨a1, a2, a3, a4⟩ := toInt_spec h1
  obtain ⟨b1, b2, b3, b4⟩ := toInt_spec h2
  push_cast at *
  rcases le_or_gt 0 (x * 15) with hx | hx <;> rcases le_or_gt 0 (y * 15) with hy | hy
  · have := a1 hx; have := b1 hy
    constructor
    · rw [abs_lt]; constructor <;> linarith
    · intro _; rw [abs_lt]; constructor <;> linarith
  · have h0 := a4 hx; have h0' := b3 hy.le
    have hr : r = 0 := by omega
    subst hr
    have := a1 hx; have := b2 hy
    push_cast at *
    refine ⟨by rw [abs_lt]; constructor <;> linarith, fun hxy => ?_⟩
    have : x = 0 := by
      by_contra hne
      have : 0 < x := lt_of_le_of_ne (by linarith) (Ne.symm hne)
      nlinarith
    rw [abs_lt]; constructor <;> linarith
  · have h0 := a3 hx.le; have h0' := b4 hy
    have hr : r = 0 := by omega
    subst hr
    have := a2 hx; have := b1 hy
    push_cast at *
    refine ⟨by rw [abs_lt]; constructor <;> linarith, fun hxy => ?_⟩
    have : y = 0 := by
      by_contra hne
      have : 0 < y := lt_of_le_of_ne (by linarith) (Ne.symm hne)
      nlinarith
    rw [abs_lt]; constructor <;> linarith
  · have := a2 hx; have := b2 hy
    constructor
    · rw [abs_lt]; constructor <;> linarith
    · intro _; rw [abs_lt]; constructor <;> linarith

/-- C71: vectors identified by `Vec3Equal` differ by less than 2/15 in every coordinate, and by less than 1/15 where the signs agree. The claim, that they
agree to fifteen decimal places, is false (`C71_decimals_counterexample`). -/
theorem C71_vec3_close_partial (a b : Vec3 K) (h : vec3Equal a b = .ok true) :
    (|a.x - b.x| < 2 / 15 ∧ |a.y - b.y| < 2 / 15 ∧ |a.z - b.z| < 2 / 15) ∧
      (0 ≤ a.x * b.x → |a.x - b.x| < 1 / 15) ∧ (0 ≤ a.y * b.y → |a.y - b.y| < 1 / 15) ∧ (0 ≤ a.z * b.z → |a.z - b.z| < 1 / 15) := by
  obtain ⟨x, y, z, e1, e2, e3, e4, e5, e6⟩ := vec3Equal_iff.1 h
  exact ⟨⟨(quantize_close e1 e2).1, (quantize_close e3 e4).1, (quantize_close e5 e6).1⟩, (quantize_close e1 e2).2, (quantize_close e3 e4).2,
    (quantize_close e5 e6).2⟩

/-- C71: plane vectors identified by `Vec2Equal` differ by less than 2/15 in every coordinate, and by less than 1/15 where the signs agree. -/
theorem C71_vec2_close_partial (a b : Vec2 K) (h : vec2Equal a b = .ok true) :
    (|a.x - b.x| < 2 / 15 ∧ |a.y - b.y| < 2 / 15) ∧ (0 ≤ a.x * b.x → |a.x - b.x| < 1 / 15) ∧ (0 ≤ a.y * b.y → |a.y - b.y| < 1 / 15) := by
  obtain ⟨x, y, e1, e2, e3, e4⟩ := vec2Equal_iff.1 h
  exact ⟨⟨(quantize_close e1 e2).1, (quantize_close e3 e4).1⟩, (quantize_close e1 e2).2, (quantize_close e3 e4).2⟩

/-- C71: two vectors more than a tenth apart are one key. -/
theorem C71_decimals_counterexample : ∃ a b : Vec3 ℚ, vec3Equal a b = .ok true ∧ vec2Equal ⟨a.x, a.y⟩ ⟨b.x, b.y⟩ = .ok true ∧ 1 / 10 < |a.x - b.x| :=
  ⟨⟨-1/16, 0, 0⟩, ⟨1/16, 0, 0⟩, by decide +kernel⟩

/-- C71: the hash of a vector is undefined exactly if a coordinate is beyond the range of `int` after scaling. -/
theorem C71_vec3_range (a : Vec3 K) : vec3Hash a = .ub ↔
    ∃ c, (c = a.x ∨ c = a.y ∨ c = a.z) ∧ (c * 15 ≤ -2147483649 ∨ 2147483648 ≤ c * 15) := by
  have q : ∀ c : K, quantize c decimals = .ub ↔ (c * 15 ≤ -2147483649 ∨ 2147483648 ≤ c * 15) := fun c => by
    unfold quantize decimals; rw [toInt_ub]; push_cast; rfl
  have e : vec3Hash a = .ub ↔ quantize a.x decimals = .ub ∨ quantize a.y decimals = .ub ∨ quantize a.z decimals = .ub := by
    unfold vec3Hash
    rcases quantize_cases a.x with h1 | ⟨r1, h1⟩ <;> rcases quantize_cases a.y with h2 | ⟨r2, h2⟩ <;> rcases quantize_cases a.z with h3 | ⟨r3, h3⟩ <;> simp [h1, h2, h3]
  rw [e, q, q, q]
  simp only [or_and_right, exists_or, exists_eq_left]

example : vec3Hash (⟨200000000, 0, 0⟩ : Vec3 ℚ) = .ub := by decide +kernel

theorem keyEps_pos : (0 : K) < keyEps := by unfold keyEps; positivity

/-- The key coordinate is the nearest multiple of the machine epsilon. -/
theorem key_coord {x : K} {r : Int} (h : toInt ((⌊x / keyEps + 1 / 2⌋ : Int) : K) = .ok r) :
    ((r : K) - 1 / 2) * keyEps ≤ x ∧ x < ((r : K) + 1 / 2) * keyEps := by
  have hr : r = ⌊x / keyEps + 1 / 2⌋ := by
    unfold toInt at h
    simp only [Int.floor_intCast, Int.ceil_intCast, ite_self] at h
    split at h
    · exact (Res.ok.inj h).symm
    · cases h
  have p := keyEps_pos (K := K)
  have h1 := Int.floor_le (x / keyEps + 1 / 2)
  have h2 := Int.lt_floor_add_one (x / keyEps + 1 / 2)
  rw [← hr] at h1 h2
  constructor
  · rw [← le_div_iff₀ p]; linarith
  · rw [← div_lt_iff₀ p]; linarith

omit [IsStrictOrderedRing K] in
theorem key_parts {a : Vec3 K} {k : PointKey} (h : pointKey a = .ok k) :
    toInt ((⌊a.x / keyEps + 1 / 2⌋ : Int) : K) = .ok k.x ∧ toInt ((⌊a.y / keyEps + 1 / 2⌋ : Int) : K) = .ok k.y ∧
      toInt ((⌊a.z / keyEps + 1 / 2⌋ : Int) : K) = .ok k.z := by
  obtain ⟨x, e1, h⟩ := ok_of_bind h
  obtain ⟨y, e2, h⟩ := ok_of_bind h
  obtain ⟨z, e3, h⟩ := ok_of_bind h
  have := Res.ok.inj h
  subst this
  exact ⟨e1, e2, e3⟩

theorem key_close {x y : K} {r s : Int} (h1 : toInt ((⌊x / keyEps + 1 / 2⌋ : Int) : K) = .ok r)
    (h2 : toInt ((⌊y / keyEps + 1 / 2⌋ : Int) : K) = .ok s) :
    (r = s → |x - y| < keyEps) ∧ (|x - y| ≤ keyEps → |r - s| ≤ 1) := by
  obtain ⟨a1, a2⟩ := key_coord h1
  obtain ⟨b1, b2⟩ := key_coord h2
  have p := keyEps_pos (K := K)
  constructor
  · rintro rfl
    rw [abs_lt]; constructor <;> nlinarith
  · intro h
    rw [abs_le] at h
    rw [abs_le]
    have c1 : ((r : K) - s - 2) * keyEps < 0 := by nlinarith [h.2]
    have c2 : ((s : K) - r - 2) * keyEps < 0 := by nlinarith [h.1]
    have d1 : ((r - s - 2 : Int) : K) < 0 := by push_cast; exact neg_of_mul_neg_left c1 p.le
    have d2 : ((s - r - 2 : Int) : K) < 0 := by push_cast; exact neg_of_mul_neg_left c2 p.le
    rw [Int.cast_lt_zero] at d1 d2
    constructor <;> omega

/-- C71: points with the same spatial key are less than the machine epsilon apart in every coordinate, and points at most the machine epsilon apart are
in the same or in neighbouring cells, so that the search of the 27 cells around a point finds them. -/
theorem C71_point_key (a b : Vec3 K) (k l : PointKey) (ha : pointKey a = .ok k) (hb : pointKey b = .ok l) :
    (keyEqual k l = true → |a.x - b.x| < 1 / 2 ^ 52 ∧ |a.y - b.y| < 1 / 2 ^ 52 ∧ |a.z - b.z| < 1 / 2 ^ 52) ∧
      (|a.x - b.x| ≤ 1 / 2 ^ 52 → |a.y - b.y| ≤ 1 / 2 ^ 52 → |a.z - b.z| ≤ 1 / 2 ^ 52 →
        ∃ dx ∈ [-1, 0, 1], ∃ dy ∈ [-1, 0, 1], ∃ dz ∈ [-1, 0, 1], l = ⟨k.x + dx, k.y + dy, k.z + dz⟩) := by
  obtain ⟨a1, a2, a3⟩ := key_parts ha
  obtain ⟨b1, b2, b3⟩ := key_parts hb
  have e : ∀ i j : Int, |i - j| ≤ 1 → ∃ d ∈ ([-1, 0, 1] : List Int), j = i + d := by
    intro i j h
    rw [abs_le] at h
    refine ⟨j - i, ?_, by omega⟩
    simp only [List.mem_cons, List.not_mem_nil, or_false]
    omega
  constructor
  · intro h
    have := (C54_key k l).1.1 h
    subst this
    exact ⟨(key_close a1 b1).1 rfl, (key_close a2 b2).1 rfl, (key_close a3 b3).1 rfl⟩
  · intro h1 h2 h3
    obtain ⟨dx, m1, e1⟩ := e _ _ ((key_close a1 b1).2 h1)
    obtain ⟨dy, m2, e2⟩ := e _ _ ((key_close a2 b2).2 h2)
    obtain ⟨dz, m3, e3⟩ := e _ _ ((key_close a3 b3).2 h3)
    exact ⟨dx, m1, dy, m2, dz, m3, by cases l; simp_all⟩

omit [IsStrictOrderedRing K] in
theorem key_cases (c : K) : toInt ((⌊c / keyEps + 1 / 2⌋ : Int) : K) = .ub ∨ ∃ r, toInt ((⌊c / keyEps + 1 / 2⌋ : Int) : K) = .ok r := by
  unfold toInt; dsimp only; split_ifs <;> simp

/-- C71: the key of a point is undefined behaviour exactly if a coordinate is above about half a millionth. -/
theorem C71_point_key_range (a : Vec3 K) : pointKey a = .ub ↔
    ∃ c, (c = a.x ∨ c = a.y ∨ c = a.z) ∧ (c < (-2147483648 - 1 / 2) / 2 ^ 52 ∨ (2147483648 - 1 / 2) / 2 ^ 52 ≤ c) := by
  have p := keyEps_pos (K := K)
  have q : ∀ c : K, toInt ((⌊c / keyEps + 1 / 2⌋ : Int) : K) = .ub ↔
      (c < (-2147483648 - 1 / 2) / 2 ^ 52 ∨ (2147483648 - 1 / 2) / 2 ^ 52 ≤ c) := by
    intro c
    have e1 : ∀ n : Int, ((⌊c / keyEps + 1 / 2⌋ : Int) : K) ≤ n ↔ c < ((n : K) + 1 / 2) * keyEps := by
      intro n
      rw [Int.cast_le, ← Int.lt_add_one_iff, Int.floor_lt, ← div_lt_iff₀ p]
      push_cast
      constructor <;> intro h <;> linarith
    have e2 : ∀ n : Int, (n : K) ≤ ((⌊c / keyEps + 1 / 2⌋ : Int) : K) ↔ ((n : K) - 1 / 2) * keyEps ≤ c := by
      intro n
      rw [Int.cast_le, Int.le_floor, ← le_div_iff₀ p]
      constructor <;> intro h <;> linarith
    have h1 := e1 (-2147483649)
    have h2 := e2 2147483648
    push_cast at h1 h2
    rw [toInt_ub, h1, h2]
    unfold keyEps
    rw [mul_one_div, mul_one_div]
    constructor
    · rintro (h | h)
      · left; linarith
      · right; exact h
    · rintro (h | h)
      · left; linarith
      · right; exact h
  have e : pointKey a = .ub ↔ toInt ((⌊a.x / keyEps + 1 / 2⌋ : Int) : K) = .ub ∨ toInt ((⌊a.y / keyEps + 1 / 2⌋ : Int) : K) = .ub ∨
      toInt ((⌊a.z / keyEps + 1 / 2⌋ : Int) : K) = .ub := by
    unfold pointKey
    rcases key_cases a.x with h1 | ⟨r1, h1⟩ <;> rcases key_cases a.y with h2 | ⟨r2, h2⟩ <;> rcases key_cases a.z with h3 | ⟨r3, h3⟩ <;> simp only [h1, h2, h3, Res.ok_bind, Res.ub_bind, Res.pure_eq, true_or, or_true, reduceCtorEq, or_self, or_false, false_or, iff_true]
  rw [e, q, q, q]
  simp only [or_and_right, exists_or, exists_eq_left]

example : pointKey (⟨1 / 1000000, 0, 0⟩ : Vec3 ℚ) = .ub := by decide +kernel
example : pointKey (⟨1 / 2 ^ 40, 0, -1 / 2 ^ 30⟩ : Vec3 ℚ) = .ok ⟨4096, 0, -4194304⟩ := by decide +kernel

end Cmm.Hash
