import Verif.Model.Text
import Verif.Spec.Text
import Mathlib.Tactic.Ring
import Mathlib.Tactic.FieldSimp
import Mathlib.Tactic.Linarith
import Mathlib.Tactic.Positivity
import Mathlib.Algebra.Order.Field.Power
/-!
Lemmas about printed numbers.
-/
namespace Cmm.Text

/-! ### Digits -/

theorem isDig_digitChar {d : Nat} (h : d < 10) : isDig (digitChar d) = true ∧ (digitChar d).toNat - 48 = d ∧ digitChar d ≠ '-' := by
  revert h; revert d; decide

theorem digitChar_zero_iff {d : Nat} (h : d < 10) : digitChar d = '0' ↔ d = 0 := by
  revert h; revert d; decide

/-- Only digits. -/
def AllDig (l : List Char) : Prop := ∀ c ∈ l, isDig c = true

theorem AllDig.append {a b : List Char} (ha : AllDig a) (hb : AllDig b) : AllDig (a ++ b) := by
  intro c hc
  rcases List.mem_append.mp hc with h | h
  · exact ha c h
  · exact hb c h

theorem digitsValue_foldl (l : List Char) (n : Nat) :
    l.foldl (fun n c => 10 * n + (c.toNat - 48)) n = n * 10 ^ l.length + digitsValue l := by
  unfold digitsValue
  induction l generalizing n with
  | nil => simp
  | cons c l ih =>
    rw [List.foldl_cons, ih, List.foldl_cons, ih (10 * 0 + (c.toNat - 48)), List.length_cons, pow_succ]
    ring

theorem digitsValue_append (a b : List Char) : digitsValue (a ++ b) = digitsValue a * 10 ^ b.length + digitsValue b := by
  rw [digitsValue, List.foldl_append, digitsValue_foldl]; rfl

theorem digitsValue_single (c : Char) : digitsValue [c] = c.toNat - 48 := by simp [digitsValue]

theorem padded_length (k n : Nat) : (padded k n).length = k := by
  induction k generalizing n with
  | zero => rfl
  | succ k ih => simp [padded, ih]

theorem padded_dig (k n : Nat) : AllDig (padded k n) := by
  induction k generalizing n with
  | zero => intro c hc; simp [padded] at hc
  | succ k ih =>
    apply (ih _).append
    intro c hc
    rw [List.mem_singleton] at hc
    subst hc
    exact (isDig_digitChar (Nat.mod_lt _ (by decide))).1

theorem padded_value (k n : Nat) : digitsValue (padded k n) = n % 10 ^ k := by
  induction k generalizing n with
  | zero => simp [padded, digitsValue, Nat.mod_one]
  | succ k ih =>
    rw [padded, digitsValue_append, ih, digitsValue_single, (isDig_digitChar (Nat.mod_lt n (by decide : 10 > 0))).2.1, List.length_singleton,
      pow_one, pow_succ, Nat.mul_comm (10 ^ k) 10, Nat.mod_mul, Nat.add_comm, Nat.mul_comm]

theorem decimal_dig (n : Nat) : AllDig (decimal n) := by
  unfold decimal
  by_cases h : n = 0
  · rw [if_pos h]; intro c hc; rw [List.mem_singleton] at hc; subst hc; decide
  · rw [if_neg h]
    intro c hc
    rw [List.mem_reverse, List.mem_map] at hc
    obtain ⟨d, hd, rfl⟩ := hc
    exact (isDig_digitChar (Nat.digits_lt_base (by decide) hd)).1

theorem decimal_ne (n : Nat) : decimal n ≠ [] := by
  unfold decimal
  by_cases h : n = 0
  · rw [if_pos h]; simp
  · rw [if_neg h]
    intro e
    rw [List.reverse_eq_nil_iff, List.map_eq_nil_iff, Nat.digits_eq_nil_iff_eq_zero] at e
    exact h e

theorem reverse_value (l : List Nat) (h : ∀ d ∈ l, d < 10) : digitsValue (l.map digitChar).reverse = Nat.ofDigits 10 l := by
  induction l with
  | nil => simp [digitsValue]
  | cons d l ih =>
    rw [List.map_cons, List.reverse_cons, digitsValue_append, ih fun x hx => h x (List.mem_cons_of_mem _ hx), digitsValue_single,
      (isDig_digitChar (h d List.mem_cons_self)).2.1, Nat.ofDigits_cons, List.length_singleton, pow_one]
    push_cast
    ring

theorem decimal_value (n : Nat) : digitsValue (decimal n) = n := by
  unfold decimal
  by_cases h : n = 0
  · rw [if_pos h, h]; decide
  · rw [if_neg h, reverse_value _ fun d hd => Nat.digits_lt_base (by decide) hd, Nat.ofDigits_digits]

/-! ### Reading digits -/

/-- The text does not go on with a digit. -/
def NoDig (r : List Char) : Prop := ∀ c ∈ r.head?, isDig c = false

theorem take_digits {a r : List Char} (ha : AllDig a) (hr : NoDig r) : (a ++ r).takeWhile isDig = a ∧ (a ++ r).dropWhile isDig = r := by
  induction a with
  | nil =>
    cases r with
    | nil => simp
    | cons c r =>
      have : isDig c = false := hr c rfl
      simp [this]
  | cons c a ih =>
    have hc : isDig c = true := ha c List.mem_cons_self
    obtain ⟨e1, e2⟩ := ih fun x hx => ha x (List.mem_cons_of_mem _ hx)
    simp only [List.cons_append, List.takeWhile_cons, List.dropWhile_cons, hc, if_true, e1, e2, and_self]

/-- The fractional digits that are left. -/
theorem fraction_spec (fp : List Char) (h : AllDig fp) : ∃ gp, AllDig gp ∧ gp.length ≤ fp.length ∧
    fraction fp = (if gp = [] then [] else '.' :: gp) ∧ digitsValue fp = digitsValue gp * 10 ^ (fp.length - gp.length) ∧
    (digitsValue fp = 0 → gp = []) := by
  suffices H : ∀ l : List Char, AllDig l.reverse → AllDig (l.dropWhile (· = '0')).reverse ∧
      (l.dropWhile (· = '0')).length ≤ l.length ∧
      digitsValue l.reverse = digitsValue (l.dropWhile (· = '0')).reverse * 10 ^ (l.length - (l.dropWhile (· = '0')).length) ∧
      (digitsValue l.reverse = 0 → l.dropWhile (· = '0') = []) by
    obtain ⟨h1, h2, h3, h4⟩ := H fp.reverse (by rw [List.reverse_reverse]; exact h)
    rw [List.reverse_reverse] at h3 h4
    refine ⟨_, h1, by simpa using h2, ?_, by simpa using h3, fun e => by simp [h4 e]⟩
    unfold fraction
    rcases e : (fp.reverse.dropWhile (· = '0')).reverse with _ | ⟨d, ds⟩ <;> simp
  intro l
  induction l with
  | nil => intro _; simp [digitsValue, AllDig]
  | cons c l ih =>
    intro hl
    have hl' : AllDig l.reverse := fun x hx => hl x (by rw [List.reverse_cons]; exact List.mem_append_left _ hx)
    obtain ⟨i1, i2, i3, i4⟩ := ih hl'
    by_cases hc : c = '0'
    · subst hc
      simp only [List.dropWhile_cons, decide_true, if_true]
      refine ⟨i1, by rw [List.length_cons]; omega, ?_, ?_⟩
      · rw [List.reverse_cons, digitsValue_append, i3, List.length_singleton, List.length_cons, Nat.sub_add_comm i2, pow_succ]
        rw [show digitsValue ['0'] = 0 by decide]
        ring
      · intro e
        rw [List.reverse_cons, digitsValue_append] at e
        apply i4
        rw [List.length_singleton] at e
        omega
    · simp only [List.dropWhile_cons, hc, decide_false, Bool.false_eq_true, if_false]
      refine ⟨hl, le_refl _, by simp, ?_⟩
      intro e
      rw [List.reverse_cons, digitsValue_append, digitsValue_single, List.length_singleton] at e
      exfalso
      have hd : isDig c = true := hl c (by simp)
      have h48 : c.toNat - 48 = 0 := by omega
      simp only [isDig, Bool.and_eq_true, decide_eq_true_eq] at hd
      have h1 : 48 ≤ c.toNat := hd.1
      apply hc
      have : c.toNat = '0'.toNat := by
        show c.toNat = 48
        omega
      exact Char.toNat_inj.mp this

theorem frac_value (a g f k : Nat) (hk : k ≤ f) : ((a * 10 ^ f + g * 10 ^ (f - k) : Nat) : ℚ) / 10 ^ f = ((a * 10 ^ k + g : Nat) : ℚ) / 10 ^ k := by
  obtain ⟨j, rfl⟩ := Nat.exists_eq_add_of_le hk
  rw [Nat.add_sub_cancel_left, pow_add, div_eq_div_iff (by positivity) (by positivity)]
  push_cast
  ring

/-- Reading whole and fractional digits. -/
theorem readUnsigned_spec {ip fp r : List Char} (h1 : AllDig ip) (h0 : ip ≠ []) (h2 : AllDig fp) (hr : NoDig r) (hp : ∀ c ∈ r.head?, c ≠ '.') :
    readUnsigned (ip ++ fraction fp ++ r) = some (((digitsValue ip * 10 ^ fp.length + digitsValue fp : Nat) : ℚ) / 10 ^ fp.length, r) := by
  obtain ⟨gp, g1, g2, g3, g4, -⟩ := fraction_spec fp h2
  rw [g4, frac_value _ _ _ _ g2, g3]
  by_cases hg : gp = []
  · subst hg
    obtain ⟨e1, e2⟩ := take_digits h1 hr
    simp only [if_true, List.append_nil, readUnsigned, e1, e2, if_neg h0, List.length_nil, pow_zero, mul_one, div_one]
    rcases r with _ | ⟨c, r⟩
    · simp [digitsValue]
    · have hc : c ≠ '.' := hp c rfl
      split
      · rename_i h; injection h with h _; exact absurd h hc
      · simp [digitsValue]
  · have hd : NoDig ('.' :: (gp ++ r)) := by intro c hc; simp at hc; subst hc; decide
    obtain ⟨e1, e2⟩ := take_digits h1 hd
    obtain ⟨e3, e4⟩ := take_digits g1 hr
    rw [if_neg hg, List.append_assoc, List.cons_append]
    simp only [readUnsigned, e1, e2, if_neg h0, e3, e4, if_neg hg, digitsValue_append]

/-- The text does not go on with something that could belong to a number. -/
def Stops (r : List Char) : Prop := ∀ c ∈ r.head?, isDig c = false ∧ c ≠ '.' ∧ c ≠ 'e'

theorem Stops.noDig {r : List Char} (h : Stops r) : NoDig r := fun c hc => (h c hc).1

theorem readExponent_none {v : ℚ} {r : List Char} (h : Stops r) : readExponent (v, r) = (v, r) := by
  unfold readExponent
  split
  · rename_i e; rw [Prod.mk.injEq] at e; obtain ⟨-, e⟩ := e; exact absurd rfl (h 'e' (by rw [e]; rfl)).2.2
  · rename_i e; rw [Prod.mk.injEq] at e; obtain ⟨-, e⟩ := e; exact absurd rfl (h 'e' (by rw [e]; rfl)).2.2
  · rfl

theorem readExponent_text {v : ℚ} {r : List Char} (e : Int) (h : Stops r) : readExponent (v, exponentText e ++ r) = (v * (10 : ℚ) ^ e, r) := by
  have key : ∀ n : Nat, AllDig (if n < 10 then '0' :: decimal n else decimal n) ∧ digitsValue (if n < 10 then '0' :: decimal n else decimal n) = n := by
    intro n
    by_cases hn : n < 10
    · rw [if_pos hn]
      refine ⟨?_, ?_⟩
      · intro c hc
        rcases List.mem_cons.mp hc with rfl | hc
        · decide
        · exact decimal_dig n c hc
      · rw [show '0' :: decimal n = ['0'] ++ decimal n from rfl, digitsValue_append, decimal_value]; simp [digitsValue]
    · rw [if_neg hn]; exact ⟨decimal_dig n, decimal_value n⟩
  obtain ⟨k1, k2⟩ := key e.natAbs
  obtain ⟨t1, t2⟩ := take_digits k1 h.noDig
  unfold exponentText
  by_cases he : e < 0
  · rw [if_pos he, List.cons_append, List.cons_append]
    simp only [readExponent, t1, t2, k2]
    rw [← zpow_natCast, Int.ofNat_natAbs_of_nonpos he.le, zpow_neg, div_inv_eq_mul]
  · rw [if_neg he, List.cons_append, List.cons_append]
    simp only [readExponent, t1, t2, k2]
    rw [← zpow_natCast, Int.natAbs_of_nonneg (by omega)]

theorem readNumber_sign {x v : ℚ} {t r : List Char} (hd : ∃ c ∈ t.head?, isDig c = true)
    (h : (readUnsigned t).map readExponent = some (v, r)) : readNumber (signText x ++ t) = some (if x < 0 then -v else v, r) := by
  unfold signText
  by_cases hx : x < 0
  · rw [if_pos hx, if_pos hx]
    show (readUnsigned t).map _ = _
    rcases hu : readUnsigned t with _ | p
    · rw [hu] at h; simp at h
    · rw [hu] at h
      simp only [Option.map_some, Option.some.injEq] at h ⊢
      rw [h]
  · rw [if_neg hx, if_neg hx, List.nil_append, ← h]
    obtain ⟨c, hc, hc'⟩ := hd
    rcases t with _ | ⟨d, t⟩
    · simp at hc
    · simp only [List.head?_cons, Option.mem_def, Option.some.injEq] at hc
      subst hc
      unfold readNumber
      split
      · rename_i e; injection e with e _; subst e; simp [isDig] at hc'
      · rfl

/-! ### Rounding -/

theorem roundEven_near {x : ℚ} (h : 0 ≤ x) : |(roundEven x : ℚ) - x| ≤ 1 / 2 := by
  have h1 : (⌊x⌋₊ : ℚ) ≤ x := Nat.floor_le h
  have h2 : x < ⌊x⌋₊ + 1 := Nat.lt_floor_add_one x
  unfold roundEven
  rw [abs_le]
  dsimp only
  split
  · constructor <;> linarith
  · split
    · push_cast; constructor <;> linarith
    · split
      · constructor <;> linarith
      · push_cast; constructor <;> linarith

theorem roundEven_nat (n : Nat) : roundEven (n : ℚ) = n := by
  simp [roundEven]

theorem roundEven_ge {x : ℚ} {n : Nat} (h0 : 0 ≤ x) (h : (n : ℚ) ≤ x) : n ≤ roundEven x := by
  have h1 := abs_le.mp (roundEven_near h0)
  have : (n : ℚ) - 1 < roundEven x := by linarith [h1.1]
  have : ((n : ℤ) - 1 : ℚ) < ((roundEven x : ℤ) : ℚ) := by exact_mod_cast this
  have : (n : ℤ) - 1 < (roundEven x : ℤ) := by exact_mod_cast this
  omega

theorem roundEven_le {x : ℚ} {n : Nat} (h0 : 0 ≤ x) (h : x < n) : roundEven x ≤ n := by
  have h1 := abs_le.mp (roundEven_near h0)
  have : (roundEven x : ℚ) < n + 1 := by linarith [h1.2]
  have : roundEven x < n + 1 := by exact_mod_cast this
  omega

/-! ### Whole numbers as texts -/

theorem readUnsigned_point {ip gp r : List Char} (h1 : AllDig ip) (h0 : ip ≠ []) (g1 : AllDig gp) (hg : gp ≠ []) (hr : NoDig r) :
    readUnsigned (ip ++ '.' :: gp ++ r) = some (((digitsValue ip * 10 ^ gp.length + digitsValue gp : Nat) : ℚ) / 10 ^ gp.length, r) := by
  have hd : NoDig ('.' :: (gp ++ r)) := by intro c hc; simp at hc; subst hc; decide
  obtain ⟨e1, e2⟩ := take_digits h1 hd
  obtain ⟨e3, e4⟩ := take_digits g1 hr
  rw [List.append_assoc, List.cons_append]
  simp only [readUnsigned, e1, e2, if_neg h0, e3, e4, if_neg hg, digitsValue_append]

theorem head_dig {ip t : List Char} (h1 : AllDig ip) (h0 : ip ≠ []) : ∃ c ∈ (ip ++ t).head?, isDig c = true := by
  rcases ip with _ | ⟨c, ip⟩
  · exact absurd rfl h0
  · exact ⟨c, rfl, h1 c List.mem_cons_self⟩

theorem signed_near {x y d : ℚ} (hy : abs (y - |x|) ≤ d) : |(if x < 0 then -y else y) - x| ≤ d := by
  by_cases hx : x < 0
  · rw [if_pos hx]
    rw [abs_of_neg hx] at hy
    rw [show -y - x = -(y - -x) by ring, abs_neg]; exact hy
  · rw [if_neg hx]
    rw [abs_of_nonneg (not_lt.mp hx)] at hy; exact hy

/-- The number read from a fixed-point text. -/
def fixedValue (k : Nat) (x : ℚ) : ℚ := if x < 0 then -((roundEven (|x| * 10 ^ k) : ℚ) / 10 ^ k) else (roundEven (|x| * 10 ^ k) : ℚ) / 10 ^ k

theorem fixed_read {k : Nat} (hk : 1 ≤ k) (x : ℚ) {r : List Char} (hr : Stops r) :
    readNumber (fixedText k x ++ r) = some (fixedValue k x, r) := by
  unfold fixedText fixedValue
  dsimp only
  rw [List.append_assoc, List.append_assoc]
  have hne : padded k (roundEven (|x| * 10 ^ k) % 10 ^ k) ≠ [] := by
    intro e
    have := padded_length k (roundEven (|x| * 10 ^ k) % 10 ^ k)
    rw [e] at this; simp at this; omega
  apply readNumber_sign (head_dig (decimal_dig _) (decimal_ne _))
  rw [← List.append_assoc, readUnsigned_point (decimal_dig _) (decimal_ne _) (padded_dig _ _) hne hr.noDig, Option.map_some, readExponent_none hr,
    decimal_value, padded_value, padded_length, Nat.mod_mod, Nat.div_add_mod']

theorem fixedValue_nearest (k : Nat) (x : ℚ) : NearestDecimal k x (fixedValue k x) := by
  have h10 : (0 : ℚ) < 10 ^ k := by positivity
  refine ⟨?_, ?_⟩
  · by_cases hx : x < 0
    · exact ⟨-(roundEven (|x| * 10 ^ k) : ℤ), by rw [fixedValue, if_pos hx]; push_cast; ring⟩
    · exact ⟨(roundEven (|x| * 10 ^ k) : ℤ), by rw [fixedValue, if_neg hx]; push_cast; ring⟩
  · apply signed_near
    have h := roundEven_near (x := |x| * 10 ^ k) (by positivity)
    rw [show (roundEven (|x| * 10 ^ k) : ℚ) / 10 ^ k - |x| = ((roundEven (|x| * 10 ^ k) : ℚ) - |x| * 10 ^ k) / 10 ^ k by field_simp, abs_div,
      abs_of_pos h10]
    exact div_le_div_of_nonneg_right h h10.le

/-- The digits and the exponent of `%g`. -/
theorem significant_spec {p : Nat} (hp : 1 ≤ p) {x : ℚ} (hx : x ≠ 0) :
    10 ^ (p - 1) ≤ (significant p x).1 ∧ (significant p x).1 < 10 ^ p ∧
    abs (((significant p x).1 : ℚ) * (10 : ℚ) ^ ((significant p x).2 - (p - 1)) - |x|) ≤ 1 / 2 * (10 : ℚ) ^ (1 - p : ℤ) * |x| ∧
    (HasDigits p x → ((significant p x).1 : ℚ) * (10 : ℚ) ^ ((significant p x).2 - (p - 1)) = |x|) := by
  have hx0 : 0 < |x| := abs_pos.mpr hx
  obtain ⟨e, he⟩ : ∃ e, e = Int.log 10 |x| := ⟨_, rfl⟩
  have hlo : (10 : ℚ) ^ e ≤ |x| := by rw [he]; exact_mod_cast Int.zpow_log_le_self (b := 10) (by decide) hx0
  have hhi : |x| < (10 : ℚ) ^ (e + 1) := by rw [he]; exact_mod_cast Int.lt_zpow_succ_log_self (b := 10) (by decide) |x|
  obtain ⟨y, hy⟩ : ∃ y, y = |x| * (10 : ℚ) ^ ((p : Int) - 1 - e) := ⟨_, rfl⟩
  have t : (0 : ℚ) < (10 : ℚ) ^ ((p : Int) - 1 - e) := by positivity
  have hy0 : 0 ≤ y := by rw [hy]; positivity
  have y1 : ((10 ^ (p - 1) : Nat) : ℚ) ≤ y := by
    have : (10 : ℚ) ^ e * (10 : ℚ) ^ ((p : Int) - 1 - e) ≤ y := by rw [hy]; exact mul_le_mul_of_nonneg_right hlo t.le
    rw [← zpow_add₀ (by norm_num)] at this
    rw [show e + ((p : Int) - 1 - e) = ((p - 1 : Nat) : Int) by push_cast [Nat.cast_sub hp]; ring, zpow_natCast] at this
    push_cast; exact this
  have y2 : y < ((10 ^ p : Nat) : ℚ) := by
    have : y < (10 : ℚ) ^ (e + 1) * (10 : ℚ) ^ ((p : Int) - 1 - e) := by rw [hy]; exact mul_lt_mul_of_pos_right hhi t
    rw [← zpow_add₀ (by norm_num)] at this
    rw [show e + 1 + ((p : Int) - 1 - e) = (p : Int) by ring, zpow_natCast] at this
    push_cast; exact this
  obtain ⟨m, hm⟩ : ∃ m, m = roundEven y := ⟨_, rfl⟩
  have m1 : 10 ^ (p - 1) ≤ m := hm ▸ roundEven_ge hy0 y1
  have m2 : m ≤ 10 ^ p := hm ▸ roundEven_le hy0 y2
  have m3 : |(m : ℚ) - y| ≤ 1 / 2 := hm ▸ roundEven_near hy0
  have hval : (significant p x).1 * (10 : ℚ) ^ ((significant p x).2 - (p - 1)) = (m : ℚ) * (10 : ℚ) ^ (e - (p - 1)) ∧
      10 ^ (p - 1) ≤ (significant p x).1 ∧ (significant p x).1 < 10 ^ p := by
    unfold significant
    rw [← he]
    dsimp only
    rw [← hy, ← hm]
    by_cases h : m = 10 ^ p
    · rw [if_pos h]
      refine ⟨?_, le_refl _, Nat.pow_lt_pow_right (by decide) (by omega)⟩
      rw [h]
      push_cast
      rw [← zpow_natCast, ← zpow_natCast, ← zpow_add₀ (by norm_num), ← zpow_add₀ (by norm_num)]
      congr 1
      push_cast [Nat.cast_sub hp]
      ring
    · rw [if_neg h]
      exact ⟨rfl, m1, by omega⟩
  have hback : y * (10 : ℚ) ^ (e - (p - 1)) = |x| := by
    rw [hy, mul_assoc, ← zpow_add₀ (by norm_num), show (p : Int) - 1 - e + (e - (p - 1)) = 0 by ring, zpow_zero, mul_one]
  refine ⟨hval.2.1, hval.2.2, ?_, ?_⟩
  · rw [hval.1]
    have t2 : (0 : ℚ) < (10 : ℚ) ^ (e - (p - 1)) := by positivity
    calc abs ((m : ℚ) * (10 : ℚ) ^ (e - (p - 1)) - |x|) = |(m : ℚ) - y| * (10 : ℚ) ^ (e - (p - 1)) := by
          conv_lhs => rw [← hback]
          rw [← sub_mul, abs_mul, abs_of_pos t2]
      _ ≤ 1 / 2 * (10 : ℚ) ^ (e - (p - 1)) := mul_le_mul_of_nonneg_right m3 t2.le
      _ = 1 / 2 * (10 : ℚ) ^ (1 - p : ℤ) * (10 : ℚ) ^ e := by
          rw [mul_assoc, ← zpow_add₀ (by norm_num)]; congr 2; ring
      _ ≤ _ := mul_le_mul_of_nonneg_left hlo (by positivity)
  · rintro ⟨z, j, hz, hzx⟩
    rw [hval.1, ← hback]
    congr 1
    -- `y` is a whole number
    have hj : 0 ≤ j + ((p : Int) - 1 - e) := by
      by_contra hneg
      have hxz : |x| = |(z : ℚ)| * (10 : ℚ) ^ j := by rw [hzx, abs_mul, abs_of_pos (by positivity : (0 : ℚ) < (10 : ℚ) ^ j)]
      have hzq : |(z : ℚ)| < (10 : ℚ) ^ p := by rw [← Int.cast_abs]; exact_mod_cast hz
      have : |x| < (10 : ℚ) ^ (p : Int) * (10 : ℚ) ^ j := by
        rw [hxz, zpow_natCast]; exact mul_lt_mul_of_pos_right hzq (by positivity)
      rw [← zpow_add₀ (by norm_num)] at this
      have h3 : (10 : ℚ) ^ ((p : Int) + j) ≤ (10 : ℚ) ^ e := zpow_le_zpow_right₀ (by norm_num) (by omega)
      linarith
    have hyz : y = ((z.natAbs * 10 ^ (j + ((p : Int) - 1 - e)).toNat : Nat) : ℚ) := by
      rw [hy, hzx, abs_mul, abs_of_pos (by positivity : (0 : ℚ) < (10 : ℚ) ^ j), mul_assoc, ← zpow_add₀ (by norm_num)]
      push_cast
      rw [← zpow_natCast, Int.toNat_of_nonneg hj, Nat.cast_natAbs, Int.cast_abs]
    rw [hm, hyz, roundEven_nat]

/-- The number read from a text of `%g`. -/
def generalValue (p : Nat) (x : ℚ) : ℚ :=
  if x = 0 then 0
  else if x < 0 then -(((significant p x).1 : ℚ) * (10 : ℚ) ^ ((significant p x).2 - (p - 1)))
  else ((significant p x).1 : ℚ) * (10 : ℚ) ^ ((significant p x).2 - (p - 1))

theorem Stops.exponent (e : Int) (r : List Char) : NoDig (exponentText e ++ r) ∧ ∀ c ∈ (exponentText e ++ r).head?, c ≠ '.' := by
  unfold exponentText
  constructor <;> intro c hc <;> simp at hc <;> subst hc <;> decide

theorem general_read {p : Nat} (hp : 1 ≤ p) (x : ℚ) {r : List Char} (hr : Stops r) :
    readNumber (generalText p x ++ r) = some (generalValue p x, r) := by
  unfold generalText generalValue
  by_cases hx : x = 0
  · rw [if_pos hx, if_pos hx]
    have := readUnsigned_spec (ip := ['0']) (fp := []) (r := r) (by intro c hc; simp at hc; subst hc; decide) (by simp)
      (by intro c hc; simp at hc) hr.noDig (fun c hc => (hr c hc).2.1)
    have e : readNumber (signText 0 ++ (['0'] ++ r)) = some (if (0 : ℚ) < 0 then -0 else 0, r) := by
      apply readNumber_sign (head_dig (by intro c hc; simp at hc; subst hc; decide) (by simp))
      simp only [fraction, List.reverse_nil, List.dropWhile_nil, List.append_nil] at this
      rw [this, Option.map_some, readExponent_none hr]
      simp [digitsValue]
    simpa [signText] using e
  rw [if_neg hx, if_neg hx]
  obtain ⟨s1, s2, -, -⟩ := significant_spec hp hx
  dsimp only
  have hp1 : ((p - 1 : Nat) : Int) = (p : Int) - 1 := by push_cast [Nat.cast_sub hp]; ring
  by_cases hr4 : -4 ≤ (significant p x).2 ∧ (significant p x).2 < p
  · rw [if_pos hr4]
    by_cases he : 0 ≤ (significant p x).2
    · rw [if_pos he, List.append_assoc, List.append_assoc]
      apply readNumber_sign (head_dig (decimal_dig _) (decimal_ne _))
      rw [← List.append_assoc, readUnsigned_spec (decimal_dig _) (decimal_ne _) (padded_dig _ _) hr.noDig (fun c hc => (hr c hc).2.1),
        Option.map_some, readExponent_none hr, decimal_value, padded_value, padded_length, Nat.mod_mod, Nat.div_add_mod']
      congr 2
      rw [div_eq_mul_inv, ← zpow_natCast, ← zpow_neg]
      congr 2
      omega
    · rw [if_neg he, List.append_assoc, List.cons_append]
      have h0 : AllDig ['0'] := by intro c hc; simp at hc; subst hc; decide
      have hz : AllDig (List.replicate ((significant p x).2.natAbs - 1) '0') := by
        intro c hc; rw [List.mem_replicate] at hc; rw [hc.2]; decide
      have hzv : ∀ n, digitsValue (List.replicate n '0') = 0 := by
        intro n
        induction n with
        | zero => rfl
        | succ n ih => rw [List.replicate_succ, show '0' :: List.replicate n '0' = ['0'] ++ List.replicate n '0' from rfl, digitsValue_append, ih, show digitsValue ['0'] = 0 from rfl, Nat.zero_mul]
      apply readNumber_sign (t := '0' :: (fraction _ ++ r)) (head_dig (ip := ['0']) h0 (by simp))
      rw [show ('0' :: (fraction (List.replicate ((significant p x).2.natAbs - 1) '0' ++ padded p (significant p x).1) ++ r)) =
        ['0'] ++ fraction (List.replicate ((significant p x).2.natAbs - 1) '0' ++ padded p (significant p x).1) ++ r from rfl,
        readUnsigned_spec h0 (by simp) (hz.append (padded_dig _ _)) hr.noDig (fun c hc => (hr c hc).2.1),
        Option.map_some, readExponent_none hr, digitsValue_append, hzv, padded_value, List.length_append, List.length_replicate, padded_length,
        Nat.mod_eq_of_lt s2, show digitsValue ['0'] = 0 from rfl, Nat.zero_mul, Nat.zero_mul, Nat.zero_add, Nat.zero_add]
      congr 2
      rw [div_eq_mul_inv, ← zpow_natCast, ← zpow_neg]
      congr 2
      omega
  · rw [if_neg hr4, List.append_assoc, List.append_assoc, List.append_assoc]
    apply readNumber_sign (head_dig (decimal_dig _) (decimal_ne _))
    rw [← List.append_assoc, readUnsigned_spec (decimal_dig _) (decimal_ne _) (padded_dig _ _) (Stops.exponent _ _).1 (Stops.exponent _ _).2,
      Option.map_some, readExponent_text _ hr, decimal_value, padded_value, padded_length, Nat.mod_mod, Nat.div_add_mod']
    congr 2
    rw [div_eq_mul_inv, ← zpow_natCast, ← zpow_neg, mul_assoc, ← zpow_add₀ (by norm_num)]
    congr 2
    omega

theorem generalValue_near {p : Nat} (hp : 1 ≤ p) (x : ℚ) : |generalValue p x - x| ≤ 1 / 2 * (10 : ℚ) ^ (1 - p : ℤ) * |x| := by
  unfold generalValue
  by_cases hx : x = 0
  · rw [if_pos hx, hx]; simp
  · rw [if_neg hx]
    exact signed_near (significant_spec hp hx).2.2.1

theorem generalValue_exact {p : Nat} (hp : 1 ≤ p) {x : ℚ} (h : HasDigits p x) : generalValue p x = x := by
  unfold generalValue
  by_cases hx : x = 0
  · rw [if_pos hx, hx]
  · rw [if_neg hx, (significant_spec hp hx).2.2.2 h]
    by_cases hn : x < 0
    · rw [if_pos hn, abs_of_neg hn, neg_neg]
    · rw [if_neg hn, abs_of_nonneg (not_lt.mp hn)]

end Cmm.Text
