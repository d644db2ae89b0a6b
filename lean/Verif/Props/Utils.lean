import Verif.Model.Utils
import Mathlib.Tactic.Linarith
import Mathlib.Tactic.NormNum
import Mathlib.Tactic.Positivity
import Mathlib.Algebra.Order.Field.Power
/-!
C118: `vectorColumn`. C119: `calc_epsilon`.
-/
namespace Cmm.Utils

theorem resized_length {T : Type} (b : T) (n : Nat) (l : List T) : (resized b n l).length = n := by
  simp only [resized, List.length_append, List.length_take, List.length_replicate]; omega

theorem loop_ok {T : Type} (j : Nat) (rows : List (List T)) (i : Nat) (col : List T) (h : ∀ r ∈ rows, j < r.length) (hl : i + rows.length ≤ col.length) :
    ∃ c, columnLoop j rows i col = .ok c ∧ c.length = col.length ∧
      (∀ k (hk : k < rows.length), c[i + k]? = (rows[k])[j]?) ∧ ∀ k, (k < i ∨ i + rows.length ≤ k) → c[k]? = col[k]? := by
  induction rows generalizing i col with
  | nil => exact ⟨col, rfl, rfl, fun k hk => absurd hk (by simp), fun _ _ => rfl⟩
  | cons r rows ih =>
    have hj := h r List.mem_cons_self
    rw [List.length_cons] at hl
    obtain ⟨c, h1, h2, h3, h4⟩ := ih (i + 1) (col.set i r[j]) (fun q hq => h q (List.mem_cons_of_mem _ hq)) (by rw [List.length_set]; omega)
    refine ⟨c, ?_, by rw [h2, List.length_set], ?_, ?_⟩
    · simp only [columnLoop, List.getElem?_eq_getElem hj]
      rw [if_pos (by omega)]; exact h1
    · intro k hk
      rcases k with _ | k
      · rw [Nat.add_zero, h4 i (.inl (by omega)), List.getElem?_set_self (by omega), List.getElem_cons_zero, List.getElem?_eq_getElem hj]
      · rw [List.getElem_cons_succ, ← h3 k (by simpa using hk)]
        congr 1; omega
    · intro k hk
      rw [h4 k (by rw [List.length_cons] at hk; omega), List.getElem?_set_ne (by rw [List.length_cons] at hk; omega)]

theorem loop_ub {T : Type} (j : Nat) (rows : List (List T)) (i : Nat) (col : List T) (h : ∀ r ∈ rows, j < r.length) (hl : col.length < i + rows.length)
    (hi : i ≤ col.length) : columnLoop j rows i col = .ub := by
  induction rows generalizing i col with
  | nil => rw [List.length_nil] at hl; omega
  | cons r rows ih =>
    have hj := h r List.mem_cons_self
    simp only [columnLoop, List.getElem?_eq_getElem hj]
    by_cases hic : i < col.length
    · rw [if_pos hic]
      exact ih (i + 1) _ (fun q hq => h q (List.mem_cons_of_mem _ hq)) (by rw [List.length_set, List.length_cons] at *; omega) (by rw [List.length_set]; omega)
    · rw [if_neg hic]

theorem loop_throws {T : Type} (j : Nat) (rows : List (List T)) (i : Nat) (col : List T) (h : ∃ r ∈ rows, r.length ≤ j) (hl : i + rows.length ≤ col.length) :
    columnLoop j rows i col = .throws := by
  induction rows generalizing i col with
  | nil => obtain ⟨r, hr, -⟩ := h; simp at hr
  | cons r rows ih =>
    rw [List.length_cons] at hl
    unfold columnLoop
    by_cases hj : j < r.length
    · rw [List.getElem?_eq_getElem hj]
      dsimp only
      rw [if_pos (by omega)]
      refine ih (i + 1) _ ?_ (by rw [List.length_set]; omega)
      obtain ⟨q, hq, hq'⟩ := h
      rcases List.mem_cons.mp hq with rfl | hq
      · omega
      · exact ⟨q, hq, hq'⟩
    · rw [List.getElem?_eq_none (by omega)]

/-- C118. With at most as many rows as the first row has entries, `vectorColumn` throws exactly if some row is too short for the column; otherwise the output has one entry
for every entry of the first row: first the column, then what the output held at these places (new entries are zero). -/
theorem C118_column_partial {T : Type} (blank : T) (row : List T) (rows : List (List T)) (j : Nat) (column : List T)
    (h : rows.length + 1 ≤ row.length) :
    (vectorColumn blank (row :: rows) j column = .throws ↔ ∃ r ∈ row :: rows, r.length ≤ j) ∧
    ((∀ r ∈ row :: rows, j < r.length) → ∃ c, vectorColumn blank (row :: rows) j column = .ok c ∧ c.length = row.length ∧
      (∀ k (hk : k < rows.length + 1), c[k]? = ((row :: rows)[k])[j]?) ∧
      ∀ k, rows.length + 1 ≤ k → k < row.length → c[k]? = some (if h : k < column.length then column[k] else blank)) := by
  have key : (∀ r ∈ row :: rows, j < r.length) → ∃ c, vectorColumn blank (row :: rows) j column = .ok c ∧ c.length = row.length ∧
      (∀ k (hk : k < rows.length + 1), c[k]? = ((row :: rows)[k])[j]?) ∧
      ∀ k, rows.length + 1 ≤ k → k < row.length → c[k]? = some (if h : k < column.length then column[k] else blank) := by
    intro hr
    obtain ⟨c, h1, h2, h3, h4⟩ := loop_ok j (row :: rows) 0 (resized blank row.length column) hr (by rw [resized_length, List.length_cons]; omega)
    rw [resized_length] at h2
    refine ⟨c, h1, h2, fun k hk => by simpa using h3 k (by simpa using hk), fun k hk hk' => ?_⟩
    rw [h4 k (.inr (by rw [List.length_cons]; omega)), resized]
    by_cases hc : k < column.length
    · rw [dif_pos hc, List.getElem?_append_left (by rw [List.length_take]; omega), List.getElem?_take_of_lt hk', List.getElem?_eq_getElem hc]
    · rw [dif_neg hc, List.getElem?_append_right (by rw [List.length_take]; omega), List.getElem?_replicate,
        if_pos (by rw [List.length_take]; omega)]
  refine ⟨⟨fun e => ?_, fun e => loop_throws _ _ _ _ e (by rw [resized_length, List.length_cons]; omega)⟩, key⟩
  by_contra hn
  push Not at hn
  obtain ⟨c, hc, -⟩ := key hn
  rw [hc] at e; cases e

/-- C118. So the output is the column exactly if there are as many rows as the first row has entries. -/
theorem C118_square_iff {T : Type} (blank : T) (row : List T) (rows : List (List T)) (j : Nat) (column : List T)
    (h : ∀ r ∈ row :: rows, j < r.length) :
    vectorColumn blank (row :: rows) j column = .ok ((row :: rows).filterMap fun r => r[j]?) ↔ rows.length + 1 = row.length := by
  have hlen : ((row :: rows).filterMap fun r => r[j]?).length = rows.length + 1 := by
    have : ∀ l : List (List T), (∀ r ∈ l, j < r.length) → (l.filterMap fun r => r[j]?).length = l.length := by
      intro l hl
      induction l with
      | nil => rfl
      | cons r l ih =>
        rw [List.filterMap_cons, List.getElem?_eq_getElem (hl r List.mem_cons_self)]
        simp only [List.length_cons]
        rw [ih fun q hq => hl q (List.mem_cons_of_mem _ hq)]
    rw [this _ h, List.length_cons]
  have hget : ∀ k (hk : k < rows.length + 1), ((row :: rows).filterMap fun r => r[j]?)[k]? = ((row :: rows)[k])[j]? := by
    have : ∀ (l : List (List T)), (∀ r ∈ l, j < r.length) → ∀ k (hk : k < l.length), (l.filterMap fun r => r[j]?)[k]? = (l[k])[j]? := by
      intro l hl
      induction l with
      | nil => intro k hk; simp at hk
      | cons r l ih =>
        intro k hk
        have hr := hl r List.mem_cons_self
        rw [List.filterMap_cons, List.getElem?_eq_getElem hr]
        dsimp only
        rcases k with _ | k
        · rw [List.getElem?_cons_zero, List.getElem_cons_zero, List.getElem?_eq_getElem hr]
        · rw [List.getElem?_cons_succ, List.getElem_cons_succ]
          exact ih (fun q hq => hl q (List.mem_cons_of_mem _ hq)) k (by simpa using hk)
    intro k hk
    exact this (row :: rows) h k (by simpa using hk)
  constructor
  · intro e
    by_cases hl : rows.length + 1 ≤ row.length
    · obtain ⟨c, h1, h2, -⟩ := (C118_column_partial blank row rows j column hl).2 h
      rw [h1] at e
      injection e with e
      rw [← h2, e, hlen]
    · have := loop_ub j (row :: rows) 0 (resized blank row.length column) h (by rw [resized_length, List.length_cons]; omega) (by omega)
      rw [vectorColumn, this] at e; cases e
  · intro e
    obtain ⟨c, h1, h2, h3, -⟩ := (C118_column_partial blank row rows j column (by omega)).2 h
    rw [h1]
    congr 1
    apply List.ext_getElem?
    intro k
    by_cases hk : k < rows.length + 1
    · rw [h3 k hk, hget k hk]
    · rw [List.getElem?_eq_none (by omega), List.getElem?_eq_none (by omega)]

/-- C118. With more rows than the first row has entries the output is written out of bounds; an empty matrix is read out of bounds. -/
theorem C118_tall_counterexample {T : Type} (blank : T) (row : List T) (rows : List (List T)) (j : Nat) (column : List T)
    (h : row.length ≤ rows.length) (hr : ∀ r ∈ row :: rows, j < r.length) :
    vectorColumn blank (row :: rows) j column = .ub ∧ vectorColumn blank ([] : List (List T)) j column = .ub :=
  ⟨loop_ub j (row :: rows) 0 (resized blank row.length column) hr (by rw [resized_length, List.length_cons]; omega) (by omega), rfl⟩

example : vectorColumn 0 [[1, 2, 3], [4, 5, 6]] 1 [7, 8, 9, 10] = .ok [2, 5, 9] ∧ vectorColumn 0 [[1, 2], [3, 4], [5, 6]] 1 [] = .ub ∧
    vectorColumn 0 [[1, 2], [3, 4]] 1 [] = .ok [2, 4] ∧ vectorColumn 0 [[1, 2], [3]] 1 [] = .throws := by decide

/-! ### The size of a rounding unit -/

/-- The distance from a double to the next one away from zero: 53 binary digits, and no exponent below -1074. -/
def spacing (x : ℚ) : ℚ := (2 : ℚ) ^ (max (Int.log 2 |x| - 52) (-1074))

/-- C119. From 1e-12 on `calc_epsilon` is between one and two spacings of the doubles. -/
theorem C119_large_partial (x : ℚ) (h : 1 / 10 ^ 12 ≤ |x|) : spacing x ≤ calcEpsilon x ∧ calcEpsilon x < 2 * spacing x := by
  have hx : 0 < |x| := lt_of_lt_of_le (by norm_num) h
  have hlo : (2 : ℚ) ^ Int.log 2 |x| ≤ |x| := by exact_mod_cast Int.zpow_log_le_self (b := 2) (by decide) hx
  have hhi : |x| < (2 : ℚ) ^ (Int.log 2 |x| + 1) := by exact_mod_cast Int.lt_zpow_succ_log_self (b := 2) (by decide) |x|
  have hlog : (-40 : ℤ) ≤ Int.log 2 |x| := by
    rw [← Int.zpow_le_iff_le_log (by decide) hx]
    refine le_trans ?_ h
    norm_num
  have hs : spacing x = (2 : ℚ) ^ Int.log 2 |x| * (1 / 2 ^ 52) := by
    rw [spacing, max_eq_left (by omega), zpow_sub₀ (by norm_num), div_eq_mul_one_div]
    norm_num
  rw [calcEpsilon, if_neg (not_lt.mpr h), hs]
  constructor
  · rw [mul_comm]
    exact mul_le_mul_of_nonneg_left hlo (by positivity)
  · rw [zpow_add₀ (by norm_num), zpow_one] at hhi
    have := mul_lt_mul_of_pos_left hhi (by positivity : (0 : ℚ) < 1 / 2 ^ 52)
    calc _ < _ := this
      _ = _ := by ring

/-- C119. Between 2 ^ -1019 and 1e-12 it is less than half a spacing, so adding it to the number changes nothing. -/
theorem C119_small_counterexample (x : ℚ) (h : |x| < 1 / 10 ^ 12) (h' : 1 / 2 ^ 1019 ≤ |x|) : 2 * calcEpsilon x < spacing x := by
  have hx : 0 < |x| := lt_of_lt_of_le (by positivity) h'
  have hlog : (-1019 : ℤ) ≤ Int.log 2 |x| := by
    rw [← Int.zpow_le_iff_le_log (by decide) hx]
    refine le_trans (le_of_eq ?_) h'
    rw [zpow_neg, one_div]
    rfl
  rw [calcEpsilon, if_pos h, spacing, max_eq_left (by omega)]
  have h1 : (2 : ℚ) ^ (-1071 : ℤ) ≤ (2 : ℚ) ^ (Int.log 2 |x| - 52) := zpow_le_zpow_right₀ (by norm_num) (by omega)
  refine lt_of_lt_of_le ?_ h1
  rw [show (1 / 2 ^ 1074 : ℚ) = (2 : ℚ) ^ (-1074 : ℤ) by rw [zpow_neg, one_div]; rfl]
  rw [show (2 : ℚ) * (2 : ℚ) ^ (-1074 : ℤ) = (2 : ℚ) ^ (-1073 : ℤ) by
    rw [show (-1073 : ℤ) = 1 + (-1074) by norm_num, zpow_add₀ (by norm_num : (2 : ℚ) ≠ 0), zpow_one]]
  exact zpow_lt_zpow_right₀ (by norm_num) (by norm_num)

/-- C119. For zero and the smallest numbers it is the smallest positive double. -/
theorem C119_zero_partial (x : ℚ) (h : |x| < 1 / 2 ^ 1021) : calcEpsilon x = 1 / 2 ^ 1074 := by
  rw [calcEpsilon, if_pos (lt_of_lt_of_le h ?_)]
  have : (2 : ℚ) ^ 40 ≤ 2 ^ 1021 := pow_le_pow_right₀ (by norm_num) (by norm_num)
  calc (1 : ℚ) / 2 ^ 1021 ≤ 1 / 2 ^ 40 := one_div_le_one_div_of_le (by positivity) this
    _ ≤ _ := by norm_num

example : (1 / 10 ^ 12 : ℚ) ≤ |(-3 : ℚ)| ∧ |(1 / 10 ^ 13 : ℚ)| < 1 / 10 ^ 12 := by norm_num [abs_of_pos]

end Cmm.Utils
