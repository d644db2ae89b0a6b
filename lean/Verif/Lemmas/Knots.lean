import Verif.Model.Curve
import Verif.Spec.Knots
import Mathlib.Data.List.Perm.Basic
import Mathlib.Data.List.Sort
import Mathlib.Tactic.Ring
import Mathlib.Tactic.Linarith
import Mathlib.Tactic.FieldSimp
import Mathlib.Tactic.Positivity
/-! Helper lemmas about the knot-vector functions. -/
namespace Cmm.Nurbs
variable {K : Type}

section span
variable [LinearOrder K]

theorem scanSpan_spec (U : Nat → K) (u : K) (stop span : Nat) :
    span ≤ scanSpan U u stop span ∧ (span ≤ stop → scanSpan U u stop span ≤ stop) ∧
    (stop ≤ span → scanSpan U u stop span = span) ∧
    (∀ j, span ≤ j → j < scanSpan U u stop span → U j ≤ u) ∧
    (scanSpan U u stop span < stop → u < U (scanSpan U u stop span)) := by
  induction span using scanSpan.induct U u stop with
  | case1 span h ih =>
    unfold scanSpan
    rw [if_pos h]
    obtain ⟨h1, h2, h3, h4, h5⟩ := ih
    refine ⟨by omega, fun _ => h2 (by omega), fun hs => absurd h.1 (by omega), fun j hj hlt => ?_, h5⟩
    rcases Nat.eq_or_lt_of_le hj with rfl | hj
    · exact h.2
    · exact h4 j hj hlt
  | case2 span h =>
    unfold scanSpan
    rw [if_neg h]
    refine ⟨le_refl _, fun h => h, fun _ => rfl, fun j hj hlt => absurd hlt (by omega), fun hlt => ?_⟩
    by_contra hc
    exact h ⟨hlt, not_lt.mp hc⟩

theorem findSpan_ge (n p : Nat) (u : K) (U : Nat → K) : p ≤ findSpan n p u U := by
  have := (scanSpan_spec U u (n + 1) (p + 1)).1
  unfold findSpan; omega

theorem findSpan_le {n p : Nat} (hp : p ≤ n) (u : K) (U : Nat → K) : findSpan n p u U ≤ n := by
  have h := (scanSpan_spec U u (n + 1) (p + 1))
  have := h.2.1 (by omega)
  unfold findSpan; omega

theorem findSpan_knot_le {n p : Nat} (u : K) (U : Nat → K) (hu : U p ≤ u) {j : Nat} (hj : p ≤ j)
    (hjs : j ≤ findSpan n p u U) : U j ≤ u := by
  have h := (scanSpan_spec U u (n + 1) (p + 1))
  rcases Nat.eq_or_lt_of_le hj with rfl | hj
  · exact hu
  · refine h.2.2.2.1 j hj ?_
    have := h.1
    unfold findSpan at hjs; omega

theorem findSpan_lt {n p : Nat} (u : K) (U : Nat → K) (h : findSpan n p u U < n) :
    u < U (findSpan n p u U + 1) := by
  have hs := (scanSpan_spec U u (n + 1) (p + 1))
  have h1 := hs.1
  have e : findSpan n p u U + 1 = scanSpan U u (n + 1) (p + 1) := by unfold findSpan; omega
  rw [e]
  exact hs.2.2.2.2 (by omega)

/-- The span is pinned by its defining inequalities. -/
theorem findSpan_eq {n p i : Nat} {u : K} {U : Nat → K} (hpi : p ≤ i) (hin : i ≤ n)
    (hle : ∀ j, p < j → j ≤ i → U j ≤ u) (hlt : i < n → u < U (i + 1)) : findSpan n p u U = i := by
  have hs := (scanSpan_spec U u (n + 1) (p + 1))
  have h1 := hs.1
  have e : findSpan n p u U + 1 = scanSpan U u (n + 1) (p + 1) := by unfold findSpan; omega
  have hle' := findSpan_le (le_trans hpi hin) u U
  rcases lt_trichotomy (findSpan n p u U) i with h | h | h
  · have := hs.2.2.2.2 (by omega)
    have h2 := hle (findSpan n p u U + 1) (by have := findSpan_ge n p u U; omega) (by omega)
    rw [e] at h2
    exact absurd this (not_lt.mpr h2)
  · exact h
  · have h2 := hs.2.2.2.1 (i + 1) (by omega) (by omega)
    exact absurd (hlt (by omega)) (not_lt.mpr h2)

theorem minFold_spec (l : List K) (a : K) :
    (l.foldl (fun m x => if m ≤ x then m else x) a ∈ a :: l) ∧
    ∀ x ∈ a :: l, l.foldl (fun m x => if m ≤ x then m else x) a ≤ x := by
  induction l generalizing a with
  | nil => simp
  | cons b l ih =>
    simp only [List.foldl_cons]
    obtain ⟨h1, h2⟩ := ih (if a ≤ b then a else b)
    constructor
    · simp only [List.mem_cons] at h1 ⊢
      rcases h1 with h | h
      · rw [h]; by_cases hab : a ≤ b <;> simp [hab]
      · simp [h]
    · intro x hx
      have h0 := h2 _ (List.mem_cons_self ..)
      simp only [List.mem_cons] at hx
      rcases hx with rfl | rfl | hx
      · refine le_trans h0 ?_
        by_cases hab : x ≤ b <;> simp [hab]
        exact le_of_not_ge hab
      · refine le_trans h0 ?_
        by_cases hab : a ≤ x <;> simp [hab]
      · exact h2 x (List.mem_cons_of_mem _ hx)

theorem maxFold_spec (l : List K) (a : K) :
    (l.foldl (fun m x => if x ≤ m then m else x) a ∈ a :: l) ∧
    ∀ x ∈ a :: l, x ≤ l.foldl (fun m x => if x ≤ m then m else x) a := by
  induction l generalizing a with
  | nil => simp
  | cons b l ih =>
    simp only [List.foldl_cons]
    obtain ⟨h1, h2⟩ := ih (if b ≤ a then a else b)
    constructor
    · simp only [List.mem_cons] at h1 ⊢
      rcases h1 with h | h
      · rw [h]; by_cases hab : b ≤ a <;> simp [hab]
      · simp [h]
    · intro x hx
      have h0 := h2 _ (List.mem_cons_self ..)
      simp only [List.mem_cons] at hx
      rcases hx with rfl | rfl | hx
      · refine le_trans ?_ h0
        by_cases hab : b ≤ x <;> simp [hab]
        exact le_of_not_ge hab
      · refine le_trans ?_ h0
        by_cases hab : x ≤ a <;> simp [hab]
      · exact h2 x (List.mem_cons_of_mem _ hx)

theorem minElement_ok {l : List K} (h : l ≠ []) : ∃ m, minElement l = .ok m ∧ m ∈ l ∧ ∀ x ∈ l, m ≤ x := by
  cases l with
  | nil => exact absurd rfl h
  | cons a l =>
    have e : (fun m x : K => if x < m then x else m) = fun m x => if m ≤ x then m else x := by
      funext m x
      by_cases h : x < m
      · rw [if_pos h, if_neg (not_le.2 h)]
      · rw [if_neg h, if_pos (not_lt.1 h)]
    rw [minElement, e]
    exact ⟨_, rfl, (minFold_spec l a).1, (minFold_spec l a).2⟩

theorem maxElement_ok {l : List K} (h : l ≠ []) : ∃ m, maxElement l = .ok m ∧ m ∈ l ∧ ∀ x ∈ l, x ≤ m := by
  cases l with
  | nil => exact absurd rfl h
  | cons a l =>
    have e : (fun m x : K => if m < x then x else m) = fun m x => if x ≤ m then m else x := by
      funext m x
      by_cases h : m < x
      · rw [if_pos h, if_neg (not_le.2 h)]
      · rw [if_neg h, if_pos (not_lt.1 h)]
    rw [maxElement, e]
    exact ⟨_, rfl, (maxFold_spec l a).1, (maxFold_spec l a).2⟩

end span

theorem insertIdx_eq {α : Type} (l : List α) (n : Nat) (a : α) (h : n ≤ l.length) :
    l.insertIdx n a = l.take n ++ a :: l.drop n := by
  induction n generalizing l with
  | zero => simp
  | succ n ih =>
    cases l with
    | nil => simp at h
    | cons b l => simp [List.insertIdx_succ_cons, ih l (by simpa using h)]

theorem knotInsertionKv_eq (l : List K) (u : K) (span r : Nat) (h : span + 1 ≤ l.length) :
    knotInsertionKv l u span r = l.take (span + 1) ++ (List.replicate r u ++ l.drop (span + 1)) := by
  induction r with
  | zero => simp [knotInsertionKv]
  | succ r ih =>
    rw [knotInsertionKv, ih, insertIdx_eq _ _ _ (by simp; omega)]
    have hl : (l.take (span + 1)).length = span + 1 := by simp; omega
    rw [List.take_append_of_le_length (by omega), List.take_take, List.drop_append_of_le_length (by omega)]
    have : List.drop (span + 1) (List.take (span + 1) l) = [] := by
      apply List.drop_eq_nil_of_le; omega
    rw [this]
    simp [List.replicate_succ]

theorem uniqueKnotsLoop_spec [DecidableEq K] (ks seen out : List K) :
    ∃ ex, uniqueKnotsLoop ks seen out = out ++ ex ∧ ex.Sublist ks ∧ ex.Nodup ∧
      (∀ x, x ∈ ex ↔ x ∈ ks ∧ x ∉ seen) := by
  induction ks generalizing seen out with
  | nil => exact ⟨[], by simp [uniqueKnotsLoop], by simp, by simp, by simp⟩
  | cons k ks ih =>
    rw [uniqueKnotsLoop]
    by_cases h : k ∈ seen
    · rw [if_pos h]
      obtain ⟨ex, h1, h2, h3, h4⟩ := ih seen out
      refine ⟨ex, h1, h2.trans (List.sublist_cons_self ..), h3, fun x => ?_⟩
      rw [h4, List.mem_cons]
      constructor
      · rintro ⟨a, b⟩; exact ⟨.inr a, b⟩
      · rintro ⟨rfl | a, b⟩
        · exact absurd h b
        · exact ⟨a, b⟩
    · rw [if_neg h]
      obtain ⟨ex, h1, h2, h3, h4⟩ := ih (k :: seen) (out ++ [k])
      refine ⟨k :: ex, by rw [h1]; simp, h2.cons_cons k, ?_, fun x => ?_⟩
      · rw [List.nodup_cons]
        refine ⟨fun hk => ?_, h3⟩
        exact ((h4 k).mp hk).2 (List.mem_cons_self ..)
      · simp only [List.mem_cons, h4]
        by_cases hx : x = k
        · subst hx; simp [h]
        · simp [hx]

section mult
variable [Field K] [LinearOrder K]

theorem multLoop_sum (ks : List K) (last : K) (c : Nat) :
    ((multLoop ks last c).map Prod.snd).sum = c + ks.length := by
  induction ks generalizing last c with
  | nil => simp [multLoop]
  | cons k ks ih =>
    rw [multLoop]
    by_cases h : |k - last| < knotTol
    · rw [if_pos h, ih]; simp; omega
    · rw [if_neg h, List.map_cons, List.sum_cons, ih]; simp; omega

theorem multLoop_head (ks : List K) (last : K) (c : Nat) : ∃ d r, multLoop ks last c = (last, d) :: r ∧ c ≤ d := by
  induction ks generalizing last c with
  | nil => exact ⟨c, [], rfl, le_refl _⟩
  | cons k ks ih =>
    rw [multLoop]
    by_cases h : |k - last| < knotTol
    · rw [if_pos h]
      obtain ⟨d, r, h1, h2⟩ := ih last (c + 1)
      exact ⟨d, r, h1, by omega⟩
    · rw [if_neg h]; exact ⟨c, _, rfl, le_refl _⟩

theorem multLoop_pos (ks : List K) (last : K) (c : Nat) (hc : 0 < c) : ∀ e ∈ multLoop ks last c, 0 < e.2 := by
  induction ks generalizing last c with
  | nil => intro e he; simp [multLoop] at he; subst he; exact hc
  | cons k ks ih =>
    rw [multLoop]
    by_cases h : |k - last| < knotTol
    · rw [if_pos h]; exact ih last (c + 1) (by omega)
    · rw [if_neg h]
      intro e he
      rcases List.mem_cons.mp he with rfl | he
      · exact hc
      · exact ih k 1 (by omega) e he

variable [IsStrictOrderedRing K]

theorem knotTol_pos : (0 : K) < knotTol := by unfold knotTol; positivity

theorem multTol_pos : (0 : K) < 1 / 10 ^ 12 := by positivity

omit [IsStrictOrderedRing K] in
theorem absA_eq (x : K) : absA x = |x| := by rw [absA, ← abs_eq_max_neg]

theorem multTol_eq : (multTol : K) = 1 / 10 ^ 12 := by simp [multTol]; norm_num

theorem multLoop_expand (ks : List K) (last : K) (c : Nat)
    (sep : ∀ a ∈ last :: ks, ∀ b ∈ last :: ks, a ≠ b → knotTol ≤ |a - b|) :
    expandRuns (multLoop ks last c) = List.replicate c last ++ ks := by
  induction ks generalizing last c with
  | nil => simp [multLoop, expandRuns]
  | cons k ks ih =>
    rw [multLoop]
    by_cases h : |k - last| < knotTol
    · rw [if_pos h]
      have hk : k = last := by
        by_contra hne
        exact absurd h (not_lt.mpr (sep k (by simp) last (by simp) hne))
      subst hk
      rw [ih k (c + 1) (fun a ha b hb => sep a (by simp at ha ⊢; tauto) b (by simp at hb ⊢; tauto))]
      rw [List.replicate_succ']; simp
    · rw [if_neg h, expandRuns, ih k 1 (fun a ha b hb => sep a (by simp at ha ⊢; tauto) b (by simp at hb ⊢; tauto))]
      simp

theorem multLoop_sorted (ks : List K) (last : K) (c : Nat) (hs : (last :: ks).Pairwise (· ≤ ·)) :
    ((multLoop ks last c).map Prod.fst).Pairwise (fun a b => a + knotTol ≤ b) ∧
    ∀ k ∈ (multLoop ks last c).map Prod.fst, k = last ∨ (last + knotTol ≤ k ∧ k ∈ ks) := by
  induction ks generalizing last c with
  | nil => simp [multLoop]
  | cons k ks ih =>
    rw [multLoop]
    by_cases h : |k - last| < knotTol
    · rw [if_pos h]
      obtain ⟨h1, h2⟩ := ih last (c + 1) (by
        refine hs.sublist ?_
        exact (List.sublist_cons_self k ks).cons_cons last)
      refine ⟨h1, fun x hx => ?_⟩
      rcases h2 x hx with h | ⟨h, h'⟩
      · exact .inl h
      · exact .inr ⟨h, List.mem_cons_of_mem _ h'⟩
    · rw [if_neg h]
      have hkl : last ≤ k := (List.pairwise_cons.mp hs).1 k (by simp)
      have hge : last + knotTol ≤ k := by
        rw [abs_of_nonneg (by linarith)] at h
        linarith [not_lt.mp h]
      obtain ⟨h1, h2⟩ := ih k 1 (List.pairwise_cons.mp hs).2
      have h3 : ∀ x ∈ (multLoop ks k 1).map Prod.fst, last + knotTol ≤ x ∧ x ∈ k :: ks := by
        intro x hx
        rcases h2 x hx with rfl | ⟨h, h'⟩
        · exact ⟨hge, by simp⟩
        · exact ⟨by linarith [knotTol_pos (K := K)], by simp [h']⟩
      rw [List.map_cons]
      refine ⟨List.pairwise_cons.mpr ⟨fun x hx => (h3 x hx).1, h1⟩, fun x hx => ?_⟩
      rcases List.mem_cons.mp hx with rfl | hx
      · exact .inl rfl
      · exact .inr (h3 x hx)

theorem findMultiplicity_eq_countP (u : K) (l : List K) :
    findMultiplicity u l = l.countP (fun k => decide (|u - k| ≤ 1 / 10 ^ 12)) := by
  induction l with
  | nil => rfl
  | cons k l ih =>
    rw [findMultiplicity, List.countP_cons, ih, multTol_eq, absA, ← abs_eq_max_neg]
    by_cases h : |u - k| ≤ 1 / 10 ^ 12 <;> simp only [h, decide_true, decide_false, if_true, if_false] <;> simp; omega

end mult
end Cmm.Nurbs

namespace Cmm.Nurbs
variable {K : Type}

theorem ix_eq_getElem {α : Type} [Zero α] {l : List α} {i : Nat} (h : i < l.length) : ix l i = l[i] := by
  unfold ix; rw [List.getD_eq_getElem?_getD, List.getElem?_eq_getElem h]; rfl

theorem ix_mono [LinearOrder K] [Zero K] {l : List K} (hs : l.Pairwise (· ≤ ·)) {i j : Nat} (hij : i ≤ j)
    (hj : j < l.length) : ix l i ≤ ix l j := by
  rcases Nat.eq_or_lt_of_le hij with rfl | hij
  · exact le_refl _
  · rw [ix_eq_getElem hj, ix_eq_getElem (by omega : i < l.length)]
    exact List.pairwise_iff_getElem.mp hs i j (by omega) hj hij

theorem ix_append_left {α : Type} [Zero α] {a b : List α} {i : Nat} (h : i < a.length) : ix (a ++ b) i = ix a i := by
  simp only [ix, List.getD_eq_getElem?_getD, List.getElem?_append_left h]

theorem ix_append_right {α : Type} [Zero α] {a b : List α} {i : Nat} (h : a.length ≤ i) :
    ix (a ++ b) i = ix b (i - a.length) := by
  simp only [ix, List.getD_eq_getElem?_getD, List.getElem?_append_right h]

theorem ix_replicate {α : Type} [Zero α] {n i : Nat} (v : α) (h : i < n) : ix (List.replicate n v) i = v := by
  rw [ix_eq_getElem (by simpa using h)]; simp

theorem ix_map_range {α : Type} [Zero α] {n i : Nat} (f : Nat → α) (h : i < n) :
    ix ((List.range n).map f) i = f i := by
  rw [ix_eq_getElem (by simpa using h)]; simp

theorem ix_take {α : Type} [Zero α] {l : List α} {n i : Nat} (h : i < n) : ix (l.take n) i = ix l i := by
  unfold ix; rw [List.getD_eq_getElem?_getD, List.getElem?_take_of_lt h, ← List.getD_eq_getElem?_getD]

theorem ix_drop {α : Type} [Zero α] {l : List α} {n i : Nat} : ix (l.drop n) i = ix l (n + i) := by
  unfold ix; rw [List.getD_eq_getElem?_getD, List.getElem?_drop, ← List.getD_eq_getElem?_getD]

theorem ix_past {α : Type} [Zero α] {l : List α} {i : Nat} (h : l.length ≤ i) : ix l i = 0 := by
  simp [ix, List.getD_eq_getElem?_getD, List.getElem?_eq_none h]

theorem ix_knotInsertionKv [Zero K] {l : List K} {u : K} {span r : Nat} (h : span + 1 ≤ l.length) (i : Nat) :
    ix (knotInsertionKv l u span r) i =
      if i ≤ span then ix l i else if i ≤ span + r then u else ix l (i - r) := by
  rw [knotInsertionKv_eq _ _ _ _ h]
  have hl : (l.take (span + 1)).length = span + 1 := by simp; omega
  by_cases h1 : i ≤ span
  · rw [if_pos h1, ix_append_left (by omega), ix_take (by omega)]
  · rw [if_neg h1, ix_append_right (by omega), hl]
    by_cases h2 : i ≤ span + r
    · rw [if_pos h2, ix_append_left (by simp; omega), ix_replicate _ (by omega)]
    · rw [if_neg h2, ix_append_right (by simp; omega), ix_drop]
      congr 1; simp; omega

section periodic
variable [Field K] [LinearOrder K]

theorem isPeriodicFrom_spec (cpts : List (Vec4 K)) (degree fuel j : Nat) (h : degree ≤ cpts.length) :
    ∃ b, isPeriodicFrom cpts degree fuel j = .ok b ∧
      (b = true ↔ ∀ k, j ≤ k → k < j + fuel → ix cpts k = ix cpts (cpts.length - degree + k)) := by
  induction fuel generalizing j with
  | zero => exact ⟨true, rfl, by simp; intro k h1 h2; omega⟩
  | succ fuel ih =>
    rw [isPeriodicFrom, if_neg (by omega)]
    by_cases hne : ix cpts j ≠ ix cpts (cpts.length - degree + j)
    · rw [if_pos hne]
      exact ⟨false, rfl, by simp; exact ⟨j, le_refl _, by omega, hne⟩⟩
    · rw [if_neg hne]
      obtain ⟨b, h1, h2⟩ := ih (j + 1)
      refine ⟨b, h1, h2.trans ⟨fun hh k hk hk' => ?_, fun hh k hk hk' => hh k (by omega) (by omega)⟩⟩
      rcases Nat.eq_or_lt_of_le hk with rfl | hk
      · exact not_not.mp hne
      · exact hh k (by omega) (by omega)
end periodic
end Cmm.Nurbs
