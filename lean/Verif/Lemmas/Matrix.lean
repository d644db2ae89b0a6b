import Verif.Model.Matrix
import Mathlib.LinearAlgebra.Matrix.NonsingularInverse
import Mathlib.Algebra.BigOperators.Fin
import Mathlib.Algebra.BigOperators.Field
import Mathlib.Tactic.LinearCombination
import Mathlib.Tactic.FieldSimp
import Mathlib.Tactic.Positivity
/-! Lemmas about the dynamic matrices. -/
namespace Cmm.Mat
open Finset
variable {K : Type} [Field K]

theorem flatMap_range_getD (r c : Nat) (f : Nat → Nat → K) : ∀ i j, i < r → j < c →
    ((List.range r).flatMap fun i => (List.range c).map fun j => f i j).getD (i * c + j) 0 = f i j := by
  induction r with
  | zero => intro i j h; omega
  | succ r ih =>
    intro i j hi hj
    have hlen : ((List.range r).flatMap fun i => (List.range c).map fun j => f i j).length = r * c := by
      simp [List.length_flatMap]
    rw [List.range_succ, List.flatMap_append, List.getD_eq_getElem?_getD]
    by_cases h : i < r
    · rw [List.getElem?_append_left, ← List.getD_eq_getElem?_getD, ih i j h hj]
      rw [hlen]
      calc i * c + j < i * c + c := by omega
        _ = (i + 1) * c := by ring
        _ ≤ r * c := Nat.mul_le_mul_right _ h
    · obtain rfl : i = r := by omega
      rw [List.getElem?_append_right (by rw [hlen]; omega), hlen, Nat.add_sub_cancel_left]
      simp [hj]

theorem get_fill {r c : Nat} (f : Nat → Nat → K) {i j : Nat} (hi : i < r) (hj : j < c) :
    (MatrixD.fill r c f).get i j = f i j := flatMap_range_getD r c f i j hi hj

theorem fill_length (r c : Nat) (f : Nat → Nat → K) : (MatrixD.fill r c f).data.length = r * c := by
  simp [MatrixD.fill, List.length_flatMap]

theorem fill_covered (r c : Nat) (f : Nat → Nat → K) : (MatrixD.fill r c f).covered := by
  unfold MatrixD.covered; rw [fill_length]; exact le_refl _

theorem foldl_sum (n : Nat) (g : Nat → K) : (List.range n).foldl (fun s k => s + g k) 0 = ∑ k ∈ range n, g k := by
  induction n with
  | zero => rfl
  | succ n ih => rw [List.range_succ, List.foldl_append, ih, Finset.sum_range_succ]; rfl

theorem tget_table {n m : Nat} (f : Nat → Nat → K) {i j : Nat} (hi : i < n) (hj : j < m) : tget (table n m f) i j = f i j := by
  simp [tget, table, hi, hj]

variable [LinearOrder K] [IsStrictOrderedRing K]

theorem pivotRow_spec (n i : Nat) (t : List (List K)) (hi : i < n) :
    i ≤ pivotRow n i t ∧ pivotRow n i t < n ∧ ∀ r, i ≤ r → r < n → |tget t r i| ≤ |tget t (pivotRow n i t) i| := by
  have key : ∀ len s p, i ≤ p → p < n → i ≤ s → s + len ≤ n →
      let q := (List.range' s len).foldl (fun p j => if |tget t p i| < |tget t j i| then j else p) p
      i ≤ q ∧ q < n ∧ |tget t p i| ≤ |tget t q i| ∧ ∀ r, s ≤ r → r < s + len → |tget t r i| ≤ |tget t q i| := by
    intro len
    induction len with
    | zero => intro s p h1 h2 _ _; exact ⟨h1, h2, le_refl _, fun r h h' => by omega⟩
    | succ len ih =>
      intro s p h1 h2 h3 h4
      simp only [List.range'_succ, List.foldl_cons]
      by_cases hc : |tget t p i| < |tget t s i|
      · rw [if_pos hc]
        obtain ⟨a, b, c, d⟩ := ih (s + 1) s h3 (by omega) (by omega) (by omega)
        refine ⟨a, b, le_trans (le_of_lt hc) c, fun r h h' => ?_⟩
        by_cases hr : r = s
        · rw [hr]; exact c
        · exact d r (by omega) (by omega)
      · rw [if_neg hc]
        obtain ⟨a, b, c, d⟩ := ih (s + 1) p h1 h2 (by omega) (by omega)
        refine ⟨a, b, c, fun r h h' => ?_⟩
        by_cases hr : r = s
        · rw [hr]; exact le_trans (not_lt.mp hc) c
        · exact d r (by omega) (by omega)
  obtain ⟨a, b, c, d⟩ := key (n - (i + 1)) (i + 1) i (le_refl _) hi (by omega) (by omega)
  refine ⟨a, b, fun r h h' => ?_⟩
  by_cases hr : r = i
  · rw [hr]; exact c
  · exact d r (by omega) (by omega)

/-- What holds before pass `i`: the left block is the right block times `A`, the first `i` columns are unit vectors, and
`[A | I]` is recovered from the table by some matrix `T`. -/
structure InvInv (n : Nat) (A : Nat → Nat → K) (i : Nat) (t : List (List K)) : Prop where
  prod : ∀ r < n, ∀ c < n, tget t r c = ∑ k ∈ range n, tget t r (n + k) * A k c
  unit : ∀ c < i, ∀ r < n, tget t r c = if r = c then 1 else 0
  back : ∃ T : Nat → Nat → K, ∀ r < n, ∀ c < n, ∑ k ∈ range n, T r k * tget t k (n + c) = if r = c then 1 else 0

theorem sum_swap {n i p : Nat} (hi : i < n) (hp : p < n) (T g : Nat → K) :
    ∑ k ∈ range n, (if k = i then T p else if k = p then T i else T k) * (if k = i then g p else if k = p then g i else g k) =
      ∑ k ∈ range n, T k * g k := by
  have h := Finset.sum_equiv (s := range n) (t := range n) (Equiv.swap i p)
    (f := fun k => (if k = i then T p else if k = p then T i else T k) * (if k = i then g p else if k = p then g i else g k))
    (g := fun k => T k * g k) ?_ ?_
  · exact h
  · intro k
    simp only [mem_range, Equiv.swap_apply_def]
    split
    · omega
    · split <;> omega
  · intro k _
    simp only [Equiv.swap_apply_def]
    split
    · rfl
    · split <;> rfl

theorem InvInv.swap {n : Nat} {A : Nat → Nat → K} {i p : Nat} {t : List (List K)} (h : InvInv n A i t) (hi : i ≤ p) (hp : p < n) :
    InvInv n A i (swapRows n (2 * n) i p t) := by
  have hi' : i < n := by omega
  have e : ∀ r < n, ∀ c < 2 * n, tget (swapRows n (2 * n) i p t) r c =
      if r = i then tget t p c else if r = p then tget t i c else tget t r c := fun r hr c hc => tget_table _ hr hc
  refine ⟨fun r hr c hc => ?_, fun c hc r hr => ?_, ?_⟩
  · rw [e r hr c (by omega), Finset.sum_congr rfl fun k hk => by
      rw [e r hr (n + k) (by have := mem_range.mp hk; omega)]]
    by_cases h1 : r = i
    · simp only [if_pos h1]; exact h.prod p hp c hc
    · simp only [if_neg h1]
      by_cases h2 : r = p
      · simp only [if_pos h2]; exact h.prod i hi' c hc
      · simp only [if_neg h2]; exact h.prod r hr c hc
  · rw [e r hr c (by omega)]
    by_cases h1 : r = i
    · rw [if_pos h1, h.unit c hc p hp, if_neg (by omega), if_neg (by omega)]
    · rw [if_neg h1]
      by_cases h2 : r = p
      · rw [if_pos h2, h.unit c hc i hi', if_neg (by omega), if_neg (by omega)]
      · rw [if_neg h2]; exact h.unit c hc r hr
  · obtain ⟨T, hT⟩ := h.back
    refine ⟨fun r k => if k = i then T r p else if k = p then T r i else T r k, fun r hr c hc => ?_⟩
    rw [Finset.sum_congr rfl fun k hk => by rw [e k (mem_range.mp hk) (n + c) (by omega)]]
    rw [sum_swap hi' hp (T r) (fun k => tget t k (n + c))]
    exact hT r hr c hc

theorem InvInv.scale {n : Nat} {A : Nat → Nat → K} {i : Nat} {t : List (List K)} (h : InvInv n A i t) (hi : i < n) {v : K}
    (hv : v ≠ 0) : InvInv n A i (scaleRow n (2 * n) i v t) := by
  have e : ∀ r < n, ∀ c < 2 * n, tget (scaleRow n (2 * n) i v t) r c =
      if r = i then tget t i c / v else tget t r c := fun r hr c hc => tget_table _ hr hc
  refine ⟨fun r hr c hc => ?_, fun c hc r hr => ?_, ?_⟩
  · rw [e r hr c (by omega), Finset.sum_congr rfl fun k hk => by
      rw [e r hr (n + k) (by have := mem_range.mp hk; omega)]]
    by_cases h1 : r = i
    · simp only [if_pos h1]
      rw [h.prod i hi c hc, Finset.sum_div]
      exact Finset.sum_congr rfl fun k _ => by ring
    · simp only [if_neg h1]; exact h.prod r hr c hc
  · rw [e r hr c (by omega)]
    by_cases h1 : r = i
    · rw [if_pos h1, h.unit c hc i hi, if_neg (by omega), if_neg (by omega), zero_div]
    · rw [if_neg h1]; exact h.unit c hc r hr
  · obtain ⟨T, hT⟩ := h.back
    refine ⟨fun r k => if k = i then T r i * v else T r k, fun r hr c hc => ?_⟩
    rw [← hT r hr c hc]
    refine Finset.sum_congr rfl fun k hk => ?_
    rw [e k (mem_range.mp hk) (n + c) (by omega)]
    by_cases h1 : k = i
    · subst h1
      simp only [if_true]
      field_simp
    · simp only [if_neg h1]

theorem InvInv.clear {n : Nat} {A : Nat → Nat → K} {i : Nat} {t : List (List K)} (h : InvInv n A i t) (hi : i < n)
    (h1 : tget t i i = 1) : InvInv n A (i + 1) (clearColumn n (2 * n) i t) := by
  have e : ∀ r < n, ∀ c < 2 * n, tget (clearColumn n (2 * n) i t) r c =
      if r = i then tget t i c else tget t r c - tget t r i * tget t i c := fun r hr c hc => tget_table _ hr hc
  refine ⟨fun r hr c hc => ?_, fun c hc r hr => ?_, ?_⟩
  · rw [e r hr c (by omega), Finset.sum_congr rfl fun k hk => by
      rw [e r hr (n + k) (by have := mem_range.mp hk; omega)]]
    by_cases h1 : r = i
    · simp only [if_pos h1]; exact h.prod i hi c hc
    · simp only [if_neg h1]
      rw [h.prod r hr c hc, h.prod i hi c hc, Finset.mul_sum, ← Finset.sum_sub_distrib]
      exact Finset.sum_congr rfl fun k _ => by ring
  · rw [e r hr c (by omega)]
    by_cases hr' : r = i
    · rw [if_pos hr']
      by_cases hc' : c = i
      · rw [hc', h1, if_pos hr']
      · rw [h.unit c (by omega) i hi, hr']
    · rw [if_neg hr']
      by_cases hc' : c = i
      · rw [hc', h1, if_neg hr']; ring
      · rw [h.unit c (by omega) r hr, h.unit c (by omega) i hi, if_neg (c := i = c) (fun h => hc' h.symm)]; ring
  · obtain ⟨T, hT⟩ := h.back
    refine ⟨fun r k => if k = i then ∑ x ∈ range n, T r x * tget t x i else T r k, fun r hr c hc => ?_⟩
    rw [← hT r hr c hc]
    have hmem : i ∈ range n := mem_range.mpr hi
    rw [← Finset.add_sum_erase _ _ hmem, ← Finset.add_sum_erase (range n) (fun k => T r k * tget t k (n + c)) hmem]
    simp only [if_true]
    rw [e i hi (n + c) (by omega), if_pos rfl, ← Finset.add_sum_erase (range n) (fun x => T r x * tget t x i) hmem, h1]
    have : ∑ k ∈ (range n).erase i, (if k = i then T r i * 1 + ∑ x ∈ (range n).erase i, T r x * tget t x i else T r k) *
        tget (clearColumn n (2 * n) i t) k (n + c) =
        ∑ k ∈ (range n).erase i, (T r k * tget t k (n + c) - T r k * tget t k i * tget t i (n + c)) := by
      refine Finset.sum_congr rfl fun k hk => ?_
      have hk' := Finset.mem_erase.mp hk
      rw [if_neg hk'.1, e k (mem_range.mp hk'.2) (n + c) (by omega), if_neg hk'.1]
      ring
    rw [this, Finset.sum_sub_distrib, ← Finset.sum_mul]
    ring

/-- One pass of the loop. -/
theorem invStep_spec {n : Nat} {A : Nat → Nat → K} {i : Nat} {t : List (List K)} (h : InvInv n A i t) (hi : i < n) :
    (∃ t', invStep n (2 * n) t i = .ok t' ∧ InvInv n A (i + 1) t') ∨
    (invStep n (2 * n) t i = .throws ∧ ∀ r, i ≤ r → r < n → |tget t r i| < pivotTol) := by
  obtain ⟨p1, p2, p3⟩ := pivotRow_spec n i t hi
  have htol : (0 : K) < pivotTol := by unfold pivotTol; positivity
  unfold invStep
  simp only
  have hsw : InvInv n A i (if pivotRow n i t ≠ i then swapRows n (2 * n) i (pivotRow n i t) t else t) := by
    split
    · exact h.swap p1 p2
    · exact h
  have hval : tget (if pivotRow n i t ≠ i then swapRows n (2 * n) i (pivotRow n i t) t else t) i i =
      tget t (pivotRow n i t) i := by
    split
    · rw [swapRows, tget_table _ hi (by omega), if_pos rfl]
    · rename_i hne
      rw [not_not.mp hne]
  by_cases hs : |tget (if pivotRow n i t ≠ i then swapRows n (2 * n) i (pivotRow n i t) t else t) i i| < pivotTol
  · right
    rw [if_pos hs]
    refine ⟨rfl, fun r h1 h2 => lt_of_le_of_lt (p3 r h1 h2) (by rw [← hval]; exact hs)⟩
  · left
    rw [if_neg hs]
    have hv : tget (if pivotRow n i t ≠ i then swapRows n (2 * n) i (pivotRow n i t) t else t) i i ≠ 0 := by
      intro h0
      rw [h0, abs_zero] at hs
      exact hs htol
    refine ⟨_, rfl, (hsw.scale hi hv).clear hi ?_⟩
    rw [scaleRow, tget_table _ hi (by omega), if_pos rfl]
    exact div_self hv

/-- The whole loop. -/
theorem invLoop_spec {n : Nat} {A : Nat → Nat → K} : ∀ len i (t : List (List K)), i + len = n → InvInv n A i t →
    (∃ t', (List.range' i len).foldlM (invStep n (2 * n)) t = .ok t' ∧ InvInv n A n t') ∨
    ((List.range' i len).foldlM (invStep n (2 * n)) t = .throws ∧
      ∃ j t', j < n ∧ InvInv n A j t' ∧ ∀ r, j ≤ r → r < n → |tget t' r j| < pivotTol) := by
  intro len
  induction len with
  | zero => intro i t h hI; left; exact ⟨t, rfl, by rw [show n = i by omega] at hI ⊢; exact hI⟩
  | succ len ih =>
    intro i t h hI
    rw [List.range'_succ, List.foldlM_cons]
    rcases invStep_spec hI (by omega) with ⟨t', h1, h2⟩ | ⟨h1, h2⟩
    · rw [h1, Res.ok_bind]
      exact ih (i + 1) t' (by omega) h2
    · right
      rw [h1]
      exact ⟨rfl, i, t, by omega, hI, h2⟩

theorem augment_inv (m : MatrixD K) (h : m.rows = m.cols) : InvInv m.rows m.get 0 (augment m) := by
  have e : ∀ r < m.rows, ∀ c < 2 * m.rows, tget (augment m) r c =
      if c < m.rows then m.get r c else if r = c - m.rows then 1 else 0 := by
    intro r hr c hc
    rw [augment, ← h, tget_table _ hr hc]
  have e2 : ∀ r < m.rows, ∀ k < m.rows, tget (augment m) r (m.rows + k) = if r = k then 1 else 0 := by
    intro r hr k hk
    rw [e r hr _ (by omega), if_neg (by omega), Nat.add_sub_cancel_left]
  refine ⟨fun r hr c hc => ?_, fun c hc => by omega, fun r k => if r = k then 1 else 0, fun r hr c hc => ?_⟩
  · rw [e r hr c (by omega), if_pos hc]
    rw [Finset.sum_congr rfl fun k hk => by rw [e2 r hr k (mem_range.mp hk)]]
    rw [Finset.sum_eq_single r]
    · rw [if_pos rfl, one_mul]
    · intro k _ hk; rw [if_neg (fun h => hk h.symm), zero_mul]
    · intro hk; exact absurd (mem_range.mpr hr) hk
  · beta_reduce
    rw [Finset.sum_eq_single r]
    · rw [if_pos rfl, one_mul, e2 r hr c hc]
    · intro k _ hk; rw [if_neg (fun h : r = k => hk h.symm), zero_mul]
    · intro hk; exact absurd (mem_range.mpr hr) hk

/-- A left inverse given by entries is a right inverse. -/
theorem left_inv_right {n : Nat} {A B : Nat → Nat → K}
    (h : ∀ i < n, ∀ j < n, ∑ k ∈ range n, B i k * A k j = if i = j then 1 else 0) :
    ∀ i < n, ∀ j < n, ∑ k ∈ range n, A i k * B k j = if i = j then 1 else 0 := by
  have h1 : (Matrix.of fun i j : Fin n => B i j) * (Matrix.of fun i j : Fin n => A i j) = 1 := by
    ext i j
    rw [Matrix.mul_apply, Matrix.one_apply]
    simp only [Matrix.of_apply, Fin.sum_univ_eq_sum_range (fun k => B i k * A k j) n, h i i.2 j j.2, Fin.ext_iff]
  have h2 := mul_eq_one_comm.mp h1
  intro i hi j hj
  have h3 := congrFun (congrFun h2 ⟨i, hi⟩) ⟨j, hj⟩
  rw [Matrix.mul_apply, Matrix.one_apply] at h3
  simpa only [Matrix.of_apply, Fin.sum_univ_eq_sum_range (fun k => A i k * B k j) n, Fin.ext_iff] using h3

end Cmm.Mat
