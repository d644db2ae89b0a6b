import Verif.Lemmas.DerivNets
/-! Neighbouring pieces of a spline meet at the knot between them. -/
namespace Cmm.Nurbs
open Polynomial
variable {K : Type} [Field K] [LinearOrder K] [IsStrictOrderedRing K]

theorem piece_end {U : Nat → K} {i m : Nat} {τ : K} (hτ : ∀ a, i < a → a ≤ i + m → U a = τ) (h1 : U i ≠ τ) (q : Nat) (hq : q ≤ m) :
    ∀ k, coxDeBoorPiece U i q k τ = if k = i then 1 else 0 := by
  induction q with
  | zero => intro k; rfl
  | succ q ih =>
    intro k
    rw [coxDeBoorPiece, ih (by omega), ih (by omega)]
    by_cases hk : k = i
    · subst hk
      rw [if_pos rfl, if_neg (by omega), hτ (k + q + 1) (by omega) (by omega), div_self (sub_ne_zero.mpr (Ne.symm h1))]
      simp
    · rw [if_neg hk]
      by_cases hk' : k + 1 = i
      · rw [if_pos hk', hτ (k + q + 2) (by omega) (by omega)]; simp
      · rw [if_neg hk']; simp

theorem piece_start {U : Nat → K} {i m : Nat} {τ : K} (hτ : ∀ a, i < a → a ≤ i + m → U a = τ) (h2 : U (i + m + 1) ≠ τ) (q : Nat) (hq : q ≤ m) :
    ∀ k, coxDeBoorPiece U (i + m) q k τ = if k + q = i + m then 1 else 0 := by
  induction q with
  | zero => intro k; rfl
  | succ q ih =>
    intro k
    rw [coxDeBoorPiece, ih (by omega), ih (by omega)]
    by_cases hk : k + 1 + q = i + m
    · rw [if_neg (by omega), if_pos hk, if_pos (by omega), hτ (k + 1) (by omega) (by omega),
        show k + q + 2 = i + m + 1 by omega, div_self (sub_ne_zero.mpr h2)]
      simp
    · rw [if_neg hk, if_neg (show ¬ k + (q + 1) = i + m by omega)]
      by_cases hk' : k + q = i + m
      · by_cases hq0 : q < m
        · rw [if_pos hk', hτ k (by omega) (by omega)]; simp
        · omega
      · rw [if_neg hk']; simp

/-- At a knot repeated `m` times, the pieces of the basis functions of degree at least `m` before and after it agree. -/
theorem piece_join {U : Nat → K} {i m : Nat} {τ : K} (hτ : ∀ a, i < a → a ≤ i + m → U a = τ) (h1 : U i ≠ τ)
    (h2 : U (i + m + 1) ≠ τ) (p : Nat) (hp : m ≤ p) : ∀ k, coxDeBoorPiece U i p k τ = coxDeBoorPiece U (i + m) p k τ := by
  obtain ⟨e, rfl⟩ : ∃ e, p = m + e := ⟨p - m, by omega⟩
  clear hp
  induction e with
  | zero =>
    intro k
    rw [Nat.add_zero, piece_end hτ h1 m le_rfl, piece_start hτ h2 m le_rfl]
    by_cases hk : k = i
    · rw [if_pos hk, if_pos (by omega)]
    · rw [if_neg hk, if_neg (by omega)]
  | succ e ih =>
    intro k
    rw [← Nat.add_assoc, coxDeBoorPiece, coxDeBoorPiece, ih, ih]

theorem splineVal_sum {U : Nat → K} {p i : Nat} (hp : p ≤ i) (P : Nat → K) (t : K) (N : Nat) (hN : i < N) :
    splineVal U p P i t = ∑ k ∈ Finset.range N, coxDeBoorPiece U i p k t * P k := by
  rw [splineVal, basisFuns_eq_piece U i t p hp, dotL_seg]
  obtain ⟨e, rfl⟩ : ∃ e, N = (i - p) + ((p + 1) + e) := ⟨N - (i + 1), by omega⟩
  rw [Finset.sum_range_add _ (i - p), Finset.sum_range_add _ (p + 1) e, Finset.sum_eq_zero (s := Finset.range (i - p)),
    Finset.sum_eq_zero (s := Finset.range e)]
  · simp
  · intro x _
    rw [piece_zero U i p _ t (by omega), zero_mul]
  · intro x hx
    rw [Finset.mem_range] at hx
    rw [piece_zero U i p _ t (by omega), zero_mul]

theorem splineVal_join {U : Nat → K} {i m p : Nat} {τ : K} (hτ : ∀ a, i < a → a ≤ i + m → U a = τ) (h1 : U i ≠ τ)
    (h2 : U (i + m + 1) ≠ τ) (hp : m ≤ p) (hpi : p ≤ i) (P : Nat → K) : splineVal U p P i τ = splineVal U p P (i + m) τ := by
  rw [splineVal_sum hpi P τ (i + m + 1) (by omega), splineVal_sum (by omega) P τ (i + m + 1) (by omega)]
  exact Finset.sum_congr rfl fun k _ => by rw [piece_join hτ h1 h2 p hp]

theorem piece_nonneg {U : Nat → K} {N i : Nat} (hs : ∀ a b, a ≤ b → b < N → U a ≤ U b) {t : K} (h1 : U i ≤ t) (h2 : t ≤ U (i + 1)) (p : Nat) :
    ∀ k, k + p + 1 < N → 0 ≤ coxDeBoorPiece U i p k t := by
  induction p with
  | zero => intro k _; rw [coxDeBoorPiece]; split <;> norm_num
  | succ p ih =>
    intro k hk
    rw [coxDeBoorPiece]
    refine add_nonneg ?_ ?_
    · by_cases h : k + p < i ∨ i < k
      · rw [piece_zero U i p k t h, mul_zero]
      · have := hs k i (by omega) (by omega)
        have := hs k (k + p + 1) (by omega) (by omega)
        exact mul_nonneg (div_nonneg (by linarith) (by linarith)) (ih k (by omega))
    · by_cases h : k + 1 + p < i ∨ i < k + 1
      · rw [piece_zero U i p (k + 1) t h, mul_zero]
      · have := hs (i + 1) (k + p + 2) (by omega) (by omega)
        have := hs (k + 1) (k + p + 2) (by omega) (by omega)
        exact mul_nonneg (div_nonneg (by linarith) (by linarith)) (ih (k + 1) (by omega))

theorem piece_pos {U : Nat → K} {N i : Nat} (hs : ∀ a b, a ≤ b → b < N → U a ≤ U b) {t : K} (h1 : U i < t) (h2 : t < U (i + 1)) (p : Nat) :
    ∀ k, k + p + 1 < N → k ≤ i → i ≤ k + p → 0 < coxDeBoorPiece U i p k t := by
  induction p with
  | zero => intro k _ h h'; rw [coxDeBoorPiece, if_pos (by omega)]; exact one_pos
  | succ p ih =>
    intro k hk hki hik
    have n1 := piece_nonneg hs h1.le h2.le p k (by omega)
    have n2 := piece_nonneg hs h1.le h2.le p (k + 1) (by omega)
    have b1 := hs k i (by omega) (by omega)
    have b2 := hs (i + 1) (k + p + 2) (by omega) (by omega)
    rw [coxDeBoorPiece]
    by_cases h : i ≤ k + p
    · have := hs (i + 1) (k + p + 1) (by omega) (by omega)
      have := hs (k + 1) (k + p + 2) (by omega) (by omega)
      exact add_pos_of_pos_of_nonneg (mul_pos (div_pos (by linarith) (by linarith)) (ih k (by omega) hki h))
        (mul_nonneg (div_nonneg (by linarith) (by linarith)) n2)
    · have := hs (k + 1) i (by omega) (by omega)
      have := hs k (k + p + 1) (by omega) (by omega)
      exact add_pos_of_nonneg_of_pos (mul_nonneg (div_nonneg (by linarith) (by linarith)) n1)
        (mul_pos (div_pos (by linarith) (by linarith)) (ih (k + 1) (by omega) (by omega) (by omega)))

end Cmm.Nurbs
