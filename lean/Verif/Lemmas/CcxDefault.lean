import Verif.Lemmas.CcxSlope
import Verif.Props.Knots
import Mathlib.Data.List.Nodup
/-! Curves with the default knots: their knots are whole numbers, which stay clear of the halving points. -/
namespace Cmm.Ccx
open Cmm.Nurbs
variable {K : Type} [Field K] [LinearOrder K] [IsStrictOrderedRing K]

theorem clear_whole {c : Curve K} {L z n N k : Nat} (hlo : c.lo = 0) (hhi : c.hi = L) (hn : n ≤ N) (hN : (2 : K) ^ N < 10 ^ 12) (hne : cut c n k ≠ (z : K)) :
    1 / 10 ^ 12 < |cut c n k - z| := by
  have h2 : (0 : K) < 2 ^ n := by positivity
  have e : cut c n k - z = (((L * k : Nat) : ℤ) - ((z * 2 ^ n : Nat) : ℤ) : ℤ) / 2 ^ n := by
    unfold cut; rw [hlo, hhi]; push_cast; field_simp; ring
  have hz : (((L * k : Nat) : ℤ) - ((z * 2 ^ n : Nat) : ℤ) : ℤ) ≠ 0 := by
    intro h0
    apply hne
    rw [h0] at e
    simp only [Int.cast_zero, zero_div] at e
    linarith
  have h1 : (1 : K) ≤ |((((L * k : Nat) : ℤ) - ((z * 2 ^ n : Nat) : ℤ) : ℤ) : K)| := by
    rw [← Int.cast_abs]
    exact_mod_cast Int.one_le_abs hz
  rw [e, abs_div, abs_of_pos h2, lt_div_iff₀ h2]
  have : (2 : K) ^ n ≤ 2 ^ N := pow_le_pow_right₀ (by norm_num) hn
  have h3 : 1 / 10 ^ 12 * (2 : K) ^ n < 1 := by
    rw [div_mul_eq_mul_div, one_mul, div_lt_one (by positivity)]
    linarith
  linarith

/-- The knots the constructor makes. -/
theorem default_count {n p : Nat} {x : K} (h0 : 0 < x) (h1 : x < ((n - p : Nat) : K)) :
    (List.replicate (p + 1) (0 : K) ++ (List.range (n - p)).map (fun i : Nat => (i : K) + 1) ++ List.replicate p ((n - p : Nat) : K)).count x ≤ 1 := by
  rw [List.count_append, List.count_append, List.count_replicate, List.count_replicate, if_neg (by simpa using (ne_of_lt h0)),
    if_neg (by simpa using (ne_of_gt h1)), Nat.zero_add, Nat.add_zero]
  apply List.nodup_iff_count_le_one.1
  refine List.Nodup.map ?_ List.nodup_range
  intro a b hab
  simpa using hab

theorem default_curve {pts : List (Vec4 K)} {p : Nat} (h1 : 1 ≤ p) (h8 : p ≤ 8) (h : p < pts.length) (un : ∀ q ∈ pts, q.w = 1) {N : Nat}
    (hN : (2 : K) ^ N < 10 ^ 12) : ∃ c : Curve K, Curve.make pts p false = .ok c ∧ Halvable N c ∧ c.cpts = pts ∧ c.degree = p ∧ c.lo = 0 ∧
      c.hi = (pts.length : K) - p ∧ ∀ d, 0 ≤ d → StepsLe d c → SlopeLe d c := by
  obtain ⟨k, g1, g2, g3, g4, g5, g6⟩ := C23_generated_clamped (K := K) pts.length p h
  obtain ⟨k', e1, e2⟩ := C23_constructor pts p h
  rw [g1] at e1
  cases e1
  have hk : k = List.replicate (p + 1) (0 : K) ++ (List.range (pts.length - p)).map (fun i : Nat => (i : K) + 1) ++ List.replicate p ((pts.length - p : Nat) : K) := by
    rw [generateKnots, if_neg (by omega)] at g1
    exact (Res.ok.inj g1).symm
  have hL : ((pts.length : K) - p) = ((pts.length - p : Nat) : K) := by rw [Nat.cast_sub (by omega)]
  have hint : ∀ i, i ≤ pts.length + p → ∃ z : Nat, ix k i = (z : K) := by
    intro i hi
    rcases Nat.lt_or_ge i p with hip | hip
    · exact ⟨0, by rw [g4 i (by omega)]; simp⟩
    · rcases Nat.lt_or_ge i pts.length with hin | hin
      · exact ⟨i - p, by rw [g6 i hip (by omega), Nat.cast_sub hip]⟩
      · exact ⟨pts.length - p, by rw [g5 i hin hi, hL]⟩
  refine ⟨_, e2, ⟨⟨h1, h8, h, g2, g3, ?_⟩, un, ?_, ⟨?_, ?_⟩, ?_, ?_⟩, rfl, rfl, rfl, rfl, ?_⟩
  · show ix k (pts.length - 1) < ix k pts.length
    rw [g6 _ (by omega) (by omega), g6 _ (by omega) (le_refl _), Nat.cast_sub (by omega)]
    push_cast; linarith
  · have : (⟨pts, p, k, false, 0, 1⟩ : Curve K).updateInterval = .ok ⟨pts, p, k, false, 0, (pts.length : K) - p⟩ := by
      unfold Curve.make Curve.generateKnots at e2
      simp only [Bool.false_eq_true, ↓reduceIte, g1, Res.ok_bind] at e2
      cases e : (⟨pts, p, k, false, 0, 1⟩ : Curve K).updateInterval with
      | throws => rw [e] at e2; cases e2
      | ub => rw [e] at e2; cases e2
      | ok c =>
        rw [e] at e2
        simp only [Res.ok_bind] at e2
        split at e2
        · cases e2
        · exact e2
    exact intervalOk_of this
  · intro i hi
    show ix k i = ix k p
    rw [g4 i hi, g4 p (le_refl _)]
  · intro i a b
    show ix k i = ix k pts.length
    rw [g5 i a b, g5 _ (le_refl _) (by omega)]
  · intro x a b
    show k.count x ≤ p
    have b' : x < (pts.length : K) - p := b
    rw [hL] at b'
    rw [hk]
    exact le_trans (default_count a b') h1
  · intro n hn j hj x hx hne
    obtain ⟨i, hi, rfl⟩ := List.getElem_of_mem hx
    have hi' : i < k.length := hi
    obtain ⟨z, hz⟩ := hint i (by omega)
    rw [ix_eq_getElem hi'] at hz
    rw [hz] at hne ⊢
    exact clear_whole rfl hL hn hN hne.symm
  · intro d hd st i hi
    have hi' : i + 1 < pts.length := hi
    have gap : 1 ≤ ix k (i + p + 1) - ix k (i + 1) := by
      rcases Nat.lt_or_ge (i + 1) p with c1 | c1
      · rw [g4 (i + 1) (by omega)]
        rcases Nat.lt_or_ge (i + p + 1) pts.length with c2 | c2
        · rw [g6 _ (by omega) (by omega)]; push_cast
          have : (0 : K) ≤ i := Nat.cast_nonneg i
          linarith
        · rw [g5 _ c2 (by omega), hL, sub_zero]
          exact_mod_cast (by omega : 1 ≤ pts.length - p)
      · rw [g6 (i + 1) c1 (by omega)]
        rcases Nat.lt_or_ge (i + p + 1) pts.length with c2 | c2
        · rw [g6 _ (by omega) (by omega)]; push_cast
          have : (1 : K) ≤ p := by exact_mod_cast h1
          linarith
        · rw [g5 _ c2 (by omega)]; push_cast
          have : ((i + 1 + 1 : Nat) : K) ≤ pts.length := by exact_mod_cast hi'
          push_cast at this
          linarith
    have le : d ≤ d * (ix k (i + p + 1) - ix k (i + 1)) := by nlinarith
    obtain ⟨a, b, c⟩ := st i hi
    exact ⟨le_trans a le, le_trans b le, le_trans c le⟩

end Cmm.Ccx
