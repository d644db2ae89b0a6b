import Verif.Model.DerivNets
import Verif.Lemmas.Monomial
import Verif.Lemmas.Csx
import Mathlib.RingTheory.Derivation.Basic
import Mathlib.Algebra.BigOperators.Intervals
import Mathlib.Tactic.Ring
import Mathlib.Tactic.FieldSimp
import Mathlib.Tactic.LinearCombination
/-! Closed forms of the loops of `rat_surface_derivs` and the Leibniz rule for derivations. -/
namespace Cmm.Nurbs
open Finset
variable {K : Type} [Field K] [LinearOrder K]

theorem vec3_ext {a b : Vec3 K} (h1 : a.x = b.x) (h2 : a.y = b.y) (h3 : a.z = b.z) : a = b := by
  cases a; cases b; simp_all

variable [IsStrictOrderedRing K]

theorem ratInner_ok (W S : Nat → Nat → Vec4 K) (sign : K) (l i a : Nat) (hl : l ≤ 30) : ∀ (count j : Nat) (v : Vec3 K), j + count ≤ l + 1 →
    ratInner W S sign l i a count j v = .ok
      ⟨v.x + ∑ m ∈ range count, sign * ((l.choose (j + m) : K) * (W i (j + m)).w) * (S a (l - (j + m))).x,
       v.y + ∑ m ∈ range count, sign * ((l.choose (j + m) : K) * (W i (j + m)).w) * (S a (l - (j + m))).y,
       v.z + ∑ m ∈ range count, sign * ((l.choose (j + m) : K) * (W i (j + m)).w) * (S a (l - (j + m))).z⟩ := by
  intro count
  induction count with
  | zero => intro j v _; simp [ratInner]
  | succ n ih =>
    intro j v h
    rw [ratInner, Mono.binomD_ok (by omega) (by omega), Res.ok_bind]
    simp only
    rw [ih (j + 1) _ (by omega)]
    congr 1
    apply vec3_ext <;>
    · simp only
      rw [sum_range_succ', add_assoc]
      congr 1
      rw [add_comm]
      simp only [Nat.add_zero, add_assoc, add_comm 1]

/-- The term of round `i` of the outer loop. -/
def outerTerm (W S : Nat → Nat → Vec4 K) (φ : Vec4 K → K) (k l i : Nat) : K :=
  (k.choose i : K) * ((W i 0).w * φ (S (k - i) l) + ∑ m ∈ range l, (l.choose (1 + m) : K) * (W i (1 + m)).w * φ (S (k - i) (l - (1 + m))))

theorem ratOuter_ok (W S : Nat → Nat → Vec4 K) (k l : Nat) (hk : k ≤ 30) (hl : l ≤ 30) : ∀ (count i : Nat) (v : Vec3 K), i + count ≤ k + 1 →
    ratOuter W S k l count i v = .ok
      ⟨v.x - ∑ m ∈ range count, outerTerm W S Vec4.x k l (i + m), v.y - ∑ m ∈ range count, outerTerm W S Vec4.y k l (i + m),
       v.z - ∑ m ∈ range count, outerTerm W S Vec4.z k l (i + m)⟩ := by
  intro count
  induction count with
  | zero => intro j v _; simp [ratOuter]
  | succ n ih =>
    intro i v h
    rw [ratOuter, Mono.binomD_ok (by omega) (by omega), Res.ok_bind]
    simp only
    rw [ratInner_ok W S 1 l i (k - i) hl l 1 0 (by omega), Res.ok_bind]
    simp only
    rw [ih (i + 1) _ (by omega)]
    have e : ∀ m, i + 1 + m = i + (m + 1) := fun m => by omega
    congr 1
    apply vec3_ext <;>
    · simp only
      rw [sum_range_succ' (fun m => outerTerm W S _ k l (i + m))]
      simp only [e, Nat.add_zero, one_mul]
      simp only [outerTerm]
      simp only [show (0 : Vec3 K).x = 0 from rfl, show (0 : Vec3 K).y = 0 from rfl, show (0 : Vec3 K).z = 0 from rfl]
      ring

/-- The value of an entry in one coordinate. -/
def ratVal (W S : Nat → Nat → Vec4 K) (φ : Vec4 K → K) (k l : Nat) : K :=
  (φ (W k l) - ∑ m ∈ range l, (l.choose (1 + m) : K) * (W 0 (1 + m)).w * φ (S k (l - (1 + m))) -
    ∑ m ∈ range k, outerTerm W S φ k l (1 + m)) / (W 0 0).w

theorem ratEntry_ok (W S : Nat → Nat → Vec4 K) (k l : Nat) (hk : k ≤ 30) (hl : l ≤ 30) (hw : (W 0 0).w ≠ 0) :
    ratEntry W S k l = .ok ⟨ratVal W S Vec4.x k l, ratVal W S Vec4.y k l, ratVal W S Vec4.z k l, 0⟩ := by
  rw [ratEntry, ratInner_ok W S (-1) l 0 k hl l 1 _ (by omega), Res.ok_bind, ratOuter_ok W S k l hk hl k 1 _ (by omega), Res.ok_bind]
  simp only
  rw [if_neg hw]
  simp only [ratVal, neg_mul, one_mul, sum_neg_distrib, sub_eq_add_neg]

theorem ratVal_congr {W S S' : Nat → Nat → Vec4 K} {φ : Vec4 K → K} {k l : Nat} (h1 : ∀ b, b < l → S k b = S' k b)
    (h2 : ∀ a b, a < k → b ≤ l → S a b = S' a b) : ratVal W S φ k l = ratVal W S' φ k l := by
  unfold ratVal outerTerm
  congr 1
  congr 1
  · congr 1
    refine sum_congr rfl fun m hm => ?_
    rw [mem_range] at hm
    rw [h1 _ (by omega)]
  · refine sum_congr rfl fun m hm => ?_
    rw [mem_range] at hm
    congr 1
    rw [h2 _ _ (by omega) (le_refl _)]
    congr 1
    refine sum_congr rfl fun n hn => ?_
    rw [h2 _ _ (by omega) (by omega)]

/-- All entries in row `k` up to column `l` have the right value. -/
def EntryOk (W S : Nat → Nat → Vec4 K) (k l : Nat) : Prop :=
  S k l = ⟨ratVal W S Vec4.x k l, ratVal W S Vec4.y k l, ratVal W S Vec4.z k l, 0⟩

theorem ratCols_ok (W : Nat → Nat → Vec4 K) (k : Nat) (hk : k ≤ 30) (hw : (W 0 0).w ≠ 0) : ∀ (count l : Nat) (S : Nat → Nat → Vec4 K),
    l + count ≤ 31 → (∀ b, b < l → EntryOk W S k b) →
    ∃ S', ratCols W k count l S = .ok S' ∧ (∀ a b, a ≠ k → S' a b = S a b) ∧ ∀ b, b < l + count → EntryOk W S' k b := by
  intro count
  induction count with
  | zero => intro l S _ h; exact ⟨S, rfl, fun _ _ _ => rfl, by simpa using h⟩
  | succ n ih =>
    intro l S hl h
    rw [ratCols, ratEntry_ok W S k l hk (by omega) hw, Res.ok_bind]
    set S1 := set2 S k l ⟨ratVal W S Vec4.x k l, ratVal W S Vec4.y k l, ratVal W S Vec4.z k l, 0⟩ with hS1
    have e1 : ∀ a b, a ≠ k → S1 a b = S a b := fun a b ha => by rw [hS1, set2, if_neg (by tauto)]
    have e2 : ∀ b, b ≠ l → S1 k b = S k b := fun b hb => by rw [hS1, set2, if_neg (by tauto)]
    have e3 : ∀ φ b, b ≤ l → ratVal W S1 φ k b = ratVal W S φ k b := fun φ b hb =>
      ratVal_congr (fun b' hb' => e2 b' (by omega)) fun a b' ha _ => e1 a b' (by omega)
    obtain ⟨S', r1, r2, r3⟩ := ih (l + 1) S1 (by omega) (by
      intro b hb
      unfold EntryOk
      rw [e3 _ b (by omega), e3 _ b (by omega), e3 _ b (by omega)]
      by_cases hbl : b = l
      · subst hbl
        rw [hS1, set2, if_pos ⟨rfl, rfl⟩]
      · rw [e2 b hbl]; exact h b (by omega))
    refine ⟨S', r1, fun a b ha => by rw [r2 a b ha, e1 a b ha], fun b hb => r3 b (by omega)⟩

theorem EntryOk.congr {W S S' : Nat → Nat → Vec4 K} {k l : Nat} (h : EntryOk W S k l) (e : ∀ a b, a ≤ k → S' a b = S a b) : EntryOk W S' k l := by
  unfold EntryOk at *
  have r : ∀ φ, ratVal W S' φ k l = ratVal W S φ k l := fun φ => ratVal_congr (fun b _ => e k b (le_refl _)) fun a b ha _ => e a b (by omega)
  rw [r, r, r, e k l (le_refl _), h]

theorem ratRows_ok (W : Nat → Nat → Vec4 K) (n : Nat) (hn : n ≤ 31) (hw : (W 0 0).w ≠ 0) : ∀ (count k : Nat) (S : Nat → Nat → Vec4 K),
    k + count ≤ 31 → (∀ a b, a < k → b < n → EntryOk W S a b) →
    ∃ S', ratRows W n count k S = .ok S' ∧ ∀ a b, a < k + count → b < n → EntryOk W S' a b := by
  intro count
  induction count with
  | zero => intro k S _ h; exact ⟨S, rfl, by simpa using h⟩
  | succ c ih =>
    intro k S hk h
    obtain ⟨S1, e1, e2, e3⟩ := ratCols_ok W k (by omega) hw n 0 S (by omega) (by intro b hb; omega)
    rw [ratRows, e1, Res.ok_bind]
    obtain ⟨S', r1, r2⟩ := ih (k + 1) S1 (by omega) (by
      intro a b ha hb
      by_cases hak : a = k
      · subst hak; exact e3 b (by omega)
      · exact (h a b (by omega) hb).congr fun a' b' ha' => e2 a' b' (by omega))
    exact ⟨S', r1, fun a b ha hb => r2 a b (by omega) hb⟩

/-- The double Leibniz sum. -/
theorem ratVal_leibniz {W S : Nat → Nat → Vec4 K} {φ : Vec4 K → K} {k l : Nat} (hw : (W 0 0).w ≠ 0) (h : φ (S k l) = ratVal W S φ k l) :
    ∑ i ∈ range (k + 1), ∑ j ∈ range (l + 1), (k.choose i : K) * (l.choose j : K) * (W i j).w * φ (S (k - i) (l - j)) = φ (W k l) := by
  have inner : ∀ i a, ∑ j ∈ range (l + 1), (k.choose i : K) * (l.choose j : K) * (W i j).w * φ (S a (l - j)) =
      (k.choose i : K) * ((W i 0).w * φ (S a l) + ∑ m ∈ range l, (l.choose (1 + m) : K) * (W i (1 + m)).w * φ (S a (l - (1 + m)))) := by
    intro i a
    rw [sum_range_succ', mul_add, mul_sum, add_comm]
    congr 1
    · simp; ring
    · refine sum_congr rfl fun m _ => ?_
      rw [add_comm 1 m]; ring
  rw [sum_range_succ', inner]
  have e : ∑ i ∈ range k, ∑ j ∈ range (l + 1), (k.choose (i + 1) : K) * (l.choose j : K) * (W (i + 1) j).w * φ (S (k - (i + 1)) (l - j)) =
      ∑ m ∈ range k, outerTerm W S φ k l (1 + m) := by
    refine sum_congr rfl fun i _ => ?_
    rw [inner, add_comm 1 i]; rfl
  rw [e]
  rw [ratVal, eq_div_iff hw] at h
  simp only [Nat.choose_zero_right, Nat.cast_one, one_mul, Nat.sub_zero]
  linear_combination h

/-- The double Leibniz relation determines the values, because the weight is not zero. -/
theorem leibniz_unique {W : Nat → Nat → K} {S T : Nat → Nat → K} {d : Nat} (hw : W 0 0 ≠ 0)
    (h : ∀ k l, k ≤ d → l ≤ d → ∑ i ∈ range (k + 1), ∑ j ∈ range (l + 1), (k.choose i : K) * (l.choose j : K) * W i j * S (k - i) (l - j) =
      ∑ i ∈ range (k + 1), ∑ j ∈ range (l + 1), (k.choose i : K) * (l.choose j : K) * W i j * T (k - i) (l - j)) :
    ∀ k l, k ≤ d → l ≤ d → S k l = T k l := by
  intro k
  induction k using Nat.strong_induction_on with
  | _ k ihk =>
    intro l
    induction l using Nat.strong_induction_on with
    | _ l ihl =>
      intro hk hl
      have e := h k l hk hl
      rw [sum_range_succ', sum_range_succ', sum_range_succ', sum_range_succ'] at e
      have e1 : ∑ i ∈ range k, ∑ j ∈ range (l + 1), (k.choose (i + 1) : K) * (l.choose j : K) * W (i + 1) j * S (k - (i + 1)) (l - j) =
          ∑ i ∈ range k, ∑ j ∈ range (l + 1), (k.choose (i + 1) : K) * (l.choose j : K) * W (i + 1) j * T (k - (i + 1)) (l - j) := by
        refine sum_congr rfl fun i hi => sum_congr rfl fun j hj => ?_
        rw [mem_range] at hi
        rw [ihk (k - (i + 1)) (by omega) (l - j) (by omega) (by omega)]
      have e2 : ∑ j ∈ range l, (k.choose 0 : K) * (l.choose (j + 1) : K) * W 0 (j + 1) * S (k - 0) (l - (j + 1)) =
          ∑ j ∈ range l, (k.choose 0 : K) * (l.choose (j + 1) : K) * W 0 (j + 1) * T (k - 0) (l - (j + 1)) := by
        refine sum_congr rfl fun j hj => ?_
        rw [mem_range] at hj
        rw [Nat.sub_zero, ihl (l - (j + 1)) (by omega) hk (by omega)]
      rw [e1, e2] at e
      simp only [Nat.choose_zero_right, Nat.cast_one, one_mul, Nat.sub_zero] at e
      have := add_left_cancel (add_left_cancel e)
      exact mul_left_cancel₀ hw this

/-- The general Leibniz rule for a derivation. -/
theorem derivation_iterate_mul {R : Type} [CommRing R] (D : Derivation ℤ R R) (n : Nat) (f g : R) :
    D^[n] (f * g) = ∑ i ∈ range (n + 1), (n.choose i : R) * (D^[i] f * D^[n - i] g) := by
  induction n with
  | zero => simp
  | succ n ih =>
    rw [Function.iterate_succ_apply', ih, map_sum]
    have step : ∀ i ∈ range (n + 1), D ((n.choose i : R) * (D^[i] f * D^[n - i] g)) =
        (n.choose i : R) * (D^[i + 1] f * D^[n - i] g) + (n.choose i : R) * (D^[i] f * D^[n + 1 - i] g) := by
      intro i hi
      rw [mem_range] at hi
      rw [← nsmul_eq_mul, map_nsmul, nsmul_eq_mul, D.leibniz, smul_eq_mul, smul_eq_mul, show n + 1 - i = (n - i) + 1 by omega,
        Function.iterate_succ_apply', Function.iterate_succ_apply']
      ring
    rw [sum_congr rfl step, sum_add_distrib]
    have a1 : ∑ i ∈ range (n + 1), (n.choose i : R) * (D^[i] f * D^[n + 1 - i] g) =
        ∑ i ∈ range (n + 1), (n.choose (i + 1) : R) * (D^[i + 1] f * D^[n - i] g) + f * D^[n + 1] g := by
      rw [sum_range_succ']
      rw [sum_range_succ (fun i => (n.choose (i + 1) : R) * (D^[i + 1] f * D^[n - i] g))]
      simp [Nat.choose_succ_self]
    rw [a1, ← add_assoc, ← sum_add_distrib, sum_range_succ' _ (n + 1)]
    congr 1
    · refine sum_congr rfl fun i _ => ?_
      rw [Nat.choose_succ_succ, Nat.cast_add, show n + 1 - (i + 1) = n - i by omega]
      ring
    · simp

theorem derivation_iterate_sum {R : Type} [CommRing R] (D : Derivation ℤ R R) (n : Nat) {ι : Type} (s : Finset ι) (c : ι → Nat) (f : ι → R) :
    D^[n] (∑ i ∈ s, (c i : R) * f i) = ∑ i ∈ s, (c i : R) * D^[n] (f i) := by
  induction n with
  | zero => rfl
  | succ n ih =>
    rw [Function.iterate_succ_apply', ih, map_sum]
    refine sum_congr rfl fun i _ => ?_
    rw [← nsmul_eq_mul, map_nsmul, nsmul_eq_mul, Function.iterate_succ_apply']

theorem derivation_iterate_two {R : Type} [CommRing R] (Du Dv : Derivation ℤ R R) (k l : Nat) (f g : R) :
    Du^[k] (Dv^[l] (f * g)) = ∑ i ∈ range (k + 1), ∑ j ∈ range (l + 1),
      (k.choose i : R) * (l.choose j : R) * (Du^[i] (Dv^[j] f) * Du^[k - i] (Dv^[l - j] g)) := by
  rw [derivation_iterate_mul Dv, derivation_iterate_sum, sum_comm]
  refine sum_congr rfl fun j _ => ?_
  rw [derivation_iterate_mul Du, mul_sum]
  refine sum_congr rfl fun i _ => ?_
  ring

end Cmm.Nurbs
