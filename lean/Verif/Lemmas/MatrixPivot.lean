import Verif.Lemmas.Matrix
import Mathlib.Data.Nat.Choose.Sum
import Mathlib.Data.Nat.Factorial.BigOperators
import Mathlib.Algebra.BigOperators.Intervals
import Mathlib.Tactic.Linarith
/-! The elimination of `inverse` never meets a small pivot on the Bernstein conversion matrix. -/
namespace Cmm.Mat
open Finset
variable {K : Type} [Field K]

/-- Which original rows the rows of the table are made from before pass `i`: row `r ≥ i` is the original row `σ r` plus a
combination of the original rows `σ 0, …, σ (i - 1)`; a row `r < i` is a combination of the latter. -/
structure RowPerm (n i : Nat) (σ : Nat → Nat) (t : List (List K)) : Prop where
  range : ∀ r < n, σ r < n
  inj : ∀ r < n, ∀ s < n, σ r = σ s → r = s
  supp : ∀ r < n, ∀ k < n, (∀ j < i, k ≠ σ j) → (i ≤ r → k ≠ σ r) → tget t r (n + k) = 0
  one : ∀ r < n, i ≤ r → tget t r (n + σ r) = 1

theorem RowPerm.swap {n i p : Nat} {σ : Nat → Nat} {t : List (List K)} (h : RowPerm n i σ t) (hi : i ≤ p) (hp : p < n) :
    RowPerm n i (fun r => if r = i then σ p else if r = p then σ i else σ r) (swapRows n (2 * n) i p t) := by
  have hi' : i < n := by omega
  have e : ∀ r < n, ∀ c < 2 * n, tget (swapRows n (2 * n) i p t) r c =
      if r = i then tget t p c else if r = p then tget t i c else tget t r c := fun r hr c hc => tget_table _ hr hc
  have hlow : ∀ j < i, (if j = i then σ p else if j = p then σ i else σ j) = σ j := fun j hj => by
    rw [if_neg (by omega), if_neg (by omega)]
  refine ⟨?_, ?_, ?_, ?_⟩
  · intro r hr
    beta_reduce
    split
    · exact h.range p hp
    · split
      · exact h.range i hi'
      · exact h.range r hr
  · intro r hr s hs
    beta_reduce
    intro he
    split at he
    · split at he
      · omega
      · split at he
        · have := h.inj p hp i hi' he; omega
        · have := h.inj p hp s hs he; omega
    · split at he
      · split at he
        · have := h.inj i hi' p hp he; omega
        · split at he
          · omega
          · have := h.inj i hi' s hs he; omega
      · split at he
        · have := h.inj r hr p hp he; omega
        · split at he
          · have := h.inj r hr i hi' he; omega
          · exact h.inj r hr s hs he
  · intro r hr k hk h1 h2
    have h1' : ∀ j < i, k ≠ σ j := fun j hj => by have := h1 j hj; rwa [hlow j hj] at this
    rw [e r hr (n + k) (by omega)]
    by_cases ha : r = i
    · rw [if_pos ha]
      refine h.supp p hp k hk h1' fun _ => ?_
      have := h2 (by omega)
      rwa [if_pos ha] at this
    · rw [if_neg ha]
      by_cases hb : r = p
      · rw [if_pos hb]
        refine h.supp i hi' k hk h1' fun _ => ?_
        have := h2 (by omega)
        rwa [if_neg ha, if_pos hb] at this
      · rw [if_neg hb]
        refine h.supp r hr k hk h1' fun hir => ?_
        have := h2 hir
        rwa [if_neg ha, if_neg hb] at this
  · intro r hr hir
    beta_reduce
    have hb : (if r = i then σ p else if r = p then σ i else σ r) < n := by
      split
      · exact h.range p hp
      · split
        · exact h.range i hi'
        · exact h.range r hr
    rw [e r hr _ (by omega)]
    by_cases ha : r = i
    · rw [if_pos ha, if_pos ha]; exact h.one p hp hi
    · rw [if_neg ha, if_neg ha]
      by_cases hb : r = p
      · rw [if_pos hb, if_pos hb]; exact h.one i hi' (le_refl _)
      · rw [if_neg hb, if_neg hb]; exact h.one r hr hir

theorem RowPerm.scaleClear {n i : Nat} {σ : Nat → Nat} {t : List (List K)} (h : RowPerm n i σ t) (hi : i < n) (v : K) :
    RowPerm n (i + 1) σ (clearColumn n (2 * n) i (scaleRow n (2 * n) i v t)) := by
  have e0 : ∀ r < n, ∀ c < 2 * n, tget (scaleRow n (2 * n) i v t) r c =
      if r = i then tget t i c / v else tget t r c := fun r hr c hc => tget_table _ hr hc
  have e : ∀ r < n, ∀ c < 2 * n, tget (clearColumn n (2 * n) i (scaleRow n (2 * n) i v t)) r c =
      if r = i then tget t i c / v else tget t r c - tget t r i * (tget t i c / v) := by
    intro r hr c hc
    rw [clearColumn, tget_table _ hr hc]
    by_cases hri : r = i
    · rw [if_pos hri, if_pos hri, e0 i hi c hc, if_pos rfl]
    · rw [if_neg hri, if_neg hri, e0 r hr c hc, if_neg hri, e0 r hr i (by omega), if_neg hri, e0 i hi c hc, if_pos rfl]
  refine ⟨h.range, h.inj, ?_, ?_⟩
  · intro r hr k hk h1 h2
    have hrow : tget t i (n + k) = 0 := h.supp i hi k hk (fun j hj => h1 j (by omega)) fun _ => h1 i (by omega)
    rw [e r hr _ (by omega), hrow]
    by_cases hri : r = i
    · rw [if_pos hri, zero_div]
    · rw [if_neg hri, h.supp r hr k hk (fun j hj => h1 j (by omega)) fun hir => h2 (by omega)]; ring
  · intro r hr hir
    have hσ := h.range r hr
    have hrow : tget t i (n + σ r) = 0 := by
      refine h.supp i hi _ hσ (fun j hj he => ?_) fun _ he => ?_
      · have := h.inj r hr j (by omega) he; omega
      · have := h.inj r hr i hi he; omega
    rw [e r hr _ (by omega), if_neg (by omega), h.one r hr (by omega), hrow]; ring

variable [LinearOrder K] [IsStrictOrderedRing K]

theorem invStep_perm {n : Nat} {i : Nat} {σ : Nat → Nat} {t t' : List (List K)} (h : RowPerm n i σ t) (hi : i < n)
    (hs : invStep n (2 * n) t i = .ok t') : ∃ σ', RowPerm n (i + 1) σ' t' := by
  obtain ⟨p1, p2, _⟩ := pivotRow_spec n i t hi
  unfold invStep at hs
  simp only at hs
  have hsw : ∃ σ', RowPerm n i σ' (if pivotRow n i t ≠ i then swapRows n (2 * n) i (pivotRow n i t) t else t) := by
    split
    · exact ⟨_, h.swap p1 p2⟩
    · exact ⟨_, h⟩
  obtain ⟨σ', hσ'⟩ := hsw
  generalize (if pivotRow n i t ≠ i then swapRows n (2 * n) i (pivotRow n i t) t else t) = t1 at hs hσ'
  by_cases hlt : |tget t1 i i| < pivotTol
  · rw [if_pos hlt] at hs; cases hs
  · rw [if_neg hlt] at hs
    simp only [Res.ok.injEq] at hs
    rw [← hs]
    exact ⟨σ', hσ'.scaleClear hi _⟩

theorem invLoop_perm {n : Nat} {A : Nat → Nat → K} : ∀ len i (σ : Nat → Nat) (t : List (List K)), i + len = n →
    InvInv n A i t → RowPerm n i σ t →
    (∃ t', (List.range' i len).foldlM (invStep n (2 * n)) t = .ok t' ∧ InvInv n A n t') ∨
    ((List.range' i len).foldlM (invStep n (2 * n)) t = .throws ∧
      ∃ j σ' t', j < n ∧ InvInv n A j t' ∧ RowPerm n j σ' t' ∧ ∀ r, j ≤ r → r < n → |tget t' r j| < pivotTol) := by
  intro len
  induction len with
  | zero => intro i σ t h hI _; left; exact ⟨t, rfl, by rw [show n = i by omega] at hI ⊢; exact hI⟩
  | succ len ih =>
    intro i σ t h hI hP
    rw [List.range'_succ, List.foldlM_cons]
    rcases invStep_spec hI (by omega) with ⟨t', h1, h2⟩ | ⟨h1, h2⟩
    · obtain ⟨σ', hσ'⟩ := invStep_perm hP (by omega) h1
      rw [h1, Res.ok_bind]
      exact ih (i + 1) σ' t' (by omega) h2 hσ'
    · right
      rw [h1]
      exact ⟨rfl, i, σ, t, by omega, hI, hP, h2⟩

theorem augment_perm (m : MatrixD K) (h : m.rows = m.cols) : RowPerm m.rows 0 id (augment m) := by
  have e2 : ∀ r < m.rows, ∀ k < m.rows, tget (augment m) r (m.rows + k) = if r = k then 1 else 0 := by
    intro r hr k hk
    rw [augment, ← h, tget_table _ hr (by omega), if_neg (by omega), Nat.add_sub_cancel_left]
  refine ⟨fun r hr => hr, fun r _ s _ h => h, fun r hr k hk _ h2 => ?_, fun r hr _ => ?_⟩
  · rw [e2 r hr k hk, if_neg fun h => h2 (Nat.zero_le _) h.symm]
  · rw [id, e2 r hr r hr, if_pos rfl]

/-! ### Combinatorics -/

omit [LinearOrder K] [IsStrictOrderedRing K] in
/-- A product of `c` linear factors in Newton's basis. -/
theorem prod_newton (s : Nat → K) (c : Nat) : ∃ a : Nat → K, a c = (c.factorial : K) ∧
    ∀ k : Nat, ∏ j ∈ range c, ((k : K) - s j) = ∑ d ∈ range (c + 1), a d * (k.choose d : K) := by
  induction c with
  | zero => exact ⟨fun _ => 1, by simp, fun k => by simp⟩
  | succ c ih =>
    obtain ⟨a, h1, h2⟩ := ih
    have hrec : ∀ k d : Nat, (k : K) * (k.choose d : K) = (d + 1 : K) * (k.choose (d + 1) : K) + d * (k.choose d : K) := by
      intro k d
      have : k * k.choose d = (d + 1) * k.choose (d + 1) + d * k.choose d := by
        rcases Nat.lt_or_ge k d with hk | hk
        · rw [Nat.choose_eq_zero_of_lt hk, Nat.choose_eq_zero_of_lt (by omega : k < d + 1)]; simp
        · have h := Nat.choose_succ_right_eq k d
          have e : k = (k - d) + d := by omega
          calc k * k.choose d = ((k - d) + d) * k.choose d := by rw [← e]
            _ = k.choose d * (k - d) + d * k.choose d := by ring
            _ = _ := by rw [← h]; ring
      have h2 := congrArg (Nat.cast (R := K)) this
      push_cast at h2
      exact h2
    refine ⟨fun d => (if d = 0 then 0 else a (d - 1) * d) + if d = c + 1 then 0 else a d * (d - s c), ?_, fun k => ?_⟩
    · simp [h1, Nat.factorial_succ]; ring
    · rw [Finset.prod_range_succ, h2, Finset.sum_mul]
      have e1 : ∀ d ∈ range (c + 1), a d * (k.choose d : K) * ((k : K) - s c) =
          a d * (d + 1 : K) * (k.choose (d + 1) : K) + a d * (d - s c) * (k.choose d : K) := by
        intro d _
        have := hrec k d
        linear_combination a d * this
      rw [Finset.sum_congr rfl e1, Finset.sum_add_distrib]
      have e2 : ∑ d ∈ range (c + 1 + 1), ((if d = 0 then 0 else a (d - 1) * (d : K)) + if d = c + 1 then 0 else a d * (d - s c)) *
          (k.choose d : K) = ∑ d ∈ range (c + 1 + 1), (if d = 0 then 0 else a (d - 1) * (d : K)) * (k.choose d : K) +
          ∑ d ∈ range (c + 1 + 1), (if d = c + 1 then 0 else a d * (d - s c)) * (k.choose d : K) := by
        rw [← Finset.sum_add_distrib]
        exact Finset.sum_congr rfl fun d _ => by ring
      rw [e2, Finset.sum_range_succ' _ (c + 1), Finset.sum_range_succ _ (c + 1)]
      simp only [if_true, zero_mul, add_zero, Nat.add_one_ne_zero, if_false, Nat.add_sub_cancel, Nat.cast_add, Nat.cast_one]
      congr 1
      refine Finset.sum_congr rfl fun d hd => ?_
      rw [if_neg (by have := mem_range.mp hd; omega)]

theorem factorial_le_prod (S : Finset Nat) : (∀ x ∈ S, 1 ≤ x) → S.card.factorial ≤ ∏ x ∈ S, x := by
  induction S using Finset.induction_on_max with
  | empty => intro _; simp
  | insert a S hmax ih =>
    intro h
    have ha : a ∉ S := fun hm => lt_irrefl _ (hmax a hm)
    rw [Finset.card_insert_of_notMem ha, Finset.prod_insert ha, Nat.factorial_succ]
    have hcard : S.card + 1 ≤ a := by
      have hsub : S ⊆ Finset.Ico 1 a := fun x hx => by
        rw [Finset.mem_Ico]; exact ⟨h x (Finset.mem_insert_of_mem hx), hmax x hx⟩
      have := Finset.card_le_card hsub
      rw [Nat.card_Ico] at this
      have := h a (Finset.mem_insert_self _ _)
      omega
    exact Nat.mul_le_mul hcard (ih fun x hx => h x (Finset.mem_insert_of_mem hx))

theorem pivot_bound (n ρ : Nat) (hρ : ρ ≤ n) (R : Finset Nat) (hR : ∀ s ∈ R, s ≤ n ∧ s ≠ ρ)
    (hab : ∀ s, ρ < s → s ≤ n → s ∈ R) : R.card.factorial ≤ n.choose ρ * ∏ s ∈ R, (max ρ s - min ρ s) := by
  classical
  have hsplit := Finset.prod_filter_mul_prod_filter_not R (fun s => ρ < s) (fun s => max ρ s - min ρ s)
  have hup : R.filter (fun s => ρ < s) = Finset.Ioc ρ n := by
    ext s
    simp only [Finset.mem_filter, Finset.mem_Ioc]
    constructor
    · rintro ⟨h1, h2⟩; exact ⟨h2, (hR s h1).1⟩
    · rintro ⟨h1, h2⟩; exact ⟨hab s h1 h2, h1⟩
  have hupprod : ∏ s ∈ R.filter (fun s => ρ < s), (max ρ s - min ρ s) = (n - ρ).factorial := by
    rw [hup]
    have : Finset.Ioc ρ n = Finset.Ico (ρ + 1) (n + 1) := by ext; simp only [Finset.mem_Ioc, Finset.mem_Ico]; omega
    rw [this, Finset.prod_Ico_eq_prod_range, Nat.factorial_eq_prod_range_add_one]
    rw [show n + 1 - (ρ + 1) = n - ρ by omega]
    refine Finset.prod_congr rfl fun k _ => ?_
    omega
  set L := R.filter (fun s => ¬ ρ < s) with hL
  have hLprod : L.card.factorial ≤ ∏ s ∈ L, (max ρ s - min ρ s) := by
    have hinj : Set.InjOn (fun s => ρ - s) (L : Set Nat) := by
      intro a ha b hb hab'
      simp only [hL, Finset.coe_filter, Set.mem_ofPred_eq] at ha hb
      simp only at hab'
      omega
    have := factorial_le_prod (L.image fun s => ρ - s) (by
      intro x hx
      rw [Finset.mem_image] at hx
      obtain ⟨s, hs, rfl⟩ := hx
      rw [hL, Finset.mem_filter] at hs
      have := (hR s hs.1).2
      omega)
    rw [Finset.card_image_of_injOn hinj, Finset.prod_image hinj] at this
    refine le_trans this (le_of_eq (Finset.prod_congr rfl fun s hs => ?_))
    rw [hL, Finset.mem_filter] at hs
    omega
  have hcard : R.card = (n - ρ) + L.card := by
    rw [← Finset.card_filter_add_card_filter_not (s := R) (fun s => ρ < s), hup, Nat.card_Ioc]
  have hLle : L.card ≤ ρ := by
    have hsub : L ⊆ Finset.range ρ := fun s hs => by
      rw [hL, Finset.mem_filter] at hs
      have := (hR s hs.1).2
      rw [Finset.mem_range]; omega
    simpa using Finset.card_le_card hsub
  rw [← hsplit, hupprod]
  refine le_trans ?_ (Nat.mul_le_mul_left _ (Nat.mul_le_mul_left _ hLprod))
  -- n! * l! ≥ c! * ρ!
  set l := L.card with hl
  rw [hcard]
  have hch : n.choose ρ * ρ.factorial * (n - ρ).factorial = n.factorial := Nat.choose_mul_factorial_mul_factorial hρ
  have hd1 : (n - ρ + l).factorial * n.descFactorial (ρ - l) = n.factorial := by
    have := Nat.factorial_mul_descFactorial (n := n) (k := ρ - l) (by omega)
    rwa [show n - (ρ - l) = n - ρ + l by omega] at this
  have hd2 : l.factorial * ρ.descFactorial (ρ - l) = ρ.factorial := by
    have := Nat.factorial_mul_descFactorial (n := ρ) (k := ρ - l) (by omega)
    rwa [show ρ - (ρ - l) = l by omega] at this
  have hmono : ρ.descFactorial (ρ - l) ≤ n.descFactorial (ρ - l) := Nat.descFactorial_le _ hρ
  have hpos : 0 < ρ.factorial := Nat.factorial_pos ρ
  apply Nat.le_of_mul_le_mul_left _ hpos
  calc ρ.factorial * (n - ρ + l).factorial = (n - ρ + l).factorial * (l.factorial * ρ.descFactorial (ρ - l)) := by rw [hd2]; ring
    _ ≤ (n - ρ + l).factorial * (l.factorial * n.descFactorial (ρ - l)) :=
        Nat.mul_le_mul_left _ (Nat.mul_le_mul_left _ hmono)
    _ = l.factorial * n.factorial := by rw [← hd1]; ring
    _ = ρ.factorial * (n.choose ρ * ((n - ρ).factorial * l.factorial)) := by rw [← hch]; ring

/-- Entry of the conversion matrix. -/
def bpEntry (n j k : Nat) : K := if k ≤ j then (-1) ^ (j - k) * (n.choose j : K) * (j.choose k : K) else 0

omit [LinearOrder K] [IsStrictOrderedRing K] in
theorem bpEntry_eq (n j k : Nat) : (bpEntry n j k : K) = (-1) ^ j * (n.choose j : K) * ((-1) ^ k * (j.choose k : K)) := by
  unfold bpEntry
  by_cases h : k ≤ j
  · rw [if_pos h]
    obtain ⟨d, rfl⟩ := Nat.exists_eq_add_of_le h
    rw [Nat.add_sub_cancel_left, pow_add]
    have : ((-1 : K) ^ k) * (-1) ^ k = 1 := by rw [← pow_add, ← two_mul, pow_mul]; simp
    linear_combination (-((-1 : K) ^ d * ((n.choose (k + d) : ℕ) : K) * (((k + d).choose k : ℕ) : K))) * this
  · rw [if_neg h, Nat.choose_eq_zero_of_lt (by omega : j < k)]; simp

/-- Some remaining row has an entry of absolute value at least 1 in the pivot column. -/
theorem bp_pivot {n c : Nat} {σ : Nat → Nat} {t : List (List K)} (hc : c < n + 1) (hI : InvInv (n + 1) (bpEntry n) c t)
    (hP : RowPerm (n + 1) c σ t) : ∃ r, c ≤ r ∧ r < n + 1 ∧ 1 ≤ |tget t r c| := by
  classical
  set R := (range c).image σ with hRdef
  have hRc : R.card = c := by
    rw [hRdef, Finset.card_image_of_injOn, card_range]
    intro a ha b hb h
    simp only [coe_range, Set.mem_Iio] at ha hb
    exact hP.inj a (by omega) b (by omega) h
  -- the largest row that is left
  have hne : ((Ico c (n + 1)).image σ).Nonempty := ⟨σ c, mem_image.2 ⟨c, by simp; omega, rfl⟩⟩
  set ρ := ((Ico c (n + 1)).image σ).max' hne with hρ
  obtain ⟨r, hr, hrρ⟩ := mem_image.1 (Finset.max'_mem _ hne)
  rw [← hρ] at hrρ
  rw [mem_Ico] at hr
  refine ⟨r, hr.1, hr.2, ?_⟩
  have hρn : ρ ≤ n := by have := hP.range r hr.2; omega
  have hsurj : ∀ s, s ≤ n → ∃ j < n + 1, σ j = s := by
    intro s hs
    have himg : (range (n + 1)).image σ = range (n + 1) := by
      apply Finset.eq_of_subset_of_card_le
      · intro x hx
        obtain ⟨j, hj, rfl⟩ := mem_image.1 hx
        exact mem_range.2 (hP.range j (mem_range.1 hj))
      · rw [Finset.card_image_of_injOn]
        intro a ha b hb h
        simp only [coe_range, Set.mem_Iio] at ha hb
        exact hP.inj a ha b hb h
    have : s ∈ (range (n + 1)).image σ := by rw [himg]; exact mem_range.2 (by omega)
    obtain ⟨j, hj, h⟩ := mem_image.1 this
    exact ⟨j, mem_range.1 hj, h⟩
  have hbound := pivot_bound n ρ hρn R (by
    intro s hs
    obtain ⟨j, hj, rfl⟩ := mem_image.1 hs
    have hj := mem_range.1 hj
    refine ⟨by have := hP.range j (by omega); omega, fun he => ?_⟩
    rw [← hrρ] at he
    have := hP.inj j (by omega) r hr.2 he
    omega) (by
    intro s h1 h2
    obtain ⟨j, hj, rfl⟩ := hsurj s h2
    by_cases hjc : j < c
    · exact mem_image.2 ⟨j, mem_range.2 hjc, rfl⟩
    · have : σ j ≤ ρ := Finset.le_max' _ _ (mem_image.2 ⟨j, mem_Ico.2 ⟨by omega, hj⟩, rfl⟩)
      omega)
  rw [hRc] at hbound
  -- the functional
  let U : (Nat → K) → K := fun f => ∑ k ∈ range (n + 1), tget t r (n + 1 + k) * ((-1) ^ k * (n.choose k : K) * f k)
  have hU : ∀ d < n + 1, tget t r d = (-1) ^ d * U fun k => (k.choose d : K) := by
    intro d hd
    rw [hI.prod r hr.2 d hd]
    simp only [U]
    rw [Finset.mul_sum]
    exact Finset.sum_congr rfl fun k _ => by rw [bpEntry_eq]; ring
  have hsq : ∀ d : Nat, ((-1 : K) ^ d) * (-1) ^ d = 1 := fun d => by rw [← pow_add, ← two_mul, pow_mul]; simp
  have hU0 : ∀ d < c, U (fun k => (k.choose d : K)) = 0 := by
    intro d hd
    have h1 := hU d (by omega)
    rw [hI.unit d hd r hr.2, if_neg (by omega)] at h1
    have : U (fun k => (k.choose d : K)) = (-1) ^ d * ((-1) ^ d * U fun k => (k.choose d : K)) := by
      rw [← mul_assoc, hsq, one_mul]
    rw [this, ← h1, mul_zero]
  obtain ⟨a, ha1, ha2⟩ := prod_newton (fun j => (σ j : K)) c
  have hUQ : U (fun k => ∏ j ∈ range c, ((k : K) - σ j)) = (c.factorial : K) * U fun k => (k.choose c : K) := by
    have e1 : U (fun k => ∏ j ∈ range c, ((k : K) - σ j)) = ∑ d ∈ range (c + 1), a d * U fun k => (k.choose d : K) := by
      simp only [U]
      rw [Finset.sum_congr rfl fun k _ => by rw [ha2 k, Finset.mul_sum, Finset.mul_sum]]
      rw [Finset.sum_comm]
      refine Finset.sum_congr rfl fun d _ => ?_
      rw [Finset.mul_sum]
      exact Finset.sum_congr rfl fun k _ => by ring
    rw [e1, Finset.sum_range_succ, ha1, Finset.sum_eq_zero, zero_add]
    intro d hd
    rw [hU0 d (mem_range.1 hd), mul_zero]
  have hUQ2 : U (fun k => ∏ j ∈ range c, ((k : K) - σ j)) =
      (-1) ^ ρ * (n.choose ρ : K) * ∏ j ∈ range c, ((ρ : K) - σ j) := by
    simp only [U]
    rw [Finset.sum_eq_single ρ]
    · rw [← hrρ, hP.one r hr.2 hr.1]; ring
    · intro k hk hkρ
      by_cases hin : ∃ j < c, k = σ j
      · obtain ⟨j, hj, rfl⟩ := hin
        rw [Finset.prod_eq_zero (mem_range.2 hj) (sub_self _)]; ring
      · rw [hP.supp r hr.2 k (mem_range.1 hk) (fun j hj he => hin ⟨j, hj, he⟩) fun _ he => hkρ (by rw [he, hrρ])]; ring
    · intro h; exact absurd (mem_range.2 (by omega)) h
  have habs : (c.factorial : K) * |tget t r c| = (n.choose ρ : K) * ∏ j ∈ range c, |(ρ : K) - σ j| := by
    rw [hU c hc, abs_mul, abs_pow, abs_neg, abs_one, one_pow, one_mul]
    have h1 : |(c.factorial : K) * U fun k => (k.choose c : K)| = (c.factorial : K) * |U fun k => (k.choose c : K)| := by
      rw [abs_mul, Nat.abs_cast]
    rw [← h1, ← hUQ, hUQ2, abs_mul, abs_mul, abs_pow, abs_neg, abs_one, one_pow, one_mul, Nat.abs_cast, Finset.abs_prod]
  have hprod : ((∏ s ∈ R, (max ρ s - min ρ s) : Nat) : K) = ∏ j ∈ range c, |(ρ : K) - σ j| := by
    rw [hRdef, Finset.prod_image, Nat.cast_prod]
    · refine Finset.prod_congr rfl fun j _ => ?_
      rcases le_total ρ (σ j) with h | h
      · rw [max_eq_right h, min_eq_left h, Nat.cast_sub h, abs_sub_comm, abs_of_nonneg]
        rw [sub_nonneg]; exact_mod_cast h
      · rw [max_eq_left h, min_eq_right h, Nat.cast_sub h, abs_of_nonneg]
        rw [sub_nonneg]; exact_mod_cast h
    · intro x hx y hy h
      simp only [coe_range, Set.mem_Iio] at hx hy
      exact hP.inj x (by omega) y (by omega) h
  have hb : (c.factorial : K) ≤ (c.factorial : K) * |tget t r c| := by
    rw [habs, ← hprod]
    exact_mod_cast hbound
  have hf : (0 : K) < c.factorial := by exact_mod_cast Nat.factorial_pos c
  exact le_of_mul_le_mul_left (by rw [mul_one]; exact hb) hf

end Cmm.Mat
