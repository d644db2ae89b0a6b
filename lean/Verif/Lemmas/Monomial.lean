import Verif.Lemmas.MatrixPivot
import Verif.Lemmas.SurfaceOps
import Verif.Props.Matrix
import Verif.Spec.Monomial
/-! Lemmas about the monomial form. -/
namespace Cmm.Mono
open Finset Cmm.Mat Cmm.Nurbs
variable {K : Type} [Field K]

/-! ### The table and the conversion matrix -/

theorem table_choose : ∀ n < 31, ∀ k < 31, (binomCoeffs.getD n []).getD k 0 = (n.choose k : Int) := by decide +kernel

theorem binomial_ok {n k : Nat} (hn : n < 31) (hk : k < 31) : binomialCoefficient n k = .ok (n.choose k : Int) := by
  unfold binomialCoefficient
  rw [if_neg (by omega)]
  simp only [Int.toNat_natCast]
  rw [table_choose n hn k hk]

theorem binomD_ok {n k : Nat} (hn : n < 31) (hk : k < 31) : (binomD n k : Res K) = .ok (n.choose k : K) := by
  unfold binomD
  rw [binomial_ok hn hk, Res.ok_bind]
  simp

theorem bpRow_ok {n j : Nat} (hn : n < 31) (hj : j < 31) : ∀ len k, k + len ≤ 31 →
    (bpRow n j len k : Res (List K)) = .ok ((List.range' k len).map fun k => bpEntry n j k) := by
  intro len
  induction len with
  | zero => intro k _; rfl
  | succ len ih =>
    intro k hk
    rw [bpRow, List.range'_succ, List.map_cons]
    by_cases h : k ≤ j
    · rw [if_pos h, binomD_ok hn hj, Res.ok_bind, binomD_ok hj (by omega), Res.ok_bind, ih (k + 1) (by omega), Res.ok_bind]
      rw [bpEntry, if_pos h]
    · rw [if_neg h, ih (k + 1) (by omega), Res.ok_bind, bpEntry, if_neg h]

theorem bpmat_ok {N : Nat} (hN : N ≤ 31) : (bpmat N : Res (MatrixD K)) = .ok (MatrixD.fill N N (bpEntry (N - 1))) := by
  unfold bpmat
  rw [mapRes_ok (g := fun j => (List.range' 0 N).map fun k => bpEntry (N - 1) j k)]
  · rw [Res.ok_bind, MatrixD.fill, List.flatMap_def, List.range_eq_range']
  · intro j hj
    rw [List.mem_range] at hj
    exact bpRow_ok (by omega) (by omega) N 0 (by omega)

theorem bpmat_ub {N : Nat} (hN : 31 < N) : (bpmat N : Res (MatrixD K)) = .ub := by
  unfold bpmat
  obtain ⟨M, rfl⟩ : ∃ M, N = M + 1 := ⟨N - 1, by omega⟩
  rw [List.range_succ_eq_map, mapRes, bpRow, if_pos (le_refl _)]
  have : (binomD (M + 1 - 1) 0 : Res K) = .ub := by
    unfold binomD binomialCoefficient
    rw [if_pos (by omega)]
    rfl
  rw [this]
  rfl

variable [LinearOrder K] [IsStrictOrderedRing K]

theorem bp_inverse (N : Nat) : ∃ p B, (MatrixD.fill N N (bpEntry (N - 1) : Nat → Nat → K)).inverse = .ok p ∧
    Represents p N N B ∧
    (∀ i < N, ∀ j < N, ∑ k ∈ range N, bpEntry (N - 1) i k * B k j = if i = j then 1 else 0) ∧
    (∀ i < N, ∀ j < N, ∑ k ∈ range N, B i k * bpEntry (N - 1) k j = if i = j then 1 else 0) := by
  have hm := fill_represents N N (bpEntry (N - 1) : Nat → Nat → K)
  rcases C36_inverse _ N _ hm with h | ⟨hthrow, _⟩
  · exact h
  exfalso
  rcases Nat.eq_zero_or_pos N with h0 | hpos
  · subst h0
    simp [MatrixD.inverse, MatrixD.fill, MatrixD.covered] at hthrow
  obtain ⟨n, rfl⟩ : ∃ n, N = n + 1 := ⟨N - 1, by omega⟩
  rw [Nat.add_sub_cancel] at hthrow hm
  set m := MatrixD.fill (n + 1) (n + 1) (bpEntry n : Nat → Nat → K) with hmd
  have hsq : m.rows = m.cols := rfl
  have hI : InvInv (n + 1) m.get 0 (augment m) := augment_inv m hsq
  have hP : RowPerm (n + 1) 0 id (augment m) := augment_perm m hsq
  have hloop := invLoop_perm (n + 1) 0 id (augment m) (by omega) hI hP
  unfold MatrixD.inverse at hthrow
  rw [if_neg (by simp [hsq]), if_neg (by simp [hm.covered]), hm.2.1, hm.1, List.range_eq_range'] at hthrow
  rcases hloop with ⟨t, h1, _⟩ | ⟨_, j, σ, t, hj, h2, h3, h4⟩
  · rw [h1] at hthrow; cases hthrow
  · have h2' : InvInv (n + 1) (bpEntry n) j t := by
      refine ⟨fun r hr c hc => ?_, h2.unit, h2.back⟩
      rw [h2.prod r hr c hc]
      exact Finset.sum_congr rfl fun k hk => by rw [hm.2.2.2 k (mem_range.1 hk) c hc]
    obtain ⟨r, hr1, hr2, hr3⟩ := bp_pivot hj h2' h3
    have := h4 r hr1 hr2
    have htol : (pivotTol : K) < 1 := by
      unfold pivotTol
      rw [div_lt_one (by positivity)]
      exact one_lt_pow₀ (by norm_num) (by norm_num)
    linarith

omit [LinearOrder K] [IsStrictOrderedRing K] in
/-- The columns of the conversion matrix are the Bernstein polynomials. -/
theorem bpEntry_bernstein {n k : Nat} (hk : k ≤ n) (t : K) :
    ∑ i ∈ range (n + 1), bpEntry n i k * t ^ i = bernstein n k t := by
  obtain ⟨d, rfl⟩ := Nat.exists_eq_add_of_le hk
  rw [show k + d + 1 = k + (d + 1) by omega, Finset.sum_range_add, Finset.sum_eq_zero, zero_add]
  · unfold bernstein
    rw [Nat.add_sub_cancel_left, show (1 - t) = -t + 1 by ring, add_pow, Finset.mul_sum]
    refine Finset.sum_congr rfl fun i hi => ?_
    have hi := mem_range.1 hi
    unfold bpEntry
    rw [if_pos (by omega), Nat.add_sub_cancel_left]
    have hch : ((k + d).choose (k + i)) * ((k + i).choose k) = (k + d).choose k * d.choose i := by
      have := Nat.choose_mul (n := k + d) (k := k + i) (s := k) (by omega)
      rw [Nat.add_sub_cancel_left, Nat.add_sub_cancel_left] at this
      exact this
    have hch' : ((k + d).choose (k + i) : K) * ((k + i).choose k : K) = ((k + d).choose k : K) * (d.choose i : K) := by
      exact_mod_cast congrArg (Nat.cast (R := K)) hch
    rw [one_pow, mul_one, neg_pow t i, pow_add]
    linear_combination ((-1) ^ i * t ^ k * t ^ i) * hch'
  · intro i hi
    have hi := mem_range.1 hi
    unfold bpEntry
    rw [if_neg (by omega), zero_mul]

/-! ### Products of three matrices -/

omit [LinearOrder K] [IsStrictOrderedRing K] in
theorem getComponent_ok {t : Tensor K} {n m : Nat} (ht : Rect t n m) (hn : 0 < n) (c : Nat) :
    ∃ M, getComponent t c = .ok M ∧ Represents M n m fun i j => (tcell t i j).coord c := by
  obtain ⟨h1, h2⟩ := ht
  cases t with
  | nil => simp at h1; omega
  | cons r0 rest =>
    unfold getComponent
    have hr0 : r0.length = m := h2 r0 (by simp)
    have hall : ((r0 :: rest).all fun r => decide (r.length = r0.length)) = true := by
      simp only [List.all_eq_true, decide_eq_true_eq]; intro r hr; rw [h2 r hr, hr0]
    simp only [if_pos hall]
    refine ⟨_, rfl, h1, hr0, ?_, fun i hi j hj => ?_⟩
    · simp only [List.length_flatMap, List.length_map]
      rw [List.map_congr_left (g := fun _ => m) (fun r hr => h2 r hr), List.map_const', List.sum_replicate, h1, smul_eq_mul]
    · have key : ∀ (l : List (List (Vec3 K))), (∀ r ∈ l, r.length = m) → ∀ i j, i < l.length → j < m →
          (l.flatMap fun r => r.map fun p => p.coord c).getD (i * m + j) 0 = (tcell l i j).coord c := by
        intro l
        induction l with
        | nil => intro _ i j hi; simp at hi
        | cons r l ih =>
          intro hl i j hi hj
          have hr : r.length = m := hl r (by simp)
          rw [List.flatMap_cons, List.getD_eq_getElem?_getD]
          cases i with
          | zero =>
            rw [List.getElem?_append_left (by simp [hr, hj])]
            simp [tcell, hr, hj]
          | succ i =>
            have e : (i + 1) * m + j - (r.map fun p => p.coord c).length = i * m + j := by
              rw [List.length_map, hr, Nat.add_mul]; omega
            rw [List.getElem?_append_right (by rw [List.length_map, hr, Nat.add_mul]; omega), e, ← List.getD_eq_getElem?_getD,
              ih (fun r hr => hl r (by simp [hr])) i j (by simpa using hi) hj]
            rfl
      have := key (r0 :: rest) h2 i j (by omega) hj
      simp only [MatrixD.get, hr0]
      exact this

omit [LinearOrder K] [IsStrictOrderedRing K] in
theorem sandwich_ok {A B : MatrixD K} {t : Tensor K} {n m : Nat} {a b : Nat → Nat → K} (hA : Represents A n n a)
    (hB : Represents B m m b) (ht : Rect t n m) (hn : 0 < n) :
    ∃ x y z, sandwich A t B = .ok (x, y, z) ∧
      Represents x n m (fun i j => ∑ l ∈ range m, (∑ k ∈ range n, a i k * (tcell t k l).x) * b l j) ∧
      Represents y n m (fun i j => ∑ l ∈ range m, (∑ k ∈ range n, a i k * (tcell t k l).y) * b l j) ∧
      Represents z n m (fun i j => ∑ l ∈ range m, (∑ k ∈ range n, a i k * (tcell t k l).z) * b l j) := by
  have one : ∀ c, ∃ M, (do
      let cfs ← getComponent t c
      let l ← A.mul cfs
      l.mul B) = .ok M ∧
      Represents M n m (fun i j => ∑ l ∈ range m, (∑ k ∈ range n, a i k * (tcell t k l).coord c) * b l j) := by
    intro c
    obtain ⟨M, h1, h2⟩ := getComponent_ok ht hn c
    obtain ⟨M2, h3, h4⟩ := C36_mul A M n n m _ _ hA h2
    obtain ⟨M3, h5, h6⟩ := C36_mul M2 B n m m _ _ h4 hB
    exact ⟨M3, by rw [h1, Res.ok_bind, h3, Res.ok_bind, h5], h6⟩
  obtain ⟨x, hx, hx'⟩ := one 0
  obtain ⟨y, hy, hy'⟩ := one 1
  obtain ⟨z, hz, hz'⟩ := one 2
  refine ⟨x, y, z, ?_, hx', hy', hz'⟩
  unfold sandwich
  simp only [hx, hy, hz, Res.ok_bind]

omit [LinearOrder K] [IsStrictOrderedRing K] in
theorem tcell_setComponents {n m i j : Nat} (x y z : MatrixD K) (hi : i < n) (hj : j < m) :
    tcell (setComponents n m x y z) i j = ⟨x.get i j, y.get i j, z.get i j⟩ := by
  simp [tcell, setComponents, hi, hj]

omit [LinearOrder K] [IsStrictOrderedRing K] in
theorem setComponents_rect (n m : Nat) (x y z : MatrixD K) : Rect (setComponents n m x y z) n m := by
  refine ⟨by simp [setComponents], fun r hr => ?_⟩
  simp only [setComponents, List.mem_map] at hr
  obtain ⟨i, _, rfl⟩ := hr
  simp

omit [LinearOrder K] [IsStrictOrderedRing K] in
theorem monoValue_rect (φ : Vec3 K → K) {t : Tensor K} {n m : Nat} (ht : Rect t n m) (u v : K) :
    monoValue φ t u v = ∑ i ∈ range n, ∑ j ∈ range m, φ (tcell t i j) * u ^ i * v ^ j := by
  unfold monoValue
  rw [ht.1]
  refine Finset.sum_congr rfl fun i hi => ?_
  have hi' : i < t.length := by rw [ht.1]; exact mem_range.1 hi
  have : (t.getD i []).length = m := by
    rw [List.getD_eq_getElem?_getD, List.getElem?_eq_getElem hi']
    exact ht.2 _ (List.getElem_mem hi')
  rw [this]

omit [LinearOrder K] [IsStrictOrderedRing K] in
/-- A double sum with coefficients `A P Bᵀ`. -/
theorem sum_sandwich (n m : Nat) (A B P : Nat → Nat → K) (f g : Nat → K) :
    ∑ i ∈ range n, ∑ j ∈ range m, (∑ l ∈ range m, (∑ k ∈ range n, A i k * P k l) * B j l) * f i * g j =
      ∑ k ∈ range n, ∑ l ∈ range m, (∑ i ∈ range n, A i k * f i) * (∑ j ∈ range m, B j l * g j) * P k l := by
  have e1 : ∀ i j, (∑ l ∈ range m, (∑ k ∈ range n, A i k * P k l) * B j l) * f i * g j =
      ∑ l ∈ range m, ∑ k ∈ range n, (A i k * f i) * (B j l * g j) * P k l := by
    intro i j
    rw [Finset.sum_mul, Finset.sum_mul]
    refine Finset.sum_congr rfl fun l _ => ?_
    rw [Finset.sum_mul, Finset.sum_mul, Finset.sum_mul]
    exact Finset.sum_congr rfl fun k _ => by ring
  have e2 : ∀ k l, (∑ i ∈ range n, A i k * f i) * (∑ j ∈ range m, B j l * g j) * P k l =
      ∑ i ∈ range n, ∑ j ∈ range m, (A i k * f i) * (B j l * g j) * P k l := by
    intro k l
    rw [Finset.sum_mul_sum, Finset.sum_mul]
    exact Finset.sum_congr rfl fun i _ => by rw [Finset.sum_mul]
  simp only [e1, e2]
  -- reorder the four sums
  calc ∑ i ∈ range n, ∑ j ∈ range m, ∑ l ∈ range m, ∑ k ∈ range n, (A i k * f i) * (B j l * g j) * P k l
      = ∑ i ∈ range n, ∑ k ∈ range n, ∑ l ∈ range m, ∑ j ∈ range m, (A i k * f i) * (B j l * g j) * P k l := by
        refine Finset.sum_congr rfl fun i _ => ?_
        rw [Finset.sum_comm, Finset.sum_comm (s := range n)]
        exact Finset.sum_congr rfl fun l _ => Finset.sum_comm
    _ = ∑ k ∈ range n, ∑ i ∈ range n, ∑ l ∈ range m, ∑ j ∈ range m, (A i k * f i) * (B j l * g j) * P k l :=
        Finset.sum_comm
    _ = ∑ k ∈ range n, ∑ l ∈ range m, ∑ i ∈ range n, ∑ j ∈ range m, (A i k * f i) * (B j l * g j) * P k l := by
        refine Finset.sum_congr rfl fun k _ => ?_
        rw [Finset.sum_comm]

omit [LinearOrder K] [IsStrictOrderedRing K] in
theorem sum_delta {n : Nat} {i : Nat} (hi : i < n) (g : Nat → K) :
    ∑ k ∈ range n, (if i = k then 1 else 0) * g k = g i := by
  rw [Finset.sum_eq_single i]
  · simp
  · intro k _ hk; rw [if_neg (Ne.symm hk), zero_mul]
  · intro h; exact absurd (mem_range.2 hi) h

omit [LinearOrder K] [IsStrictOrderedRing K] in
/-- Inverses on both sides undo the conversion. -/
theorem sandwich_cancel (n m : Nat) (A B A' B' P : Nat → Nat → K)
    (hA : ∀ i < n, ∀ j < n, ∑ k ∈ range n, A' i k * A k j = if i = j then 1 else 0)
    (hB : ∀ i < m, ∀ j < m, ∑ k ∈ range m, B' i k * B k j = if i = j then 1 else 0) {i j : Nat} (hi : i < n) (hj : j < m) :
    ∑ l ∈ range m, (∑ k ∈ range n, A' i k * ∑ l' ∈ range m, (∑ k' ∈ range n, A k k' * P k' l') * B l l') * B' j l = P i j := by
  have e : ∑ l ∈ range m, (∑ k ∈ range n, A' i k * ∑ l' ∈ range m, (∑ k' ∈ range n, A k k' * P k' l') * B l l') * B' j l =
      ∑ k ∈ range n, ∑ l ∈ range m, (∑ l' ∈ range m, (∑ k' ∈ range n, A k k' * P k' l') * B l l') * A' i k * B' j l := by
    rw [Finset.sum_comm]
    refine Finset.sum_congr rfl fun l _ => ?_
    rw [Finset.sum_mul]
    exact Finset.sum_congr rfl fun k _ => by ring
  rw [e, sum_sandwich]
  have e1 : ∀ k ∈ range n, ∑ i' ∈ range n, A i' k * A' i i' = if i = k then 1 else 0 := fun k hk => by
    rw [← hA i hi k (mem_range.1 hk)]; exact Finset.sum_congr rfl fun _ _ => mul_comm _ _
  have e2 : ∀ l ∈ range m, ∑ j' ∈ range m, B j' l * B' j j' = if j = l then 1 else 0 := fun l hl => by
    rw [← hB j hj l (mem_range.1 hl)]; exact Finset.sum_congr rfl fun _ _ => mul_comm _ _
  rw [Finset.sum_congr rfl fun k hk => Finset.sum_congr rfl fun l hl => by rw [e1 k hk, e2 l hl]]
  rw [Finset.sum_congr rfl fun k _ => by
    rw [Finset.sum_congr rfl fun l _ => by rw [mul_assoc], ← Finset.mul_sum, sum_delta hj]]
  exact sum_delta hi fun k => P k j

/-! ### Bezier knots -/

omit [LinearOrder K] [IsStrictOrderedRing K] in
theorem piece_bezier {U : Nat → K} {p : Nat} (h0 : ∀ a ≤ p, U a = 0) (h1 : ∀ a, p < a → a ≤ 2 * p + 1 → U a = 1) (t : K) :
    ∀ q ≤ p, ∀ r ≤ q, coxDeBoorPiece U p q (p - q + r) t = bernstein q r t := by
  intro q
  induction q with
  | zero =>
    intro _ r hr
    obtain rfl : r = 0 := by omega
    simp [coxDeBoorPiece, bernstein]
  | succ q ih =>
    intro hq r hr
    rw [coxDeBoorPiece]
    have e1 : p - (q + 1) + r + 1 = p - q + r := by omega
    have e2 : p - (q + 1) + r + q + 1 = p + r := by omega
    have e3 : p - (q + 1) + r + q + 2 = p + r + 1 := by omega
    rw [e1, e2, e3, h1 (p + r + 1) (by omega) (by omega), h0 (p - (q + 1) + r) (by omega)]
    cases r with
    | zero =>
      rw [piece_zero U p q (p - (q + 1) + 0) t (by omega), h0 (p - q + 0) (by omega), ih (by omega) 0 (by omega)]
      simp [bernstein, pow_succ]; ring
    | succ r =>
      rw [show p - (q + 1) + (r + 1) = p - q + r by omega, ih (by omega) r (by omega), h1 (p + (r + 1)) (by omega) (by omega)]
      by_cases hrq : r = q
      · subst hrq
        rw [piece_zero U p r (p - r + (r + 1)) t (by omega)]
        simp [bernstein, pow_succ]; ring
      · rw [ih (by omega) (r + 1) (by omega), h0 (p - q + (r + 1)) (by omega)]
        unfold bernstein
        rw [show q + 1 - (r + 1) = (q - (r + 1)) + 1 by omega, show q - r = (q - (r + 1)) + 1 by omega, Nat.choose_succ_succ]
        push_cast
        rw [pow_succ t r, pow_succ (1 - t)]
        ring

omit [LinearOrder K] [IsStrictOrderedRing K] in
theorem dotL_seg (f g : Nat → K) : ∀ n a k, dotL (seg f a n) g k = ∑ r ∈ range n, f (a + r) * g (k + r) := by
  intro n
  induction n with
  | zero => intro a k; simp [dotL]
  | succ n ih =>
    intro a k
    rw [seg_succ, dotL, ih, Finset.sum_range_succ']
    rw [add_comm]
    simp only [Nat.add_zero]
    congr 1
    exact Finset.sum_congr rfl fun r _ => by
      rw [show a + 1 + r = a + (r + 1) by omega, show k + 1 + r = k + (r + 1) by omega]

omit [LinearOrder K] [IsStrictOrderedRing K] in
theorem splineVal_bezier {U : Nat → K} {p : Nat} (h0 : ∀ a ≤ p, U a = 0) (h1 : ∀ a, p < a → a ≤ 2 * p + 1 → U a = 1)
    (P : Nat → K) (t : K) : splineVal U p P p t = ∑ i ∈ range (p + 1), bernstein p i t * P i := by
  rw [splineVal, basisFuns_eq_piece U p t p (le_refl _), dotL_seg]
  refine Finset.sum_congr rfl fun r hr => ?_
  have := piece_bezier h0 h1 t p (le_refl _) r (by have := mem_range.1 hr; omega)
  rw [zero_add, this, Nat.sub_self, zero_add]

end Cmm.Mono
