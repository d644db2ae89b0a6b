import Verif.Lemmas.CurveEval
/-! Splitting a spline, on numbers: the two knot vectors and the values of the two halves. -/
namespace Cmm.Nurbs
variable {K : Type} [Field K] [LinearOrder K] [IsStrictOrderedRing K]

/-- What is known about the span `k` and the multiplicity `s` of the split parameter. -/
structure SplitAt (n p : Nat) (U : List K) (u : K) (k s : Nat) : Prop where
  hpk : p ≤ k
  hkn : k < n
  h1 : ix U k ≤ u
  h2 : u < ix U (k + 1)
  hm : ∀ a, k < a + s → a ≤ k → ix U a = u
  hlt : ∀ a, a + s ≤ k → ix U a < u
  hsp : s ≤ p
  hps : p + s ≤ k

theorem ix_kv1 {n p : Nat} {U : List K} (V : ValidKnots n p U) {u : K} {k s : Nat} (S : SplitAt n p U u k s) (x : Nat)
    (hx : x ≤ k + (p - s) + 1) :
    ix ((knotInsertionKv U u k (p - s)).take (k + (p - s) + 1) ++ [u]) x = if x ≤ k then ix U x else u := by
  have hlen := V.len
  have := S.hkn
  have hL : (knotInsertionKv U u k (p - s)).length = n + (p - s) + p + 1 := by
    rw [knotInsertionKv_eq _ _ _ _ (by omega)]; simp; omega
  have hl : ((knotInsertionKv U u k (p - s)).take (k + (p - s) + 1)).length = k + (p - s) + 1 := by
    rw [List.length_take, hL]; omega
  by_cases c : x < k + (p - s) + 1
  · rw [ix_append_left (by omega), ix_take c, ix_insKnots (by omega), insKnots]
    by_cases c' : x ≤ k
    · rw [if_pos c', if_pos c']
    · rw [if_neg c', if_neg c', if_pos (by omega)]
  · obtain rfl : x = k + (p - s) + 1 := by omega
    rw [ix_append_right (by omega), hl, Nat.sub_self, if_neg (by omega)]; rfl

theorem kv1_length {n p : Nat} {U : List K} (V : ValidKnots n p U) {u : K} {k s : Nat} (S : SplitAt n p U u k s) :
    ((knotInsertionKv U u k (p - s)).take (k + (p - s) + 1) ++ [u]).length = k - s + 1 + p + 1 := by
  have hlen := V.len
  have := S.hkn
  have := S.hps
  have := S.hsp
  rw [List.length_append, List.length_take, knotInsertionKv_eq _ _ _ _ (by omega)]; simp; omega

theorem kv1_valid {n p : Nat} {U : List K} (V : ValidKnots n p U) {u : K} {k s : Nat} (S : SplitAt n p U u k s) :
    ValidKnots (k - s + 1) p ((knotInsertionKv U u k (p - s)).take (k + (p - s) + 1) ++ [u]) ∧
    ix ((knotInsertionKv U u k (p - s)).take (k + (p - s) + 1) ++ [u]) p = ix U p ∧
    ix ((knotInsertionKv U u k (p - s)).take (k + (p - s) + 1) ++ [u]) (k - s + 1) = u := by
  obtain ⟨hpk, hkn, h1, h2, hm, hlt, hsp, hps⟩ := S
  have S : SplitAt n p U u k s := ⟨hpk, hkn, h1, h2, hm, hlt, hsp, hps⟩
  have hlen := V.len
  have hmid : ix ((knotInsertionKv U u k (p - s)).take (k + (p - s) + 1) ++ [u]) (k - s + 1) = u := by
    rw [ix_kv1 V S _ (by omega)]
    by_cases c : k - s + 1 ≤ k
    · rw [if_pos c]; exact hm _ (by omega) c
    · rw [if_neg c]
  refine ⟨⟨V.deg_pos, V.deg_le, by omega, kv1_length V S, ?_, ?_⟩, ?_, hmid⟩
  · unfold SortedKnots
    rw [List.pairwise_iff_getElem]
    intro a b ha hb hab
    rw [kv1_length V S] at hb
    rw [← ix_eq_getElem, ← ix_eq_getElem, ix_kv1 V S _ (by omega), ix_kv1 V S _ (by omega)]
    by_cases ca : a ≤ k
    · rw [if_pos ca]
      by_cases cb : b ≤ k
      · rw [if_pos cb]; exact V.mono a b (by omega) (by omega)
      · rw [if_neg cb]; exact le_trans (V.mono a k ca (by omega)) h1
    · rw [if_neg ca, if_neg (by omega)]
  · rw [hmid, ix_kv1 V S _ (by omega), if_pos (by omega)]
    exact hlt _ (by omega)
  · rw [ix_kv1 V S _ (by omega), if_pos hpk]

theorem ix_kv2 {n p : Nat} {U : List K} (V : ValidKnots n p U) {u : K} {k s : Nat} (S : SplitAt n p U u k s) (x : Nat) :
    ix (List.replicate (p + 1) u ++ (knotInsertionKv U u k (p - s)).drop (k + (p - s) + 1)) x =
      if x ≤ p then u else ix U (x + k - p) := by
  have hlen := V.len
  obtain ⟨hpk, hkn, h1, h2, hm, hlt, hsp, hps⟩ := S
  by_cases c : x ≤ p
  · rw [ix_append_left (by simp; omega), ix_replicate _ (by omega), if_pos c]
  · rw [ix_append_right (by simp; omega), ix_drop, ix_insKnots (by omega), insKnots, List.length_replicate,
      if_neg (by omega), if_neg (by omega), if_neg c]
    congr 1; omega

theorem kv2_length {n p : Nat} {U : List K} (V : ValidKnots n p U) {u : K} {k s : Nat} (S : SplitAt n p U u k s) :
    (List.replicate (p + 1) u ++ (knotInsertionKv U u k (p - s)).drop (k + (p - s) + 1)).length = n + p - k + p + 1 := by
  have hlen := V.len
  obtain ⟨hpk, hkn, h1, h2, hm, hlt, hsp, hps⟩ := S
  rw [List.length_append, List.length_drop, knotInsertionKv_eq _ _ _ _ (by omega)]; simp; omega

theorem kv2_valid {n p : Nat} {U : List K} (V : ValidKnots n p U) {u : K} {k s : Nat} (S : SplitAt n p U u k s) :
    ValidKnots (n + p - k) p (List.replicate (p + 1) u ++ (knotInsertionKv U u k (p - s)).drop (k + (p - s) + 1)) ∧
    ix (List.replicate (p + 1) u ++ (knotInsertionKv U u k (p - s)).drop (k + (p - s) + 1)) p = u ∧
    ix (List.replicate (p + 1) u ++ (knotInsertionKv U u k (p - s)).drop (k + (p - s) + 1)) (n + p - k) = ix U n := by
  obtain ⟨hpk, hkn, h1, h2, hm, hlt, hsp, hps⟩ := S
  have S : SplitAt n p U u k s := ⟨hpk, hkn, h1, h2, hm, hlt, hsp, hps⟩
  have hlen := V.len
  have hend : ix (List.replicate (p + 1) u ++ (knotInsertionKv U u k (p - s)).drop (k + (p - s) + 1)) (n + p - k) =
      ix U n := by
    rw [ix_kv2 V S, if_neg (by omega)]; congr 1; omega
  refine ⟨⟨V.deg_pos, V.deg_le, by omega, kv2_length V S, ?_, ?_⟩, ?_, hend⟩
  · unfold SortedKnots
    rw [List.pairwise_iff_getElem]
    intro a b ha hb hab
    rw [kv2_length V S] at hb
    rw [← ix_eq_getElem, ← ix_eq_getElem, ix_kv2 V S, ix_kv2 V S]
    by_cases ca : a ≤ p
    · rw [if_pos ca]
      by_cases cb : b ≤ p
      · rw [if_pos cb]
      · rw [if_neg cb]; exact le_trans (le_of_lt h2) (V.mono _ _ (by omega) (by omega))
    · rw [if_neg ca, if_neg (by omega)]; exact V.mono _ _ (by omega) (by omega)
  · rw [hend, ix_kv2 V S]
    by_cases c : n + p - k - 1 ≤ p
    · rw [if_pos c]
      have : k + 1 = n := by omega
      rw [this] at h2; exact h2
    · rw [if_neg c]
      have : n + p - k - 1 + k - p = n - 1 := by omega
      rw [this]; exact V.last_span
  · rw [ix_kv2 V S, if_pos (le_refl _)]

/-- The left half evaluates to the original on its domain. -/
theorem split_left {n p : Nat} {U : List K} (V : ValidKnots n p U) {u t : K} {k s : Nat} (S : SplitAt n p U u k s)
    {P init Q : Nat → K} (hQ : ∀ x < k - s + 1, Q x = insArray lerp1 p (ix U) P u (p - s) s k init x)
    (ht1 : ix U p ≤ t) (ht2 : t ≤ u) :
    splineVal (ix ((knotInsertionKv U u k (p - s)).take (k + (p - s) + 1) ++ [u])) p Q
      (findSpan (k - s + 1 - 1) p t (ix ((knotInsertionKv U u k (p - s)).take (k + (p - s) + 1) ++ [u]))) t =
    splineVal (ix U) p P (findSpan (n - 1) p t (ix U)) t := by
  obtain ⟨hpk, hkn, h1, h2, hm, hlt, hsp, hps⟩ := S
  have S : SplitAt n p U u k s := ⟨hpk, hkn, h1, h2, hm, hlt, hsp, hps⟩
  have hlen := V.len
  have hun : u ≤ ix U n := le_trans (le_of_lt h2) (V.mono _ _ (by omega) (by omega))
  have ht3 := le_trans ht2 hun
  rw [← V.insert_eval (init := init) (P := P) (num := p - s) hpk hkn h1 h2 hm (by omega) ht1 ht3]
  obtain ⟨i, hi, a1, a2, a3, a4, a5, a6, a7⟩ := V.span ht1 ht3
  rcases V.insert_span (p - s) hpk hkn h1 h2 hm ht1 ht3 hi with ⟨hc0, hc, he⟩ | ⟨hc0, hc, he⟩
  · rw [he]
    have hsp1 : findSpan (k - s + 1 - 1) p t
        (ix ((knotInsertionKv U u k (p - s)).take (k + (p - s) + 1) ++ [u])) = i := by
      apply findSpan_eq a1 (by omega)
      · intro j hj hji
        rw [ix_kv1 V S _ (by omega), if_pos (by omega)]
        exact le_trans (V.mono j i hji (by omega)) a3
      · intro hlt'
        rw [ix_kv1 V S _ (by omega), if_pos (by omega)]
        rcases a6 with h | h
        · omega
        · exact h
    rw [hsp1]
    apply splineVal_shift (d := 0) t a1
    · intro x hx hx'
      rw [ix_kv1 V S _ (by omega), ix_insKnots (by omega), insKnots]
      by_cases c : x ≤ k
      · rw [if_pos c, if_pos (by omega)]; rfl
      · rw [if_neg c, if_neg (by omega), if_pos (by omega)]
    · intro x hx _
      exact hQ x (by omega)
  · obtain rfl : t = u := le_antisymm ht2 hc0
    have hik : i = k := by
      by_contra hne
      have := V.mono (k + 1) i (by omega) (by omega)
      exact absurd (lt_of_lt_of_le h2 (le_trans this a3)) (lt_irrefl _)
    subst hik
    rw [he]
    have hsp1 : findSpan (i - s + 1 - 1) p t
        (ix ((knotInsertionKv U t i (p - s)).take (i + (p - s) + 1) ++ [t])) = i - s := by
      apply findSpan_eq (by omega) (by omega)
      · intro j hj hji
        rw [ix_kv1 V S _ (by omega), if_pos (by omega)]
        exact le_of_lt (hlt j (by omega))
      · intro hlt'
        omega
    rw [hsp1, splineVal_end (by omega), hQ _ (by omega), splineVal_start (by omega)]
    · congr 1; omega
    · intro a ha ha'
      rw [ix_insKnots (by omega), insKnots]
      by_cases c : a ≤ i
      · rw [if_pos c]; exact hm a (by omega) c
      · rw [if_neg c, if_pos ha']
    · rw [ix_insKnots (by omega), insKnots, if_neg (by omega), if_neg (by omega)]
      have : i + (p - s) + 1 - (p - s) = i + 1 := by omega
      rw [this]; exact ne_of_gt h2
    · intro a ha ha'
      rw [ix_kv1 V S _ (by omega)]
      by_cases c : a ≤ i
      · rw [if_pos c]; exact hm a (by omega) c
      · rw [if_neg c]
    · rw [ix_kv1 V S _ (by omega), if_pos (by omega)]
      exact ne_of_lt (hlt _ (by omega))

/-- The right half evaluates to the original on its domain. -/
theorem split_right {n p : Nat} {U : List K} (V : ValidKnots n p U) {u t : K} {k s : Nat} (S : SplitAt n p U u k s)
    {P init Q : Nat → K} (hQ : ∀ x < n + p - k, Q x = insArray lerp1 p (ix U) P u (p - s) s k init (x + (k - s)))
    (ht1 : u ≤ t) (ht2 : t ≤ ix U n) :
    splineVal (ix (List.replicate (p + 1) u ++ (knotInsertionKv U u k (p - s)).drop (k + (p - s) + 1))) p Q
      (findSpan (n + p - k - 1) p t
        (ix (List.replicate (p + 1) u ++ (knotInsertionKv U u k (p - s)).drop (k + (p - s) + 1)))) t =
    splineVal (ix U) p P (findSpan (n - 1) p t (ix U)) t := by
  obtain ⟨hpk, hkn, h1, h2, hm, hlt, hsp, hps⟩ := S
  have S : SplitAt n p U u k s := ⟨hpk, hkn, h1, h2, hm, hlt, hsp, hps⟩
  have hlen := V.len
  have ht3 : ix U p ≤ t := le_trans (le_trans (V.mono p k hpk (by omega)) h1) ht1
  rw [← V.insert_eval (init := init) (P := P) (num := p - s) hpk hkn h1 h2 hm (by omega) ht3 ht2]
  obtain ⟨i, hi, a1, a2, a3, a4, a5, a6, a7⟩ := V.span ht3 ht2
  rcases V.insert_span (p - s) hpk hkn h1 h2 hm ht3 ht2 hi with ⟨hc0, hc, he⟩ | ⟨hc0, hc, he⟩
  · exact absurd hc0 (not_lt.mpr ht1)
  · rw [he]
    have hsp2 : findSpan (n + p - k - 1) p t
        (ix (List.replicate (p + 1) u ++ (knotInsertionKv U u k (p - s)).drop (k + (p - s) + 1))) = i + p - k := by
      apply findSpan_eq (by omega) (by omega)
      · intro j hj hji
        rw [ix_kv2 V S, if_neg (by omega)]
        exact le_trans (V.mono _ i (by omega) (by omega)) a3
      · intro hlt'
        rw [ix_kv2 V S, if_neg (by omega)]
        have : i + p - k + 1 + k - p = i + 1 := by omega
        rw [this]
        rcases a6 with h | h
        · omega
        · exact h
    have e : i + (p - s) = i + p - k + (k - s) := by omega
    rw [hsp2, e]
    apply splineVal_shift (d := k - s) t (by omega)
    · intro x hx hx'
      rw [ix_kv2 V S, ix_insKnots (by omega), insKnots]
      by_cases c : x ≤ p
      · rw [if_pos c]
        by_cases c' : x + (k - s) ≤ k
        · rw [if_pos c']; exact (hm _ (by omega) c').symm
        · rw [if_neg c', if_pos (by omega)]
      · rw [if_neg c, if_neg (by omega), if_neg (by omega)]
        congr 1; omega
    · intro x hx _
      exact hQ x (by omega)

/-! ### Affine reparametrisation -/

theorem basisInner_affine {U U' : Nat → K} {i : Nat} {u a d : K} (hd : d ≠ 0) {j : Nat} (ns : List K) :
    ∀ r saved, (∀ x, r ≤ x → x < r + ns.length → U' (i + (x + 1)) = (U (i + (x + 1)) - a) * d ∧
      U' (i + 1 - (j - x)) = (U (i + 1 - (j - x)) - a) * d) →
      basisInner U' i ((u - a) * d) j r saved ns = basisInner U i u j r saved ns := by
  induction ns with
  | nil => intros; rfl
  | cons n ns ih =>
    intro r saved h
    obtain ⟨h1, h2⟩ := h r (le_refl _) (by simp)
    have e1 : (U (i + (r + 1)) - a) * d - (u - a) * d = d * (U (i + (r + 1)) - u) := by ring
    have e2 : (u - a) * d - (U (i + 1 - (j - r)) - a) * d = d * (u - U (i + 1 - (j - r))) := by ring
    have e3 : ∀ x y : K, d * x * (n / (d * x + d * y)) = x * (n / (x + y)) ∧
        d * y * (n / (d * x + d * y)) = y * (n / (x + y)) := by
      intro x y
      rw [← mul_add]
      by_cases hz : x + y = 0
      · simp [hz]
      · constructor <;> field_simp
    rw [basisInner, basisInner, h1, h2, e1, e2, (e3 _ _).1, (e3 _ _).2]
    congr 1
    exact ih _ _ fun x hx hx' => h x (by omega) (by simp; omega)

theorem basisFuns_affine {U U' : Nat → K} {i : Nat} {u a d : K} (hd : d ≠ 0) (p : Nat) (hp : p ≤ i)
    (h : ∀ x ≤ i + p, U' x = (U x - a) * d) : basisFuns i ((u - a) * d) U' p = basisFuns i u U p := by
  induction p with
  | zero => rfl
  | succ p ih =>
    rw [basisFuns, basisFuns, ih (by omega) (fun x a => h x (by omega))]
    apply basisInner_affine hd
    intro x _ hx
    rw [basisFuns_length] at hx
    exact ⟨h _ (by omega), h _ (by omega)⟩

theorem findSpan_affine {U U' : Nat → K} {u a d : K} (hd : 0 < d) {n p : Nat} (hn : p ≤ n)
    (h : ∀ x ≤ n, U' x = (U x - a) * d) (hu : U p ≤ u) : findSpan n p ((u - a) * d) U' = findSpan n p u U := by
  have g1 := findSpan_ge n p u U
  have g2 := findSpan_le (n := n) hn u U
  apply findSpan_eq g1 g2
  · intro j hj hji
    rw [h _ (by omega)]
    have := findSpan_knot_le u U hu (by omega : p ≤ j) hji
    exact mul_le_mul_of_nonneg_right (sub_le_sub_right this a) (le_of_lt hd)
  · intro hlt
    have := findSpan_lt u U hlt
    rw [h _ (by omega)]
    exact mul_lt_mul_of_pos_right (sub_lt_sub_right this a) hd

omit [Field K] [LinearOrder K] [IsStrictOrderedRing K] in
theorem ext_ix [Zero K] {l m : List K} (hl : l.length = m.length) (h : ∀ x < l.length, ix l x = ix m x) : l = m := by
  apply List.ext_getElem hl
  intro i h1 h2
  rw [← ix_eq_getElem, ← ix_eq_getElem]
  exact h i h1

omit [Field K] [IsStrictOrderedRing K] in
theorem filter_eq_take [Zero K] {p : K → Bool} (l : List K) : ∀ m, m ≤ l.length → (∀ x < m, p (ix l x) = true) → (∀ x, m ≤ x → x < l.length → p (ix l x) = false) →
    l.filter p = l.take m := by
  intro m hm h1 h2
  conv_lhs => rw [← List.take_append_drop m l, List.filter_append]
  rw [List.filter_eq_self.2, List.filter_eq_nil_iff.2, List.append_nil]
  · intro a ha
    obtain ⟨i, hi, rfl⟩ := List.getElem_of_mem ha
    rw [List.length_drop] at hi
    have := h2 (m + i) (by omega) (by omega)
    rw [ix_eq_getElem (by omega)] at this
    simp [this]
  · intro a ha
    obtain ⟨i, hi, rfl⟩ := List.getElem_of_mem ha
    rw [List.length_take] at hi
    have := h1 i (by omega)
    rw [ix_eq_getElem (by omega)] at this
    simpa using this

omit [Field K] [IsStrictOrderedRing K] in
theorem filter_eq_drop [Zero K] {p : K → Bool} (l : List K) : ∀ m, m ≤ l.length → (∀ x < m, p (ix l x) = false) → (∀ x, m ≤ x → x < l.length → p (ix l x) = true) →
    l.filter p = l.drop m := by
  intro m hm h1 h2
  conv_lhs => rw [← List.take_append_drop m l, List.filter_append]
  rw [List.filter_eq_nil_iff.2, List.filter_eq_self.2, List.nil_append]
  · intro a ha
    obtain ⟨i, hi, rfl⟩ := List.getElem_of_mem ha
    rw [List.length_drop] at hi
    have := h2 (m + i) (by omega) (by omega)
    rw [ix_eq_getElem (by omega)] at this
    simpa using this
  · intro a ha
    obtain ⟨i, hi, rfl⟩ := List.getElem_of_mem ha
    rw [List.length_take] at hi
    have := h1 i (by omega)
    rw [ix_eq_getElem (by omega)] at this
    simp [this]

/-- The first half's knots: those below the split parameter and the parameter itself. -/
theorem kv1_eq {n p : Nat} {U : List K} (V : ValidKnots n p U) {u : K} {k s : Nat} (S : SplitAt n p U u k s) :
    (knotInsertionKv U u k (p - s)).take (k + (p - s) + 1) ++ [u] = U.filter (fun x => decide (x < u)) ++ List.replicate (p + 1) u := by
  have hlen := V.len
  have hl := kv1_length V S
  have hx := ix_kv1 V S
  obtain ⟨hpk, hkn, h1, h2, hm, hlt, hsp, hps⟩ := S
  rw [filter_eq_take U (k - s + 1) (by omega) (fun x hx => decide_eq_true (hlt x (by omega))) (fun x hx hx' => by
    apply decide_eq_false
    by_cases c : x ≤ k
    · rw [hm x (by omega) c]; exact lt_irrefl _
    · exact not_lt.2 (le_of_lt (lt_of_lt_of_le h2 (V.mono (k + 1) x (by omega) (by omega)))))]
  apply ext_ix
  · rw [hl, List.length_append, List.length_take, List.length_replicate]; omega
  · intro x hx'
    rw [hl] at hx'
    rw [hx x (by omega)]
    by_cases c : x < k - s + 1
    · rw [if_pos (by omega), ix_append_left (by rw [List.length_take]; omega), ix_take c]
    · have : ix (U.take (k - s + 1) ++ List.replicate (p + 1) u) x = u := by
        rw [ix_eq_getElem (by rw [List.length_append, List.length_take, List.length_replicate]; omega),
          List.getElem_append_right (by rw [List.length_take]; omega), List.getElem_replicate]
      rw [this]
      split
      · exact hm x (by omega) (by assumption)
      · rfl

/-- The second half's knots: the split parameter and those above. -/
theorem kv2_eq {n p : Nat} {U : List K} (V : ValidKnots n p U) {u : K} {k s : Nat} (S : SplitAt n p U u k s) :
    List.replicate (p + 1) u ++ (knotInsertionKv U u k (p - s)).drop (k + (p - s) + 1) = List.replicate (p + 1) u ++ U.filter (fun x => decide (u < x)) := by
  have hlen := V.len
  have hl := kv2_length V S
  have hx := ix_kv2 V S
  obtain ⟨hpk, hkn, h1, h2, hm, hlt, hsp, hps⟩ := S
  rw [filter_eq_drop U (k + 1) (by omega) (fun x hx => decide_eq_false (not_lt.2 (le_trans (V.mono x k (by omega) (by omega)) h1)))
    (fun x hx hx' => decide_eq_true (lt_of_lt_of_le h2 (V.mono (k + 1) x (by omega) (by omega))))]
  apply ext_ix
  · rw [hl, List.length_append, List.length_drop, List.length_replicate]; omega
  · intro x hx'
    rw [hx x]
    by_cases c : x ≤ p
    · rw [if_pos c, ix_append_left (by simp; omega), ix_replicate _ (by omega)]
    · rw [if_neg c]
      rw [hl] at hx'
      rw [ix_eq_getElem (by omega), ix_eq_getElem (by rw [List.length_append, List.length_drop, List.length_replicate]; omega),
        List.getElem_append_right (by simp; omega), List.getElem_drop]
      congr 1
      simp; omega

end Cmm.Nurbs
