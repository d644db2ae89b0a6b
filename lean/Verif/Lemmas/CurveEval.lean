import Verif.Lemmas.Insert
/-! From the scalar spline to whole curves: spans, insertion, splitting, evaluation. -/
namespace Cmm.Nurbs
variable {K : Type} [Field K]

/-! ### Locality -/

theorem basisInner_shift {U₁ U₂ : Nat → K} {i d : Nat} {u : K} {j : Nat} (ns : List K) :
    ∀ r saved, (∀ x, r ≤ x → x < r + ns.length → U₁ (i + (x + 1)) = U₂ (i + d + (x + 1)) ∧
      U₁ (i + 1 - (j - x)) = U₂ (i + d + 1 - (j - x))) →
      basisInner U₁ i u j r saved ns = basisInner U₂ (i + d) u j r saved ns := by
  induction ns with
  | nil => intros; rfl
  | cons n ns ih =>
    intro r saved h
    obtain ⟨h1, h2⟩ := h r (le_refl _) (by simp)
    rw [basisInner, basisInner, h1, h2]
    congr 1
    exact ih _ _ fun x hx hx' => h x (by omega) (by simp; omega)

theorem basisFuns_shift {U₁ U₂ : Nat → K} {i d : Nat} (u : K) (p : Nat) (hp : p ≤ i)
    (h : ∀ x, i < x + p → x ≤ i + p → U₁ x = U₂ (x + d)) : basisFuns i u U₁ p = basisFuns (i + d) u U₂ p := by
  induction p with
  | zero => rfl
  | succ p ih =>
    rw [basisFuns, basisFuns, ih (by omega) (fun x a b => h x (by omega) (by omega))]
    apply basisInner_shift
    intro x _ hx
    rw [basisFuns_length] at hx
    rw [h _ (by omega) (by omega), h (i + 1 - (p + 1 - x)) (by omega) (by omega)]
    constructor <;> congr 1 <;> omega

theorem splineVal_shift {U₁ U₂ P₁ P₂ : Nat → K} {i d p : Nat} (t : K) (hp : p ≤ i)
    (hU : ∀ x, i < x + p → x ≤ i + p → U₁ x = U₂ (x + d)) (hP : ∀ x, x ≤ i → i ≤ x + p → P₁ x = P₂ (x + d)) :
    splineVal U₁ p P₁ i t = splineVal U₂ p P₂ (i + d) t := by
  rw [splineVal, splineVal, basisFuns_shift t p hp hU, dotL_shift, dotL_shift _ P₂]
  apply dotL_congr
  intro r hr
  rw [basisFuns_length] at hr
  simp only [zero_add]
  rw [hP _ (by omega) (by omega)]
  congr 1; omega

theorem splineVal_congr {U P₁ P₂ : Nat → K} {i p : Nat} (t : K) (hp : p ≤ i)
    (hP : ∀ x, x ≤ i → i ≤ x + p → P₁ x = P₂ x) : splineVal U p P₁ i t = splineVal U p P₂ i t :=
  splineVal_shift (d := 0) t hp (fun _ _ _ => rfl) hP

/-! ### Values at the ends of a span -/

theorem dotL_zeros (len : Nat) (g : Nat → K) : ∀ k, dotL (List.replicate len 0) g k = 0 := by
  induction len with
  | zero => intro k; rfl
  | succ len ih => intro k; rw [List.replicate_succ, dotL, ih]; simp

theorem dotL_append (l₁ l₂ : List K) (g : Nat → K) : ∀ k, dotL (l₁ ++ l₂) g k = dotL l₁ g k + dotL l₂ g (k + l₁.length) := by
  induction l₁ with
  | nil => intro k; simp [dotL]
  | cons a l ih =>
    intro k
    have : k + 1 + l.length = k + (l.length + 1) := by omega
    rw [List.cons_append, dotL, dotL, ih, List.length_cons, this, add_assoc]

variable [LinearOrder K] [IsStrictOrderedRing K]

theorem splineVal_start {U P : Nat → K} {i p : Nat} {u : K} (hp : p ≤ i) (h1 : ∀ a, i < a + p → a ≤ i → U a = u)
    (h2 : U (i + 1) ≠ u) : splineVal U p P i u = P (i - p) := by
  rw [splineVal, basisFuns_start p hp h1 h2, dotL, dotL_zeros]; ring

theorem splineVal_end {U P : Nat → K} {i p : Nat} {u : K} (hp : p ≤ i) (h1 : ∀ a, i < a → a ≤ i + p → U a = u)
    (h2 : U i ≠ u) : splineVal U p P i u = P i := by
  rw [splineVal, basisFuns_end p hp h1 h2, dotL_append, dotL_zeros, dotL, dotL]
  simp only [List.length_replicate]
  rw [Nat.sub_add_cancel hp]; ring

/-! ### Spans of valid knot vectors -/

theorem ValidKnots.mono {n p : Nat} {U : List K} (V : ValidKnots n p U) :
    ∀ a b, a ≤ b → b < n + p + 1 → ix U a ≤ ix U b :=
  fun _ _ h h' => ix_mono V.sorted h (by rw [V.len]; exact h')

/-- Everything evaluation needs to know about the span found for a parameter of the domain. -/
theorem ValidKnots.span {n p : Nat} {U : List K} (V : ValidKnots n p U) {t : K} (h1 : ix U p ≤ t) (h2 : t ≤ ix U n) :
    ∃ i, findSpan (n - 1) p t (ix U) = i ∧ p ≤ i ∧ i < n ∧ ix U i ≤ t ∧ t ≤ ix U (i + 1) ∧ ix U i < ix U (i + 1) ∧
      (i = n - 1 ∨ t < ix U (i + 1)) ∧ GoodSpan (ix U) p i := by
  have hn := V.enough
  have g1 := findSpan_ge (n - 1) p t (ix U)
  have g2 := findSpan_le (n := n - 1) (by omega) t (ix U) (p := p)
  have g3 := findSpan_knot_le t (ix U) h1 g1 (le_refl _) (n := n - 1)
  refine ⟨_, rfl, g1, by omega, g3, ?_⟩
  have hcase : findSpan (n - 1) p t (ix U) = n - 1 ∨ t < ix U (findSpan (n - 1) p t (ix U) + 1) := by
    rcases Nat.eq_or_lt_of_le g2 with h | h
    · exact .inl h
    · exact .inr (findSpan_lt t (ix U) h)
  have hle : t ≤ ix U (findSpan (n - 1) p t (ix U) + 1) := by
    rcases hcase with h | h
    · rw [h, Nat.sub_add_cancel (by omega)]; exact h2
    · exact le_of_lt h
  have hlt : ix U (findSpan (n - 1) p t (ix U)) < ix U (findSpan (n - 1) p t (ix U) + 1) := by
    rcases hcase with h | h
    · rw [h, Nat.sub_add_cancel (by omega)]; exact V.last_span
    · exact lt_of_le_of_lt g3 h
  exact ⟨hle, hlt, hcase, goodSpan_of_sorted V.mono hlt (by omega)⟩

/-- In a sorted list whose entries are at most `u`, the copies of `u` are at the end. -/
theorem count_tail (u : K) (l : List K) (hs : l.Pairwise (· ≤ ·)) (hle : ∀ x ∈ l, x ≤ u) :
    ∀ a, a < l.length → (ix l a = u ↔ l.length ≤ a + l.count u) := by
  induction l with
  | nil => intro a h; simp at h
  | cons b l ih =>
    intro a ha
    have ih' := ih (List.pairwise_cons.mp hs).2 (fun x hx => hle x (by simp [hx]))
    by_cases hb : b = u
    · have hall : ∀ x ∈ b :: l, x = u := by
        intro x hx
        rcases List.mem_cons.mp hx with rfl | hx
        · exact hb
        · exact le_antisymm (hle x (by simp [hx])) (hb ▸ (List.pairwise_cons.mp hs).1 x hx)
      have hc : (b :: l).count u = (b :: l).length := by
        rw [List.count_eq_length]; intro x hx; exact (hall x hx).symm
      rw [hc, ix_eq_getElem ha]
      exact ⟨fun _ => by omega, fun _ => hall _ (List.getElem_mem _)⟩
    · have hc : (b :: l).count u = l.count u := List.count_cons_of_ne hb
      rw [hc]
      cases a with
      | zero =>
        have : ix (b :: l) 0 = b := rfl
        rw [this]
        have := List.count_le_length (a := u) (l := l)
        simp [hb]; omega
      | succ a =>
        have : ix (b :: l) (a + 1) = ix l a := rfl
        rw [this, ih' a (by simpa using ha)]
        simp; omega

/-- What insertion needs to know about the span and the multiplicity of the inserted value. -/
theorem ValidKnots.insertion {n p : Nat} {U : List K} (V : ValidKnots n p U) {u : K} (h1 : ix U p ≤ u) (h2 : u < ix U n)
    (hsep : ∀ x ∈ U, x ≠ u → 1 / 10 ^ 12 < |u - x|) :
    ∃ k s, findSpan (n - 1) p u (ix U) = k ∧ findMultiplicity u U = s ∧ p ≤ k ∧ k < n ∧ ix U k ≤ u ∧ u < ix U (k + 1) ∧
      s ≤ k + 1 ∧ (∀ a, k < a + s → a ≤ k → ix U a = u) ∧ (∀ a, a + s ≤ k → ix U a < u) := by
  obtain ⟨k, hk, a1, a2, a3, a4, a5, a6, a7⟩ := V.span h1 (le_of_lt h2)
  have hlt : u < ix U (k + 1) := by
    rcases a6 with h | h
    · rw [h, Nat.sub_add_cancel (by omega)]; exact h2
    · exact h
  have hlen := V.len
  have hcount : findMultiplicity u U = (U.take (k + 1)).count u := by
    rw [findMultiplicity_eq_countP]
    have hc : U.countP (fun k => decide (|u - k| ≤ 1 / 10 ^ 12)) = U.count u := by
      rw [List.count_eq_countP]
      apply List.countP_congr
      intro x hx
      by_cases h : x = u
      · subst h; simp
      · have := hsep x hx h
        simpa [h] using this
    rw [hc]
    conv_lhs => rw [← List.take_append_drop (k + 1) U, List.count_append]
    have : (U.drop (k + 1)).count u = 0 := by
      rw [List.count_eq_zero]
      intro hmem
      obtain ⟨j, hj, e⟩ := List.getElem_of_mem hmem
      rw [List.getElem_drop, ← ix_eq_getElem] at e
      have := V.mono (k + 1) (k + 1 + j) (by omega) (by simp at hj; omega)
      rw [e] at this
      exact absurd hlt (not_lt.mpr this)
    rw [this]; rfl
  have hl : (U.take (k + 1)).length = k + 1 := by simp; omega
  have htail := count_tail u (U.take (k + 1)) (V.sorted.sublist (List.take_sublist ..)) (by
    intro x hx
    obtain ⟨j, hj, e⟩ := List.getElem_of_mem hx
    rw [← ix_eq_getElem, ix_take (by omega)] at e
    rw [← e]
    exact le_trans (V.mono j k (by omega) (by omega)) a3)
  have hcl := List.count_le_length (a := u) (l := U.take (k + 1))
  refine ⟨k, _, hk, hcount, a1, a2, a3, hlt, by omega, ?_, ?_⟩
  · intro a h h'
    have := (htail a (by omega)).mpr (by omega)
    rwa [ix_take (by omega)] at this
  · intro a h
    have := mt (htail a (by omega)).mp (by omega)
    rw [ix_take (by omega)] at this
    exact lt_of_le_of_ne (le_trans (V.mono a k (by omega) (by omega)) a3) this

theorem ix_insKnots {U : List K} {u : K} {k num : Nat} (h : k + 1 ≤ U.length) :
    ix (knotInsertionKv U u k num) = insKnots (ix U) u k num := by
  funext x; rw [ix_knotInsertionKv h]; rfl

/-- The knots stay valid after insertion, with the same domain. -/
theorem ValidKnots.insert {n p : Nat} {U : List K} (V : ValidKnots n p U) {u : K} {k : Nat} (num : Nat) (hpk : p ≤ k)
    (hkn : k < n) (h1 : ix U k ≤ u) (h2 : u < ix U (k + 1)) :
    ValidKnots (n + num) p (knotInsertionKv U u k num) ∧ ix (knotInsertionKv U u k num) p = ix U p ∧
      ix (knotInsertionKv U u k num) (n + num) = ix U n := by
  have hlen := V.len
  have hix := ix_insKnots (U := U) (u := u) (k := k) (num := num) (by omega)
  have hL : (knotInsertionKv U u k num).length = n + num + p + 1 := by
    rw [knotInsertionKv_eq _ _ _ _ (by omega)]; simp; omega
  have hval : ∀ x, ix (knotInsertionKv U u k num) x = insKnots (ix U) u k num x := fun x => by rw [hix]
  have hmono : ∀ a b, a ≤ b → b < n + num + p + 1 → insKnots (ix U) u k num a ≤ insKnots (ix U) u k num b := by
    intro a b hab hb
    unfold insKnots
    by_cases ha : a ≤ k
    · rw [if_pos ha]
      by_cases hb1 : b ≤ k
      · rw [if_pos hb1]; exact V.mono a b hab (by omega)
      · rw [if_neg hb1]
        have hak := V.mono a k ha (by omega)
        by_cases hb2 : b ≤ k + num
        · rw [if_pos hb2]; exact le_trans hak h1
        · rw [if_neg hb2]
          exact le_trans (le_trans hak (le_of_lt (lt_of_le_of_lt h1 h2))) (V.mono _ _ (by omega) (by omega))
    · rw [if_neg ha, if_neg (by omega : ¬ b ≤ k)]
      by_cases ha2 : a ≤ k + num
      · rw [if_pos ha2]
        by_cases hb2 : b ≤ k + num
        · rw [if_pos hb2]
        · rw [if_neg hb2]; exact le_trans (le_of_lt h2) (V.mono _ _ (by omega) (by omega))
      · rw [if_neg ha2, if_neg (by omega)]; exact V.mono _ _ (by omega) (by omega)
  refine ⟨⟨V.deg_pos, V.deg_le, by have := V.enough; omega, hL, ?_, ?_⟩, ?_, ?_⟩
  · unfold SortedKnots
    rw [List.pairwise_iff_getElem]
    intro a b ha hb hab
    rw [← ix_eq_getElem, ← ix_eq_getElem, hval, hval]
    exact hmono a b (by omega) (by omega)
  · rw [hval, hval]
    have hr : insKnots (ix U) u k num (n + num) = ix U n := by
      rw [insKnots, if_neg (by omega), if_neg (by omega)]; congr 1; omega
    rw [hr, insKnots]
    by_cases c1 : n + num - 1 ≤ k
    · rw [if_pos c1]
      have : n + num - 1 = n - 1 := by omega
      rw [this]; exact V.last_span
    · rw [if_neg c1]
      by_cases c2 : n + num - 1 ≤ k + num
      · rw [if_pos c2]
        have : k + 1 = n := by omega
        rw [this] at h2; exact h2
      · rw [if_neg c2]
        have : n + num - 1 - num = n - 1 := by omega
        rw [this]; exact V.last_span
  · rw [hval, insKnots, if_pos hpk]
  · rw [hval, insKnots, if_neg (by omega), if_neg (by omega)]; congr 1; omega

/-- The span of a parameter after insertion: unchanged left of the new knot, shifted right of it. -/
theorem ValidKnots.insert_span {n p : Nat} {U : List K} (V : ValidKnots n p U) {u t : K} {k s i : Nat} (num : Nat)
    (hpk : p ≤ k) (hkn : k < n) (h1 : ix U k ≤ u) (h2 : u < ix U (k + 1)) (hm : ∀ a, k < a + s → a ≤ k → ix U a = u)
    (ht1 : ix U p ≤ t) (ht2 : t ≤ ix U n) (hi : findSpan (n - 1) p t (ix U) = i) :
    (t < u ∧ i + s ≤ k ∧ findSpan (n + num - 1) p t (ix (knotInsertionKv U u k num)) = i) ∨
    (u ≤ t ∧ k ≤ i ∧ findSpan (n + num - 1) p t (ix (knotInsertionKv U u k num)) = i + num) := by
  have hlen := V.len
  obtain ⟨i', hi', a1, a2, a3, a4, a5, a6, a7⟩ := V.span ht1 ht2
  obtain rfl : i = i' := by rw [← hi, ← hi']
  rw [ix_insKnots (by omega)]
  by_cases htu : t < u
  · left
    have hik : i ≤ k := by
      by_contra hc
      have := V.mono (k + 1) i (by omega) (by omega)
      exact absurd (lt_of_lt_of_le h2 (le_trans this a3)) (not_lt.mpr (le_of_lt htu))
    have his : i + s ≤ k := by
      by_contra hc
      have := hm i (by omega) hik
      rw [this] at a3
      exact absurd htu (not_lt.mpr a3)
    refine ⟨htu, his, findSpan_eq a1 (by omega) ?_ ?_⟩
    · intro j hj hji
      rw [insKnots, if_pos (by omega)]
      exact le_trans (V.mono j i hji (by omega)) a3
    · intro hlt
      rw [insKnots]
      by_cases c : i + 1 ≤ k
      · rw [if_pos c]
        rcases a6 with h | h
        · omega
        · exact h
      · rw [if_neg c]
        by_cases c2 : i + 1 ≤ k + num
        · rw [if_pos c2]; exact htu
        · rw [if_neg c2]
          have hn0 : num = 0 := by omega
          subst hn0
          rcases a6 with h | h
          · omega
          · exact h
  · right
    have htu' := not_lt.mp htu
    have hki : k ≤ i := by
      by_contra hc
      rcases a6 with h | h
      · omega
      · have := V.mono (i + 1) k (by omega) (by omega)
        exact absurd (lt_of_lt_of_le h (le_trans this h1)) (not_lt.mpr htu')
    refine ⟨htu', hki, findSpan_eq (by omega) (by omega) ?_ ?_⟩
    · intro j hj hji
      rw [insKnots]
      by_cases c : j ≤ k
      · rw [if_pos c]; exact le_trans (le_trans (V.mono j k c (by omega)) h1) htu'
      · rw [if_neg c]
        by_cases c2 : j ≤ k + num
        · rw [if_pos c2]; exact htu'
        · rw [if_neg c2]; exact le_trans (V.mono (j - num) i (by omega) (by omega)) a3
    · intro hlt
      rw [insKnots, if_neg (by omega), if_neg (by omega)]
      have : i + num + 1 - num = i + 1 := by omega
      rw [this]
      rcases a6 with h | h
      · omega
      · exact h

/-- Inserting a knot does not change the spline value at any parameter of the domain. -/
theorem ValidKnots.insert_eval {n p : Nat} {U : List K} (V : ValidKnots n p U) {u t : K} {k s : Nat} {num : Nat}
    {P init : Nat → K} (hpk : p ≤ k) (hkn : k < n) (h1 : ix U k ≤ u) (h2 : u < ix U (k + 1))
    (hm : ∀ a, k < a + s → a ≤ k → ix U a = u) (hs : num + s ≤ p) (ht1 : ix U p ≤ t) (ht2 : t ≤ ix U n) :
    splineVal (ix (knotInsertionKv U u k num)) p (insArray lerp1 p (ix U) P u num s k init)
      (findSpan (n + num - 1) p t (ix (knotInsertionKv U u k num))) t =
    splineVal (ix U) p P (findSpan (n - 1) p t (ix U)) t := by
  obtain ⟨i, hi, a1, a2, a3, a4, a5, a6, a7⟩ := V.span ht1 ht2
  obtain ⟨V', e1, e2⟩ := V.insert num hpk hkn h1 h2
  obtain ⟨i', hi', b1, b2, b3, b4, b5, b6, b7⟩ := V'.span (t := t) (by rw [e1]; exact ht1) (by rw [e2]; exact ht2)
  have hlen := V.len
  rw [hi', hi]
  rcases V.insert_span num hpk hkn h1 h2 hm ht1 ht2 hi with ⟨_, hc, he⟩ | ⟨_, hc, he⟩
  · obtain rfl : i' = i := by rw [← hi', he]
    rw [ix_insKnots (by omega)] at b7 ⊢
    exact insert_left hpk hs hm a1 a7 hc b7 t
  · obtain rfl : i' = i + num := by rw [← hi', he]
    rw [ix_insKnots (by omega)] at b7 ⊢
    exact insert_right hpk hs hm a7 hc b7 t

/-! ### Evaluation of a curve -/

theorem curve_eval {c : Curve K} (V : ValidCurve c) {t : K} (hd : InDomain c t) :
    c.evaluate t = .ok (curvePointAt (findSpan (c.cpts.length - 1) c.degree t (ix c.knots)) c.degree (ix c.knots)
      (ix c.cpts) t) := by
  obtain ⟨i, hi, a1, a2, _⟩ := ValidKnots.span V hd.1 hd.2
  have hl := V.len
  have h8 := V.deg_le
  simp only [Curve.evaluate, curvePoint, hi]
  rw [if_neg]
  unfold maxDegree
  omega

theorem splineVal_const {U P : Nat → K} {p i : Nat} {w : K} (hp : p ≤ i) (hU : GoodSpan U p i)
    (hP : ∀ x, x ≤ i → i ≤ x + p → P x = w) (t : K) : splineVal U p P i t = w := by
  rw [splineVal_congr (P₂ := fun _ => w) t hp hP, splineVal, dotL_const, basisFuns_sum hp hU, one_mul]

theorem splineVal_smul (U P : Nat → K) (p i : Nat) (w t : K) :
    splineVal U p (fun r => w * P r) i t = w * splineVal U p P i t := dotL_mul _ _ _ _

/-- With equal weights the value is the plain spline of the positions. -/
theorem curvePointAt_equal {U : Nat → K} {P : Nat → Vec4 K} {p i : Nat} {w : K} (hp : p ≤ i) (hU : GoodSpan U p i)
    (hw : w ≠ 0) (hP : ∀ x, x ≤ i → i ≤ x + p → (P x).w = w) (t : K) :
    curvePointAt i p U P t = ⟨splineVal U p (fun r => (P r).x) i t, splineVal U p (fun r => (P r).y) i t,
      splineVal U p (fun r => (P r).z) i t⟩ := by
  rw [curvePointAt_eq, splineVal_const hp hU hP]
  have h : ∀ g : Nat → K, splineVal U p (fun r => (P r).w * g r) i t = w * splineVal U p g i t := by
    intro g
    rw [← splineVal_smul]
    exact splineVal_congr t hp fun x a b => by simp only [hP x a b]
  rw [h, h, h, mul_div_cancel_left₀ _ hw, mul_div_cancel_left₀ _ hw, mul_div_cancel_left₀ _ hw]

end Cmm.Nurbs
