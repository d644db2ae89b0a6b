import Verif.Lemmas.Smooth
import Verif.Lemmas.CurvePoly
import Mathlib.Analysis.Calculus.ContDiff.Deriv
import Mathlib.Analysis.Calculus.ContDiff.Operations
import Mathlib.Analysis.Calculus.Deriv.Polynomial
/-! Splines over the reals are as often differentiable as their knots allow. -/
namespace Cmm.Nurbs
open Set Topology

/-- The spans in charge of the parameters near `t`: number `i` before `t` and the span of `t` from `t` on. -/
theorem ValidKnots.near {n p : Nat} {U : List ℝ} (V : ValidKnots n p U) {t : ℝ} (h1 : ix U p ≤ t) (h2 : t ≤ ix U n) :
    ∃ i j, findSpan (n - 1) p t (ix U) = j ∧ p ≤ i ∧ i ≤ j ∧ j < n ∧ ix U i < ix U (i + 1) ∧ ix U j < ix U (j + 1) ∧
      (i = j ∨ (ix U p < t ∧ t < ix U n ∧ (∀ a, i < a → a ≤ j → ix U a = t) ∧ ix U i ≠ t ∧ ix U (j + 1) ≠ t)) ∧
      ∃ s ∈ 𝓝[Icc (ix U p) (ix U n)] t, t ∈ s ∧ ∀ x ∈ s, (x < t → findSpan (n - 1) p x (ix U) = i) ∧
        (t ≤ x → findSpan (n - 1) p x (ix U) = j) := by
  obtain ⟨j, hj, hpj, hjn, a1, a2, a3, a4, -⟩ := V.span h1 h2
  have hn := V.enough
  have hright : ∃ r, t < r ∧ ∀ x, t ≤ x → x < r → findSpan (n - 1) p x (ix U) = j := by
    rcases a4 with e | e
    · exact ⟨t + 1, by linarith, fun x hx _ => SpanIn.findSpan V ⟨hpj, hjn, a3, .inr (a1.trans hx), .inl (by omega)⟩⟩
    · exact ⟨_, e, fun x hx hr => SpanIn.findSpan V ⟨hpj, hjn, a3, .inr (a1.trans hx), .inr hr⟩⟩
  obtain ⟨r, hr, hR⟩ := hright
  rcases h1.eq_or_lt with e | e
  · refine ⟨j, j, hj, hpj, le_rfl, hjn, a3, a3, .inl rfl, Icc (ix U p) (ix U n) ∩ Ioo (t - 1) r, inter_mem_nhdsWithin _
      (Ioo_mem_nhds (by linarith) hr), ⟨⟨h1, h2⟩, by constructor <;> linarith⟩, fun x hx => ⟨fun h => ?_, fun h => hR x h hx.2.2⟩⟩
    have := hx.1.1
    linarith
  · set i := Nat.findGreatest (fun a => ix U a < t) (n - 1) with hi
    have i1 : ix U i < t := Nat.findGreatest_spec (P := fun a => ix U a < t) (m := p) (by omega) e
    have i2 : p ≤ i := Nat.le_findGreatest (by omega) e
    have i3 : i ≤ n - 1 := Nat.findGreatest_le _
    have i4 : ∀ a, i < a → a ≤ n - 1 → t ≤ ix U a := fun a h h' => not_lt.mp (Nat.findGreatest_is_greatest h h')
    have i5 : t ≤ ix U (i + 1) := by
      rcases Nat.lt_or_ge i (n - 1) with h | h
      · exact i4 _ (by omega) (by omega)
      · rw [show i + 1 = n by omega]; exact h2
    have hij : i ≤ j := by
      by_contra h
      have := ValidKnots.mono V (j + 1) i (by omega) (by omega)
      linarith
    refine ⟨i, j, hj, i2, hij, hjn, lt_of_lt_of_le i1 i5, a3, ?_, Icc (ix U p) (ix U n) ∩ Ioo (ix U i) r, inter_mem_nhdsWithin _
      (Ioo_mem_nhds i1 hr), ⟨⟨h1, h2⟩, i1, hr⟩, fun x hx => ⟨fun h => ?_, fun h => hR x h hx.2.2⟩⟩
    · rcases Nat.eq_or_lt_of_le hij with h | h
      · exact .inl h
      · right
        have hUj : ix U j = t := le_antisymm a1 (i4 _ h (by omega))
        refine ⟨e, ?_, fun a b b' => le_antisymm ((ValidKnots.mono V a j b' (by omega)).trans a1) (i4 _ b (by omega)), i1.ne, ?_⟩
        · have := ValidKnots.mono V (j + 1) n (by omega) (by omega)
          linarith
        · linarith
    · exact SpanIn.findSpan V ⟨i2, by omega, lt_of_lt_of_le i1 i5, .inr hx.2.1.le, .inr (lt_of_lt_of_le h i5)⟩

/-- The value of the spline of degree `q` with coefficients `P`, on the spans of `find_span`. -/
noncomputable def splineFn (n p : Nat) (U : List ℝ) (q : Nat) (P : Nat → ℝ) (t : ℝ) : ℝ :=
  splineVal (ix U) q P (findSpan (n - 1) p t (ix U)) t

/-- Every inner knot occurs at most `m` times. -/
def InnerMult (n p : Nat) (U : List ℝ) (m : Nat) : Prop :=
  ∀ i j, p ≤ i → i < j → j < n → ix U i < ix U (i + 1) → (∀ a, i < a → a ≤ j → ix U a = ix U j) → ix U j < ix U (j + 1) → j ≤ i + m

theorem ValidKnots.pieces {n p : Nat} {U : List ℝ} (V : ValidKnots n p U) {q : Nat} (hq : q ≤ p) (hm : InnerMult n p U q) (P : Nat → ℝ)
    {t : ℝ} (h1 : ix U p ≤ t) (h2 : t ≤ ix U n) :
    ∃ i j, findSpan (n - 1) p t (ix U) = j ∧ p ≤ i ∧ p ≤ j ∧ GoodSpan (ix U) p i ∧ GoodSpan (ix U) p j ∧
      (∀ q' ≤ p, InnerMult n p U q' → ∀ Q, splineVal (ix U) q' Q i t = splineVal (ix U) q' Q j t) ∧
      ∃ s ∈ 𝓝[Icc (ix U p) (ix U n)] t, t ∈ s ∧ (∀ x ∈ s ∩ Iic t, splineFn n p U q P x = splineVal (ix U) q P i x) ∧
        (∀ x ∈ s ∩ Ici t, splineFn n p U q P x = splineVal (ix U) q P j x) := by
  obtain ⟨i, j, hj, hpi, hij, hjn, ui, uj, hc, s, hs, hts, hx⟩ := V.near h1 h2
  have hjoin : ∀ q' ≤ p, InnerMult n p U q' → ∀ Q, splineVal (ix U) q' Q i t = splineVal (ix U) q' Q j t := by
    intro q' hq' hm' Q
    rcases hc with rfl | ⟨b1, b2, b3, b4, b5⟩
    · rfl
    · obtain ⟨m, rfl⟩ : ∃ m, j = i + m := ⟨j - i, by omega⟩
      rcases Nat.eq_zero_or_pos m with rfl | hm0
      · rfl
      · have h := hm' i (i + m) hpi (by omega) hjn ui (fun a x y => by rw [b3 _ x y, b3 _ (by omega) le_rfl]) uj
        exact splineVal_join b3 b4 b5 (by omega) (by omega) Q
  refine ⟨i, j, hj, hpi, hpi.trans hij, goodSpan_of_sorted V.mono ui (by omega), goodSpan_of_sorted V.mono uj (by omega), hjoin, s, hs, hts, ?_, ?_⟩
  · rintro x ⟨xs, xt⟩
    rcases (show x ≤ t from xt).eq_or_lt with rfl | h
    · rw [splineFn, hj, hjoin q hq hm]
    · rw [splineFn, (hx x xs).1 h]
  · rintro x ⟨xs, xt⟩
    rw [splineFn, (hx x xs).2 xt]

theorem splineVal_cont {U : Nat → ℝ} {q i : Nat} (hqi : q ≤ i) (hU : GoodSpan U q i) (P : Nat → ℝ) : Continuous (splineVal U q P i) := by
  obtain ⟨F, h, -⟩ := splineVal_natDegree hqi hU P
  have : splineVal U q P i = fun t => F.eval t := funext fun t => (h t).symm
  rw [this]
  exact F.differentiable.continuous

theorem splineVal_hasDeriv {U : Nat → ℝ} {q i : Nat} (hqi : q + 1 ≤ i) (hU : GoodSpan U (q + 1) i) (P : Nat → ℝ) (t : ℝ) :
    HasDerivAt (splineVal U (q + 1) P i) (splineVal U q (hodo U (q + 1) P) i t) t := by
  obtain ⟨F, h, d⟩ := splineVal_poly hqi hU P
  have : splineVal U (q + 1) P i = fun t => F.eval t := funext fun t => (h t).symm
  rw [this, ← d]
  exact F.hasDerivAt t

theorem mem_halves {s : Set ℝ} {t : ℝ} : s ∩ Iic t ∪ s ∩ Ici t = s := by
  rw [← inter_union_distrib_left, Iic_union_Ici, inter_univ]

theorem ValidKnots.cont {n p : Nat} {U : List ℝ} (V : ValidKnots n p U) {q : Nat} (hq : q ≤ p) (hm : InnerMult n p U q) (P : Nat → ℝ) :
    ContinuousOn (splineFn n p U q P) (Icc (ix U p) (ix U n)) := by
  rintro t ⟨h1, h2⟩
  obtain ⟨i, j, hj, hi', hj', gi, gj, hjoin, s, hs, hts, hl, hr⟩ := V.pieces hq hm P h1 h2
  refine ContinuousWithinAt.mono_of_mem_nhdsWithin (t := s) ?_ hs
  rw [← mem_halves (s := s) (t := t)]
  refine ContinuousWithinAt.union ?_ ?_
  · exact ((splineVal_cont (hq.trans hi') (gi.mono hq) P).continuousWithinAt).congr hl (hl t ⟨hts, mem_Iic.mpr le_rfl⟩)
  · exact ((splineVal_cont (hq.trans hj') (gj.mono hq) P).continuousWithinAt).congr hr (hr t ⟨hts, mem_Ici.mpr le_rfl⟩)

theorem ValidKnots.deriv {n p : Nat} {U : List ℝ} (V : ValidKnots n p U) {q : Nat} (hq : q + 1 ≤ p) (hm : InnerMult n p U q) (P : Nat → ℝ)
    {t : ℝ} (ht : t ∈ Icc (ix U p) (ix U n)) :
    HasDerivWithinAt (splineFn n p U (q + 1) P) (splineFn n p U q (hodo (ix U) (q + 1) P) t) (Icc (ix U p) (ix U n)) t := by
  have hm1 : InnerMult n p U (q + 1) := fun i j a b c d e f => (hm i j a b c d e f).trans (by omega)
  obtain ⟨i, j, hj, hi', hj', gi, gj, hjoin, s, hs, hts, hl, hr⟩ := V.pieces hq hm1 P ht.1 ht.2
  refine HasDerivWithinAt.mono_of_mem_nhdsWithin (t := s) ?_ hs
  rw [← mem_halves (s := s) (t := t)]
  have hd : splineFn n p U q (hodo (ix U) (q + 1) P) t = splineVal (ix U) q (hodo (ix U) (q + 1) P) j t := by rw [splineFn, hj]
  refine HasDerivWithinAt.union ?_ ?_
  · rw [hd, ← hjoin q (by omega) hm]
    exact ((splineVal_hasDeriv (hq.trans hi') (gi.mono hq) P t).hasDerivWithinAt).congr hl (hl t ⟨hts, mem_Iic.mpr le_rfl⟩)
  · rw [hd]
    exact ((splineVal_hasDeriv (hq.trans hj') (gj.mono hq) P t).hasDerivWithinAt).congr hr (hr t ⟨hts, mem_Ici.mpr le_rfl⟩)

theorem ValidKnots.domain_lt {n p : Nat} {U : List ℝ} (V : ValidKnots n p U) : ix U p < ix U n := by
  have hn := V.enough
  exact lt_of_le_of_lt (ValidKnots.mono V p (n - 1) (by omega) (by omega)) V.last_span

theorem ValidKnots.contDiff {n p : Nat} {U : List ℝ} (V : ValidKnots n p U) (r : Nat) : ∀ q, q ≤ p → r ≤ q → InnerMult n p U (q - r) →
    ∀ P, ContDiffOn ℝ r (splineFn n p U q P) (Icc (ix U p) (ix U n)) := by
  have hu : UniqueDiffOn ℝ (Icc (ix U p) (ix U n)) := uniqueDiffOn_Icc V.domain_lt
  induction r with
  | zero =>
    intro q hq _ hm P
    rw [Nat.cast_zero, contDiffOn_zero]
    exact V.cont hq hm P
  | succ r ih =>
    intro q hq hr hm P
    obtain ⟨q, rfl⟩ : ∃ k, q = k + 1 := ⟨q - 1, by omega⟩
    have hm' : InnerMult n p U (q - r) := by rwa [Nat.add_sub_add_right] at hm
    have hd : ∀ t ∈ Icc (ix U p) (ix U n), _ := fun t ht => V.deriv hq (fun i j a b c d e f => (hm' i j a b c d e f).trans (by omega)) P ht
    rw [Nat.cast_add, Nat.cast_one, contDiffOn_succ_iff_derivWithin hu]
    refine ⟨fun t ht => (hd t ht).differentiableWithinAt, fun h => by simp at h, ?_⟩
    exact (ih q (by omega) (by omega) hm' (hodo (ix U) (q + 1) P)).congr fun t ht => (hd t ht).derivWithin (hu t ht)

theorem ValidKnots.innerMult {n p : Nat} {U : List ℝ} (V : ValidKnots n p U) {m : Nat}
    (h : ∀ τ, ix U p < τ → τ < ix U n → U.count τ ≤ m) : InnerMult n p U m := by
  intro i j hpi hij hjn hi hall hj
  have hl := V.len
  have h1 := h (ix U j) (lt_of_le_of_lt (ValidKnots.mono V p i hpi (by omega)) (by rwa [hall (i + 1) (by omega) (by omega)] at hi))
    (lt_of_lt_of_le hj (ValidKnots.mono V (j + 1) n (by omega) (by omega)))
  have h2 : (U.drop (i + 1)).take (j - i) = List.replicate (j - i) (ix U j) := by
    rw [List.eq_replicate_iff]
    refine ⟨by simp; omega, fun b hb => ?_⟩
    obtain ⟨k, hk, rfl⟩ := List.getElem_of_mem hb
    have hk' : k < j - i := by simp at hk; omega
    rw [List.getElem_take, List.getElem_drop, ← ix_eq_getElem, hall _ (by omega) (by omega)]
  have h3 : ((U.drop (i + 1)).take (j - i)).count (ix U j) ≤ U.count (ix U j) :=
    ((List.take_sublist _ _).trans (List.drop_sublist _ _)).count_le _
  rw [h2, List.count_replicate_self] at h3
  omega

/-- A spline is the sum of its basis functions times its coefficients. -/
theorem splineFn_basis {n p : Nat} {U : List ℝ} (V : ValidKnots n p U) (P : Nat → ℝ) {t : ℝ} (h1 : ix U p ≤ t) (h2 : t ≤ ix U n) :
    splineFn n p U p P t = ∑ k ∈ Finset.range n, splineFn n p U p (Pi.single k 1) t * P k := by
  obtain ⟨i, hi, a1, a2, -⟩ := V.span h1 h2
  unfold splineFn
  rw [hi, splineVal_sum a1 P t n a2]
  refine Finset.sum_congr rfl fun k hk => ?_
  rw [splineVal_sum a1 _ t n a2, Finset.sum_eq_single_of_mem k hk]
  · simp
  · intro b _ hb
    simp [Pi.single_apply, hb]

end Cmm.Nurbs
