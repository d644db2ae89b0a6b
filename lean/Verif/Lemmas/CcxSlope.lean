import Verif.Lemmas.CcxBezier
import Mathlib.Algebra.BigOperators.Group.Finset.Basic
import Mathlib.Algebra.BigOperators.Intervals
import Mathlib.Algebra.Order.BigOperators.Group.Finset
/-! Inserting a knot does not make a spline steeper: bounds on the control points against the knots survive the halving of a curve. -/
namespace Cmm.Ccx
open Cmm.Nurbs
variable {K : Type} [Field K] [LinearOrder K] [IsStrictOrderedRing K]

section tri
variable {p k : Nat} {U P : Nat → K} {u M : K}

theorem tri_left (j m : Nat) (hlt : U m < U (m + p - j)) (hu : U m ≤ u)
    (h : |tri lerp1 p U u P j m - tri lerp1 p U u P j (m - 1)| ≤ M * (U (m + p - j) - U m)) :
    |tri lerp1 p U u P (j + 1) m - tri lerp1 p U u P j (m - 1)| ≤ M * (u - U m) := by
  have hg : 0 < U (m + p - j) - U m := sub_pos.2 hlt
  have e : tri lerp1 p U u P (j + 1) m - tri lerp1 p U u P j (m - 1) =
      (u - U m) / (U (m + p - j) - U m) * (tri lerp1 p U u P j m - tri lerp1 p U u P j (m - 1)) := by
    rw [tri, lerp1]; ring
  rw [e, abs_mul, abs_of_nonneg (div_nonneg (sub_nonneg.2 hu) (le_of_lt hg))]
  calc _ ≤ (u - U m) / (U (m + p - j) - U m) * (M * (U (m + p - j) - U m)) :=
        mul_le_mul_of_nonneg_left h (div_nonneg (sub_nonneg.2 hu) (le_of_lt hg))
    _ = M * (u - U m) := by field_simp

theorem tri_right (j m : Nat) (hlt : U m < U (m + p - j)) (hu : u ≤ U (m + p - j))
    (h : |tri lerp1 p U u P j m - tri lerp1 p U u P j (m - 1)| ≤ M * (U (m + p - j) - U m)) :
    |tri lerp1 p U u P j m - tri lerp1 p U u P (j + 1) m| ≤ M * (U (m + p - j) - u) := by
  have hg : 0 < U (m + p - j) - U m := sub_pos.2 hlt
  have e : tri lerp1 p U u P j m - tri lerp1 p U u P (j + 1) m =
      (U (m + p - j) - u) / (U (m + p - j) - U m) * (tri lerp1 p U u P j m - tri lerp1 p U u P j (m - 1)) := by
    rw [tri, lerp1]
    field_simp
    ring
  rw [e, abs_mul, abs_of_nonneg (div_nonneg (sub_nonneg.2 hu) (le_of_lt hg))]
  calc _ ≤ (U (m + p - j) - u) / (U (m + p - j) - U m) * (M * (U (m + p - j) - U m)) :=
        mul_le_mul_of_nonneg_left h (div_nonneg (sub_nonneg.2 hu) (le_of_lt hg))
    _ = M * (U (m + p - j) - u) := by field_simp

/-- The knots around the span of `u`. -/
structure Around (U : Nat → K) (p k : Nat) (u : K) : Prop where
  hpk : p ≤ k
  below : ∀ a, a ≤ k → U a ≤ u
  above : ∀ a, k < a → a ≤ k + p → u < U a

theorem tri_level (A : Around U p k u) (hP : ∀ i, k ≤ i + p → i + 1 ≤ k → |P (i + 1) - P i| ≤ M * (U (i + p + 1) - U (i + 1))) :
    ∀ j m, j ≤ p → k + j ≤ m + p → m + 1 ≤ k → |tri lerp1 p U u P j (m + 1) - tri lerp1 p U u P j m| ≤ M * (U (m + 1 + p - j) - U (m + 1)) := by
  intro j
  induction j with
  | zero => intro m _ h1 h2; simp only [tri]; rw [show m + 1 + p - 0 = m + p + 1 by omega]; exact hP m (by omega) h2
  | succ j ih =>
    intro m hj h1 h2
    have hpk := A.hpk
    have i1 := ih m (by omega) (by omega) h2
    have i2 := ih (m - 1) (by omega) (by omega) (by omega)
    rw [show m - 1 + 1 = m by omega] at i2
    have l := tri_left (P := P) (M := M) j (m + 1) (lt_of_le_of_lt (A.below (m + 1) h2) (A.above (m + 1 + p - j) (by omega) (by omega))) (A.below _ h2) i1
    have r := tri_right (P := P) (M := M) j m (lt_of_le_of_lt (A.below m (by omega)) (A.above (m + p - j) (by omega) (by omega)))
      (le_of_lt (A.above _ (by omega) (by omega))) i2
    rw [show m + 1 - 1 = m by omega] at l
    rw [show m + 1 + p - (j + 1) = m + p - j by omega]
    rw [abs_le] at *
    constructor <;> linarith [l.1, l.2, r.1, r.2]

/-- The slopes of the control points after an insertion. -/
theorem ins_slope {num s n : Nat} (A : Around U p k u) (hs : num + s ≤ p) (hm : ∀ a, k < a + s → a ≤ k → U a = u) (init : Nat → K)
    (hP : ∀ i, i + 1 < n → |P (i + 1) - P i| ≤ M * (U (i + p + 1) - U (i + 1))) (hkn : k < n) (x : Nat) (hx : x + 1 < n + num) :
    |insArray lerp1 p U P u num s k init (x + 1) - insArray lerp1 p U P u num s k init x| ≤
      M * (insKnots U u k num (x + p + 1) - insKnots U u k num (x + 1)) := by
  have hpk := A.hpk
  have lev := tri_level (P := P) (M := M) A (fun i _ h => hP i (by omega))
  rw [insArray_spec lerp1 hpk hs, insArray_spec lerp1 hpk hs]
  unfold insKnots
  by_cases c1 : x + 1 ≤ k - p
  · rw [if_pos c1, if_pos (by omega), if_pos (by omega), if_pos (by omega)]
    exact hP x (by omega)
  by_cases c2 : x < k - p + num
  · obtain ⟨j, hj⟩ : ∃ j, x = k - p + j := ⟨x - (k - p), by omega⟩
    have ex : (if x ≤ k - p then P x
        else if x ≤ k - p + num then tri lerp1 p U u P (x - (k - p)) x
        else if x < k - s then tri lerp1 p U u P num x
        else if x < k - s + num then tri lerp1 p U u P (k - s + num - x) (k - s) else P (x - num)) = tri lerp1 p U u P j x := by
      by_cases c : x ≤ k - p
      · rw [if_pos c, show j = 0 by omega]; rfl
      · rw [if_neg c, if_pos (by omega), show x - (k - p) = j by omega]
    rw [ex, if_neg c1, if_pos (by omega), if_neg (show ¬ x + p + 1 ≤ k by omega), if_pos (show x + p + 1 ≤ k + num by omega),
      if_pos (show x + 1 ≤ k by omega), show x + 1 - (k - p) = j + 1 by omega]
    have l := lev j x (by omega) (by omega) (by omega)
    have := tri_left (P := P) (M := M) j (x + 1) (lt_of_le_of_lt (A.below (x + 1) (by omega)) (A.above (x + 1 + p - j) (by omega) (by omega)))
      (A.below _ (by omega)) l
    exact this
  by_cases c3 : x + 1 ≤ k - s
  · have ex : (if x ≤ k - p then P x
        else if x ≤ k - p + num then tri lerp1 p U u P (x - (k - p)) x
        else if x < k - s then tri lerp1 p U u P num x
        else if x < k - s + num then tri lerp1 p U u P (k - s + num - x) (k - s) else P (x - num)) = tri lerp1 p U u P num x := by
      by_cases c : x ≤ k - p
      · rw [if_pos c, show num = 0 by omega]; rfl
      · rw [if_neg c]
        by_cases c' : x ≤ k - p + num
        · rw [if_pos c', show x - (k - p) = num by omega]
        · rw [if_neg c', if_pos (by omega)]
    have ey : (if x + 1 ≤ k - p then P (x + 1)
        else if x + 1 ≤ k - p + num then tri lerp1 p U u P (x + 1 - (k - p)) (x + 1)
        else if x + 1 < k - s then tri lerp1 p U u P num (x + 1)
        else if x + 1 < k - s + num then tri lerp1 p U u P (k - s + num - (x + 1)) (k - s) else P (x + 1 - num)) = tri lerp1 p U u P num (x + 1) := by
      rw [if_neg c1, if_neg (by omega)]
      by_cases c : x + 1 < k - s
      · rw [if_pos c]
      · rw [if_neg c]
        by_cases c' : x + 1 < k - s + num
        · rw [if_pos c', show k - s = x + 1 by omega, show x + 1 + num - (x + 1) = num by omega]
        · rw [if_neg c', show num = 0 by omega]; rfl
    rw [ex, ey, if_neg (show ¬ x + p + 1 ≤ k by omega), if_neg (show ¬ x + p + 1 ≤ k + num by omega), if_pos (show x + 1 ≤ k by omega)]
    have l := lev num x (by omega) (by omega) (by omega)
    rw [show x + 1 + p - num = x + p + 1 - num by omega] at l
    exact l
  have hu1 : (if x + 1 ≤ k then U (x + 1) else if x + 1 ≤ k + num then u else U (x + 1 - num)) =
      if x + 1 ≤ k + num then u else U (x + 1 - num) := by
    by_cases c : x + 1 ≤ k
    · rw [if_pos c, if_pos (by omega)]; exact hm _ (by omega) c
    · rw [if_neg c]
  rw [hu1, if_neg (show ¬ x + p + 1 ≤ k by omega), if_neg (show ¬ x + p + 1 ≤ k + num by omega)]
  by_cases c4 : x + 1 ≤ k - s + num
  · obtain ⟨j, hj⟩ : ∃ j, k - s + num - x = j + 1 := ⟨k - s + num - x - 1, by omega⟩
    have ex : (if x ≤ k - p then P x
        else if x ≤ k - p + num then tri lerp1 p U u P (x - (k - p)) x
        else if x < k - s then tri lerp1 p U u P num x
        else if x < k - s + num then tri lerp1 p U u P (k - s + num - x) (k - s) else P (x - num)) = tri lerp1 p U u P (j + 1) (k - s) := by
      rw [if_neg (by omega)]
      by_cases c' : x ≤ k - p + num
      · rw [if_pos c', show k - s = x by omega, show x - (k - p) = j + 1 by omega]
      · rw [if_neg c', if_neg (by omega), if_pos (by omega), hj]
    have ey : (if x + 1 ≤ k - p then P (x + 1)
        else if x + 1 ≤ k - p + num then tri lerp1 p U u P (x + 1 - (k - p)) (x + 1)
        else if x + 1 < k - s then tri lerp1 p U u P num (x + 1)
        else if x + 1 < k - s + num then tri lerp1 p U u P (k - s + num - (x + 1)) (k - s) else P (x + 1 - num)) = tri lerp1 p U u P j (k - s) := by
      rw [if_neg c1, if_neg (by omega), if_neg (by omega)]
      by_cases c : x + 1 < k - s + num
      · rw [if_pos c, show k - s + num - (x + 1) = j by omega]
      · rw [if_neg c, show j = 0 by omega, show x + 1 - num = k - s by omega]; rfl
    rw [ex, ey, if_pos (show x + 1 ≤ k + num by omega)]
    have l := lev j (k - s - 1) (by omega) (by omega) (by omega)
    rw [show k - s - 1 + 1 = k - s by omega] at l
    have := tri_right (P := P) (M := M) j (k - s) (lt_of_le_of_lt (A.below (k - s) (by omega)) (A.above (k - s + p - j) (by omega) (by omega)))
      (le_of_lt (A.above _ (by omega) (by omega))) l
    rw [show x + p + 1 - num = k - s + p - j by omega]
    exact this
  · have ex : (if x ≤ k - p then P x
        else if x ≤ k - p + num then tri lerp1 p U u P (x - (k - p)) x
        else if x < k - s then tri lerp1 p U u P num x
        else if x < k - s + num then tri lerp1 p U u P (k - s + num - x) (k - s) else P (x - num)) = P (x - num) := by
      by_cases c : x ≤ k - p
      · rw [if_pos c, show x - num = x by omega]
      · rw [if_neg c, if_neg (by omega), if_neg (by omega), if_neg (by omega)]
    rw [ex, if_neg c1, if_neg (by omega), if_neg (by omega), if_neg (by omega), show x + 1 - num = x - num + 1 by omega]
    have := hP (x - num) (by omega)
    rw [show x - num + p + 1 = x + p + 1 - num by omega] at this
    by_cases c : x + 1 ≤ k + num
    · rw [if_pos c, ← hm (x - num + 1) (by omega) (by omega)]; exact this
    · rw [if_neg c]; exact this

end tri

/-- Splitting keeps the slopes. -/
theorem split_slope (c : Curve K) (V : ValidCurve c) (hw : EqualWeights c) (u : K) (h1 : ix c.knots c.degree < u)
    (h2 : u < ix c.knots c.cpts.length) (hlo : c.lo + 1 / 10 ^ 12 < u) (hhi : u < c.hi - 1 / 10 ^ 12)
    (hsep : ClearOf (1 / 10 ^ 12) c.knots u) (hc : c.knots.count u ≤ c.degree) {M : K} (hM : SlopeLe M c) {a b : Curve K}
    (hab : c.split u false = .ok (a, b)) : SlopeLe M a ∧ SlopeLe M b := by
  obtain ⟨a', b', hs, ⟨Va, _, Ia, da⟩, ⟨Vb, _, Ib, db⟩, _, _, _, ⟨ka, kb⟩, hwt, k, s, junk, S, la, lb, hv⟩ := split_core c V hw u h1 h2 hlo hhi hsep hc
  rw [hab] at hs
  cases hs
  have hlen := V.len
  have hen := V.enough
  have A : Around (ix c.knots) c.degree k u := ⟨S.hpk, fun x hx => le_trans (ValidKnots.mono V x k hx (by have := S.hkn; omega)) S.h1,
    fun x h1 h2 => lt_of_lt_of_le S.h2 (ValidKnots.mono V (k + 1) x (by omega) (by have := S.hkn; omega))⟩
  have hsp := S.hsp
  have hps := S.hps
  have hkn := S.hkn
  rw [← kv1_eq V S] at ka
  rw [← kv2_eq V S] at kb
  have key : ∀ φ : Vec4 K → K, (∀ α a b, φ (lerp4 α a b) = lerp1 α (φ a) (φ b)) →
      (∀ i, i + 1 < c.cpts.length → |φ (ix c.cpts (i + 1)) - φ (ix c.cpts i)| ≤ M * (ix c.knots (i + c.degree + 1) - ix c.knots (i + 1))) →
      (∀ i, i + 1 < a.cpts.length → |φ (ix a.cpts (i + 1)) - φ (ix a.cpts i)| ≤ M * (ix a.knots (i + a.degree + 1) - ix a.knots (i + 1))) ∧
      (∀ i, i + 1 < b.cpts.length → |φ (ix b.cpts (i + 1)) - φ (ix b.cpts i)| ≤ M * (ix b.knots (i + b.degree + 1) - ix b.knots (i + 1))) := by
    intro φ hφ hst
    obtain ⟨va, vb⟩ := hv φ hφ
    have ins := ins_slope (P := fun r => φ (ix c.cpts r)) (num := c.degree - s) (s := s) A (by omega) S.hm (fun r => φ (junk r)) hst hkn
    constructor
    · intro i hi
      rw [va _ hi, va _ (by omega), ka, da, ix_kv1 V S _ (by omega), ix_kv1 V S _ (by omega)]
      have := ins i (by omega)
      unfold insKnots at this
      rw [if_pos (show i + c.degree + 1 ≤ k + (c.degree - s) by omega),
        if_pos (show i + 1 ≤ k + (c.degree - s) by omega)] at this
      exact this
    · intro i hi
      rw [vb _ hi, vb _ (by omega), kb, db, ix_kv2 V S, ix_kv2 V S]
      have := ins (k - s + i) (by omega)
      rw [← Nat.add_assoc]
      refine le_trans this (le_of_eq ?_)
      congr 2
      · rw [if_neg (by omega)]
        unfold insKnots
        rw [if_neg (by omega), if_neg (by omega)]
        congr 1; omega
      · unfold insKnots
        by_cases c' : i + 1 ≤ c.degree
        · rw [if_pos c']
          by_cases c'' : k - s + i + 1 ≤ k
          · rw [if_pos c'']; exact S.hm _ (by omega) c''
          · rw [if_neg c'', if_pos (by omega)]
        · rw [if_neg c', if_neg (by omega), if_neg (by omega)]
          congr 1; omega
  have kx := key Vec4.x lerp4_x fun i hi => (hM i hi).1
  have ky := key Vec4.y lerp4_y fun i hi => (hM i hi).2.1
  have kz := key Vec4.z lerp4_z fun i hi => (hM i hi).2.2
  exact ⟨fun i hi => ⟨kx.1 i hi, ky.1 i hi, kz.1 i hi⟩, fun i hi => ⟨kx.2 i hi, ky.2 i hi, kz.2 i hi⟩⟩

/-- Control points that many steps apart: the sum of the knot gaps telescopes. -/
theorem slope_far {f U : Nat → K} {n p : Nat} {M : K} (h : ∀ i, i + 1 < n → |f (i + 1) - f i| ≤ M * (U (i + p + 1) - U (i + 1))) (i m : Nat) (him : i + m < n) :
    |f (i + m) - f i| ≤ M * ∑ l ∈ Finset.range p, (U (i + m + 1 + l) - U (i + 1 + l)) := by
  induction m with
  | zero => simp
  | succ m ih =>
    have h1 := ih (by omega)
    have h2 := h (i + m) (by omega)
    have tel : ∑ l ∈ Finset.range p, (U (i + m + 1 + (l + 1)) - U (i + m + 1 + l)) = U (i + m + p + 1) - U (i + m + 1) := by
      rw [Finset.sum_range_sub (fun l => U (i + m + 1 + l))]
      rw [show i + m + 1 + p = i + m + p + 1 by omega, Nat.add_zero]
    have e : ∑ l ∈ Finset.range p, (U (i + (m + 1) + 1 + l) - U (i + 1 + l)) =
        ∑ l ∈ Finset.range p, (U (i + m + 1 + (l + 1)) - U (i + m + 1 + l)) + ∑ l ∈ Finset.range p, (U (i + m + 1 + l) - U (i + 1 + l)) := by
      rw [← Finset.sum_add_distrib]
      refine Finset.sum_congr rfl fun l _ => ?_
      rw [show i + (m + 1) + 1 + l = i + m + 1 + (l + 1) by omega]; ring
    rw [e, tel, show f (i + (m + 1)) - f i = (f (i + m + 1) - f (i + m)) + (f (i + m) - f i) by rw [← add_assoc]; ring]
    calc _ ≤ _ := abs_add_le _ _
      _ ≤ _ := add_le_add h2 h1
      _ = _ := by ring

theorem slope_all {c : Curve K} (V : ValidCurve c) (I : IntervalOk c) {M : K} (hM : 0 ≤ M) {f : Nat → K}
    (h : ∀ i, i + 1 < c.cpts.length → |f (i + 1) - f i| ≤ M * (ix c.knots (i + c.degree + 1) - ix c.knots (i + 1))) (i j : Nat) (hi : i < c.cpts.length)
    (hj : j < c.cpts.length) : f i - f j ≤ c.degree * (M * (c.hi - c.lo)) := by
  obtain ⟨⟨_, f2⟩, _, f4⟩ := interval_facts I
  have hlen := V.len
  have key : ∀ i m, i + m < c.cpts.length → |f (i + m) - f i| ≤ c.degree * (M * (c.hi - c.lo)) := by
    intro i m him
    refine le_trans (slope_far h i m him) ?_
    have : ∑ l ∈ Finset.range c.degree, (ix c.knots (i + m + 1 + l) - ix c.knots (i + 1 + l)) ≤ ∑ _l ∈ Finset.range c.degree, (c.hi - c.lo) := by
      refine Finset.sum_le_sum fun l hl => ?_
      rw [Finset.mem_range] at hl
      have a := f4 _ (mem_ix (l := c.knots) (x := i + m + 1 + l) (by omega))
      have b := f2 _ (mem_ix (l := c.knots) (x := i + 1 + l) (by omega))
      linarith
    rw [Finset.sum_const, Finset.card_range, nsmul_eq_mul] at this
    calc _ ≤ _ := mul_le_mul_of_nonneg_left this hM
      _ = _ := by ring
  rcases le_total i j with hij | hij
  · obtain ⟨m, rfl⟩ := Nat.exists_eq_add_of_le hij
    linarith [(abs_le.1 (key i m hj)).1]
  · obtain ⟨m, rfl⟩ := Nat.exists_eq_add_of_le hij
    linarith [(abs_le.1 (key j m hi)).2]

/-- The box of a curve with bounded slopes. -/
theorem slope_box {p : Curve K} (V : ValidCurve p) (un : ∀ q ∈ p.cpts, q.w = 1) (I : IntervalOk p) {M : K} (hM : 0 ≤ M) (st : SlopeLe M p) :
    ∃ b, p.bbox = .ok b ∧ (b.max - b.min).sqLength ≤ 3 * (p.degree * (M * (p.hi - p.lo))) ^ 2 := by
  have hen := V.enough
  match hm : p.cpts with
  | [] => rw [hm] at hen; simp at hen
  | q0 :: qs =>
    obtain ⟨h1, h2, h3, h4, h5, h6⟩ := foldl_attains Vec4.toVec3 (fun q => q ∈ p.cpts) (q0 :: qs) ⟨q0.toVec3, q0.toVec3⟩ (by rw [hm]; exact fun q hq => hq)
      ⟨q0, by rw [hm]; simp, rfl⟩ ⟨q0, by rw [hm]; simp, rfl⟩ ⟨q0, by rw [hm]; simp, rfl⟩ ⟨q0, by rw [hm]; simp, rfl⟩ ⟨q0, by rw [hm]; simp, rfl⟩
      ⟨q0, by rw [hm]; simp, rfl⟩
    have hb : p.bbox = .ok ((q0 :: qs).foldl (fun b q => b.expand q.toVec3) ⟨q0.toVec3, q0.toVec3⟩) := by unfold Curve.bbox; rw [hm]
    refine ⟨_, hb, ?_⟩
    generalize ((q0 :: qs).foldl (fun (b : AABB K) (q : Vec4 K) => b.expand q.toVec3) ⟨q0.toVec3, q0.toVec3⟩) = b at *
    have side : ∀ (f : Vec3 K → K) (g : Vec4 K → K), (∀ q ∈ p.cpts, f q.toVec3 = g q) →
        (∀ i, i + 1 < p.cpts.length → |g (ix p.cpts (i + 1)) - g (ix p.cpts i)| ≤ M * (ix p.knots (i + p.degree + 1) - ix p.knots (i + 1))) →
        ∀ A m, (∃ q, q ∈ p.cpts ∧ A = f q.toVec3) → (∃ q, q ∈ p.cpts ∧ m = f q.toVec3) → A - m ≤ p.degree * (M * (p.hi - p.lo)) := by
      rintro f g hfg hst A m ⟨q, hq, rfl⟩ ⟨r, hr, rfl⟩
      rw [hfg q hq, hfg r hr]
      obtain ⟨i, hi, e⟩ := List.getElem_of_mem hq
      obtain ⟨j, hj, e'⟩ := List.getElem_of_mem hr
      rw [← e, ← e', ← ix_eq_getElem hi, ← ix_eq_getElem hj]
      exact slope_all V I hM (f := fun i => g (ix p.cpts i)) hst i j hi hj
    have toV : ∀ q ∈ p.cpts, q.toVec3.x = q.x ∧ q.toVec3.y = q.y ∧ q.toVec3.z = q.z := by
      intro q hq
      unfold Vec4.toVec3
      rw [un q hq, div_one, div_one, div_one]
      exact ⟨rfl, rfl, rfl⟩
    have x1 := side Vec3.x Vec4.x (fun q hq => (toV q hq).1) (fun i hi => (st i hi).1) _ _ h1 h4
    have y1 := side Vec3.y Vec4.y (fun q hq => (toV q hq).2.1) (fun i hi => (st i hi).2.1) _ _ h2 h5
    have z1 := side Vec3.z Vec4.z (fun q hq => (toV q hq).2.2) (fun i hi => (st i hi).2.2) _ _ h3 h6
    have x2 := side Vec3.x Vec4.x (fun q hq => (toV q hq).1) (fun i hi => (st i hi).1) _ _ h4 h1
    have y2 := side Vec3.y Vec4.y (fun q hq => (toV q hq).2.1) (fun i hi => (st i hi).2.1) _ _ h5 h2
    have z2 := side Vec3.z Vec4.z (fun q hq => (toV q hq).2.2) (fun i hi => (st i hi).2.2) _ _ h6 h3
    have sq : ∀ x y : K, x ≤ y → -x ≤ y → x * x ≤ y ^ 2 := by intro x y h1 h2; nlinarith
    simp only [Vec3.sqLength, Vec3.sub_x, Vec3.sub_y, Vec3.sub_z]
    have := sq _ _ x1 (by linarith)
    have := sq _ _ y1 (by linarith)
    have := sq _ _ z1 (by linarith)
    linarith

theorem Piece.halve_slope {N : Nat} {c : Curve K} (H : Halvable N c) {n k : Nat} {p : Curve K} (h : Piece c n k p) (hn : n + 1 ≤ N) {M : K}
    (st : SlopeLe M p) : ∃ a b, p.split ((p.hi - p.lo) * (1 / 2) + p.lo) false = .ok (a, b) ∧ (Piece c (n + 1) (2 * k) a ∧ SlopeLe M a) ∧
      Piece c (n + 1) (2 * k + 1) b ∧ SlopeLe M b := by
  obtain ⟨a, b, hs, ha, hb⟩ := h.halve H hn
  obtain ⟨_, hlo, hhi, hsep, hcnt⟩ := h.cuttable H hn _ rfl
  have htol : (0 : K) < 1 / 10 ^ 12 := by positivity
  obtain ⟨sa, sb⟩ := split_slope p h.valid ⟨1, one_pos, h.unit⟩ _ (by rw [h.domlo]; linarith) (by rw [h.domhi]; linarith) hlo hhi hsep hcnt st hs
  exact ⟨a, b, hs, ⟨ha, sa⟩, hb, sb⟩

/-- The width of a piece. -/
theorem Piece.width {c : Curve K} {n k : Nat} {p : Curve K} (h : Piece c n k p) : p.hi - p.lo = (c.hi - c.lo) / 2 ^ n := by
  rw [h.lo, h.hi, cut_sub]; push_cast; ring

theorem Piece.small {sqrt : K → K} (hs : Newton.IsSqrt sqrt) (hs0 : sqrt 0 = 0) {tol : K} (ht : 0 < tol) {c : Curve K} {n k : Nat} {p : Curve K}
    (h : Piece c n k p) {M : K} (hM : 0 ≤ M) (st : SlopeLe M p) (hm : 3 * (c.degree * (M * (c.hi - c.lo))) ^ 2 < tol ^ 2 * 4 ^ n) {b : AABB K}
    (hb : p.bbox = .ok b) : Ccx.small sqrt tol b = true := by
  obtain ⟨b', hb', l⟩ := slope_box h.valid h.unit h.interval hM st
  rw [hb] at hb'
  cases hb'
  rw [small_spec hs hs0]
  refine ⟨ht, lt_of_le_of_lt l ?_⟩
  rw [h.width, h.deg]
  have h4 : (0 : K) < 4 ^ n := by positivity
  have e : 3 * ((c.degree : K) * (M * ((c.hi - c.lo) / 2 ^ n))) ^ 2 = 3 * (c.degree * (M * (c.hi - c.lo))) ^ 2 / 4 ^ n := by
    rw [show (4 : K) ^ n = 2 ^ n * 2 ^ n by rw [← mul_pow]; norm_num]
    field_simp
  rw [e, div_lt_iff₀ h4]
  exact hm

theorem slope_search {sqrt : K → K} (hs : Newton.IsSqrt sqrt) (hs0 : sqrt 0 = 0) {tol : K} (ht : 0 < tol) {N : Nat} {c1 c2 : Curve K}
    (H1 : Halvable N c1) (H2 : Halvable N c2) {M1 M2 : K} (hM1 : 0 ≤ M1) (hM2 : 0 ≤ M2) (h1 : 3 * (c1.degree * (M1 * (c1.hi - c1.lo))) ^ 2 < tol ^ 2 * 4 ^ N)
    (h2 : 3 * (c2.degree * (M2 * (c2.hi - c2.lo))) ^ 2 < tol ^ 2 * 4 ^ N) :
    ∀ m n k l p q acc, n + m = N → Piece c1 n k p → Piece c2 n l q → SlopeLe M1 p → SlopeLe M2 q → ∃ res, ccx sqrt tol (m + 1) p q acc = some (.ok res) := by
  intro m
  induction m with
  | zero =>
    intro n k l p q acc hn hp hq sp sq
    obtain rfl : n = N := by omega
    obtain ⟨b1, e1, _⟩ := hp.box
    obtain ⟨b2, e2, _⟩ := hq.box
    rw [ccx, e1, e2]
    simp only
    by_cases hi : b1.intersects b2 = true
    · rw [if_pos hi, if_pos]
      · exact ⟨_, rfl⟩
      · rw [Bool.and_eq_true]
        exact ⟨hp.small hs hs0 ht hM1 sp h1 e1, hq.small hs hs0 ht hM2 sq h2 e2⟩
    · rw [if_neg hi]; exact ⟨_, rfl⟩
  | succ m ih =>
    intro n k l p q acc hn hp hq sp sq
    obtain ⟨b1, e1, _⟩ := hp.box
    obtain ⟨b2, e2, _⟩ := hq.box
    rw [ccx, e1, e2]
    simp only
    by_cases hi : b1.intersects b2 = true
    · rw [if_pos hi]
      by_cases hsm : (Ccx.small sqrt tol b1 && Ccx.small sqrt tol b2) = true
      · rw [if_pos hsm]; exact ⟨_, rfl⟩
      · rw [if_neg hsm]
        obtain ⟨a1, d1, sp1, ⟨pa1, sa1⟩, pd1, sd1⟩ := hp.halve_slope H1 (by omega) sp
        obtain ⟨a2, d2, sp2, ⟨pa2, sa2⟩, pd2, sd2⟩ := hq.halve_slope H2 (by omega) sq
        rw [sp1, sp2]
        simp only [andThen]
        obtain ⟨r1, x1⟩ := ih (n + 1) _ _ a1 a2 acc (by omega) pa1 pa2 sa1 sa2
        obtain ⟨r2, x2⟩ := ih (n + 1) _ _ d1 d2 r1 (by omega) pd1 pd2 sd1 sd2
        obtain ⟨r3, x3⟩ := ih (n + 1) _ _ a1 d2 r2 (by omega) pa1 pd2 sa1 sd2
        obtain ⟨r4, x4⟩ := ih (n + 1) _ _ d1 a2 r3 (by omega) pd1 pa2 sd1 sa2
        simp only [x1, x2, x3]
        exact ⟨r4, x4⟩
    · rw [if_neg hi]; exact ⟨_, rfl⟩

end Cmm.Ccx
