import Verif.Lemmas.CurveSplit
import Verif.Lemmas.AABB
/-! Lemmas about whole curves: convex combinations, insertion and splitting of the `Curve` object. -/
namespace Cmm.Nurbs
variable {K : Type} [Field K] [LinearOrder K] [IsStrictOrderedRing K]

omit [LinearOrder K] [IsStrictOrderedRing K] in
theorem splitTol_eq : (splitTol : K) = 1 / 10 ^ 12 := by simp [splitTol]; norm_num

/-! ### Convex combinations -/

theorem dotL_pos (N : List K) (g : Nat → K) : ∀ k, (∀ x ∈ N, 0 ≤ x) → (∀ r < N.length, 0 < g (k + r)) →
    0 ≤ dotL N g k ∧ (0 < N.sum → 0 < dotL N g k) := by
  induction N with
  | nil => intro k _ _; simp [dotL]
  | cons a N ih =>
    intro k h1 h2
    obtain ⟨i1, i2⟩ := ih (k + 1) (fun x hx => h1 x (by simp [hx])) (fun r hr => by
      have := h2 (r + 1) (by simpa using hr)
      have e : k + 1 + r = k + (r + 1) := by omega
      rw [e]; exact this)
    have ha := h1 a (by simp)
    have hg : 0 < g k := by simpa using h2 0 (by simp)
    rw [dotL]
    refine ⟨add_nonneg (mul_nonneg ha (le_of_lt hg)) i1, fun hs => ?_⟩
    rw [List.sum_cons] at hs
    rcases lt_or_eq_of_le ha with h | h
    · exact add_pos_of_pos_of_nonneg (mul_pos h hg) i1
    · rw [← h, zero_add] at hs
      exact add_pos_of_nonneg_of_pos (mul_nonneg ha (le_of_lt hg)) (i2 hs)

/-- The coefficients `n_j w_j / S`. -/
def ratCoef (S : K) (N : List K) (qs : List (Vec4 K)) : List K := List.zipWith (fun n (q : Vec4 K) => n * q.w / S) N qs

theorem ratCoef_spec (S : K) (l : List (Vec4 K)) (N : List K) : ∀ k, k + N.length ≤ l.length →
    (ratCoef S N ((l.drop k).take N.length)).sum = dotL N (fun r => (ix l r).w) k / S ∧
    weightedSum (ratCoef S N ((l.drop k).take N.length)) (((l.drop k).take N.length).map Vec4.pos) =
      ⟨dotL N (fun r => (ix l r).w * (ix l r).x) k / S, dotL N (fun r => (ix l r).w * (ix l r).y) k / S,
       dotL N (fun r => (ix l r).w * (ix l r).z) k / S⟩ := by
  induction N with
  | nil => intro k _; simp [ratCoef, dotL, weightedSum]; rfl
  | cons a N ih =>
    intro k hk
    have hlt : k < l.length := by simp at hk; omega
    obtain ⟨i1, i2⟩ := ih (k + 1) (by simp at hk; omega)
    have e : (l.drop k).take (a :: N).length = ix l k :: (l.drop (k + 1)).take N.length := by
      rw [List.drop_eq_getElem_cons hlt, List.length_cons, List.take_succ_cons, ix_eq_getElem hlt]
    rw [e]
    constructor
    · change (a * (ix l k).w / S + (ratCoef S N ((l.drop (k + 1)).take N.length)).sum) = _
      rw [i1, dotL]; ring
    · change ((Vec4.pos (ix l k)).smul (a * (ix l k).w / S) +
        weightedSum (ratCoef S N ((l.drop (k + 1)).take N.length)) (((l.drop (k + 1)).take N.length).map Vec4.pos)) = _
      rw [i2]
      ext <;> simp only [Vec3.add_x, Vec3.add_y, Vec3.add_z, Vec3.smul_x, Vec3.smul_y, Vec3.smul_z, Vec4.pos, dotL] <;> ring

theorem weightedSum_bounds (as : List K) : ∀ (qs : List (Vec3 K)) (b : AABB K), as.length = qs.length →
    (∀ x ∈ as, 0 ≤ x) → (∀ q ∈ qs, InBox q b) →
    as.sum * b.min.x ≤ (weightedSum as qs).x ∧ (weightedSum as qs).x ≤ as.sum * b.max.x ∧
    as.sum * b.min.y ≤ (weightedSum as qs).y ∧ (weightedSum as qs).y ≤ as.sum * b.max.y ∧
    as.sum * b.min.z ≤ (weightedSum as qs).z ∧ (weightedSum as qs).z ≤ as.sum * b.max.z := by
  induction as with
  | nil => intro qs b _ _ _; simp [weightedSum]
  | cons a as ih =>
    intro qs b hl ha hq
    cases qs with
    | nil => simp at hl
    | cons q qs =>
      obtain ⟨i1, i2, i3, i4, i5, i6⟩ := ih qs b (by simpa using hl) (fun x hx => ha x (by simp [hx]))
        (fun x hx => hq x (by simp [hx]))
      have h0 := ha a (by simp)
      obtain ⟨q1, q2, q3, q4, q5, q6⟩ := hq q (by simp)
      have m := fun {x y : K} (h : x ≤ y) => mul_le_mul_of_nonneg_left h h0
      simp only [weightedSum, Vec3.add_x, Vec3.add_y, Vec3.add_z, Vec3.smul_x, Vec3.smul_y, Vec3.smul_z, List.sum_cons,
        add_mul, mul_comm q.x, mul_comm q.y, mul_comm q.z]
      exact ⟨add_le_add (m q1) i1, add_le_add (m q2) i2, add_le_add (m q3) i3, add_le_add (m q4) i4,
        add_le_add (m q5) i5, add_le_add (m q6) i6⟩

theorem ConvexCombination.inBox {r : Vec3 K} {qs : List (Vec3 K)} (h : ConvexCombination r qs) {b : AABB K}
    (hq : ∀ q ∈ qs, InBox q b) : InBox r b := by
  obtain ⟨a, hl, hn, hs, rfl⟩ := h
  have := weightedSum_bounds a qs b hl hn hq
  rw [hs] at this
  simpa [InBox] using this

theorem mem_ix {α : Type} [Zero α] {l : List α} {x : Nat} (h : x < l.length) : ix l x ∈ l := by
  rw [ix_eq_getElem h]; exact List.getElem_mem h

/-- The rational sum of an evaluated curve, with its positive denominator. -/
theorem curve_eval_sum {c : Curve K} (V : ValidCurve c) (hw : PositiveWeights c) {t : K} (hd : InDomain c t) :
    ∃ i, findSpan (c.cpts.length - 1) c.degree t (ix c.knots) = i ∧ c.degree ≤ i ∧ i < c.cpts.length ∧
      GoodSpan (ix c.knots) c.degree i ∧
      (∀ x ∈ basisFuns i t (ix c.knots) c.degree, 0 ≤ x) ∧ (basisFuns i t (ix c.knots) c.degree).sum = 1 ∧
      0 < splineVal (ix c.knots) c.degree (fun r => (ix c.cpts r).w) i t ∧
      c.evaluate t = .ok (curvePointAt i c.degree (ix c.knots) (ix c.cpts) t) := by
  obtain ⟨i, hi, a1, a2, a3, a4, a5, a6, a7⟩ := ValidKnots.span V hd.1 hd.2
  have hn := basisFuns_nonneg (ValidKnots.mono V) a3 a4 c.degree a1 (by omega)
  have hs := basisFuns_sum a1 a7 t
  refine ⟨i, hi, a1, a2, a7, hn, hs, ?_, by rw [curve_eval V hd, hi]⟩
  apply (dotL_pos _ _ _ hn _).2 (by rw [hs]; exact one_pos)
  intro r hr
  rw [basisFuns_length] at hr
  exact hw _ (mem_ix (by omega))

/-! ### Equal weights -/

theorem curve_eval_equal {c : Curve K} (V : ValidCurve c) {w : K} (hw0 : w ≠ 0) (hw : ∀ q ∈ c.cpts, q.w = w) {t : K}
    (hd : InDomain c t) :
    let i := findSpan (c.cpts.length - 1) c.degree t (ix c.knots)
    c.evaluate t = .ok ⟨splineVal (ix c.knots) c.degree (fun r => (ix c.cpts r).x) i t,
      splineVal (ix c.knots) c.degree (fun r => (ix c.cpts r).y) i t,
      splineVal (ix c.knots) c.degree (fun r => (ix c.cpts r).z) i t⟩ := by
  obtain ⟨i, hi, a1, a2, a3, a4, a5, a6, a7⟩ := ValidKnots.span V hd.1 hd.2
  simp only
  rw [curve_eval V hd, hi, curvePointAt_equal a1 a7 hw0]
  intro x hx _
  exact hw _ (mem_ix (by omega))

/-! ### Insertion -/

theorem lerp4_x (α : K) (a b : Vec4 K) : (lerp4 α a b).x = lerp1 α a.x b.x := by simp [lerp4, lerp1]; ring
theorem lerp4_y (α : K) (a b : Vec4 K) : (lerp4 α a b).y = lerp1 α a.y b.y := by simp [lerp4, lerp1]; ring
theorem lerp4_z (α : K) (a b : Vec4 K) : (lerp4 α a b).z = lerp1 α a.z b.z := by simp [lerp4, lerp1]; ring
theorem lerp4_w (α : K) (a b : Vec4 K) : (lerp4 α a b).w = lerp1 α a.w b.w := by simp [lerp4, lerp1]; ring

theorem findMultiplicity_eq_count {U : List K} {u : K} (hsep : ClearOf (1 / 10 ^ 12) U u) :
    findMultiplicity u U = U.count u := by
  rw [findMultiplicity_eq_countP, List.count_eq_countP]
  apply List.countP_congr
  intro x hx
  by_cases h : x = u
  · subst h; simp
  · have := hsep x hx h
    simpa [h] using this

theorem updateInterval_ok {c : Curve K} (h : c.knots ≠ []) :
    ∃ lo hi, c.updateInterval = .ok { c with lo := lo, hi := hi } ∧ (lo ∈ c.knots ∧ ∀ x ∈ c.knots, lo ≤ x) ∧
      (hi ∈ c.knots ∧ ∀ x ∈ c.knots, x ≤ hi) := by
  obtain ⟨lo, h1, h1'⟩ := minElement_ok h
  obtain ⟨hi, h2, h2'⟩ := maxElement_ok h
  exact ⟨lo, hi, by simp [Curve.updateInterval, h1, h2], h1', h2'⟩

theorem intervalOk_of {c c' : Curve K} (h : c.updateInterval = .ok c') : IntervalOk c' := by
  unfold IntervalOk
  unfold Curve.updateInterval at h ⊢
  cases h1 : minElement c.knots <;> cases h2 : maxElement c.knots <;> rw [h1] at h <;> simp [h2] at h
  subst h
  simp [h1, h2]

/-- What `insertKnot` returns. -/
theorem insertKnot_ok {c : Curve K} (V : ValidCurve c) {u : K} {k : Nat} {count : Nat}
    (hk : findSpan (c.cpts.length - 1) c.degree u (ix c.knots) = k) (hpk : c.degree ≤ k) (hkn : k < c.cpts.length)
    (hc : count + findMultiplicity u c.knots ≤ c.degree) :
    ∃ junk lo hi, c.insertKnot u count = .ok { c with
        cpts := (List.range (c.cpts.length + count)).map (insArray lerp4 c.degree (ix c.knots) (ix c.cpts) u count
          (findMultiplicity u c.knots) k junk)
        knots := knotInsertionKv c.knots u k count, lo := lo, hi := hi } ∧
      ({ c with
        cpts := (List.range (c.cpts.length + count)).map (insArray lerp4 c.degree (ix c.knots) (ix c.cpts) u count
          (findMultiplicity u c.knots) k junk)
        knots := knotInsertionKv c.knots u k count } : Curve K).updateInterval = c.insertKnot u count := by
  have hlen := V.len
  have h8 := V.deg_le
  unfold Curve.insertKnot
  simp only [hk]
  rw [if_neg (by omega)]
  unfold knotInsertion
  rw [if_neg (by unfold maxDegree; omega)]
  simp only [Res.ok_bind]
  set junk : Nat → Vec4 K := fun i =>
    if i ≤ count then ix c.cpts (c.cpts.length - 1) - ⟨(i : K), (i : K), (i : K), (i : K)⟩ else ix c.cpts i with hjunk
  obtain ⟨lo, hi, h, _⟩ := updateInterval_ok (c := ({ c with
        cpts := (List.range (c.cpts.length + count)).map (insArray lerp4 c.degree (ix c.knots) (ix c.cpts) u count
          (findMultiplicity u c.knots) k junk)
        knots := knotInsertionKv c.knots u k count } : Curve K)) (by
    have : (knotInsertionKv c.knots u k count).length ≠ 0 := by
      rw [knotInsertionKv_eq _ _ _ _ (by omega)]; simp; omega
    exact fun h => this (List.length_eq_zero_iff.mpr h))
  exact ⟨junk, lo, hi, h, rfl⟩

end Cmm.Nurbs
