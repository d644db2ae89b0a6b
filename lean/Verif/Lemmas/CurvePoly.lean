import Verif.Lemmas.DersRows
import Verif.Spec.Derivative
import Mathlib.Order.Interval.Set.Infinite
/-! A curve with equal weights is a polynomial on each knot span. -/
namespace Cmm.Nurbs
open Polynomial
variable {K : Type} [Field K] [LinearOrder K] [IsStrictOrderedRing K]

theorem SpanIn.findSpan {n p : Nat} {U : List K} (V : ValidKnots n p U) {i : Nat} {t : K} (h : SpanIn n p U i t) :
    findSpan (n - 1) p t (ix U) = i := by
  have h0 := h.lt_len
  have hl := V.len
  refine findSpan_eq h.deg_le (by omega) (fun j hj hj' => ?_) (fun hi => ?_)
  · rcases h.left with e | e
    · omega
    · exact le_trans (ValidKnots.mono V _ _ hj' (by omega)) e
  · rcases h.right with e | e
    · omega
    · exact e

theorem SpanIn.good {n p : Nat} {U : List K} (V : ValidKnots n p U) {i : Nat} {t : K} (h : SpanIn n p U i t) :
    GoodSpan (ix U) p i :=
  goodSpan_of_sorted (ValidKnots.mono V) h.proper (by have := h.lt_len; omega)

/-- The point computed with equal weights. -/
theorem eval_equal {c : Curve K} (V : ValidCurve c) (hw : EqualWeights c) {i : Nat} {t : K} (h : SpanOf c i t) :
    c.evaluate t = .ok ⟨splineVal (ix c.knots) c.degree (fun r => (ix c.cpts r).x) i t,
      splineVal (ix c.knots) c.degree (fun r => (ix c.cpts r).y) i t,
      splineVal (ix c.knots) c.degree (fun r => (ix c.cpts r).z) i t⟩ := by
  have hf := h.findSpan V
  have hg := h.good V
  have hl := V.len
  have h1 := h.deg_le
  have h2 := h.lt_len
  have hd := V.deg_le
  obtain ⟨w, hw0, hw⟩ := hw
  unfold Curve.evaluate
  simp only [hf]
  rw [if_neg (by unfold maxDegree; omega), curvePoint, hf, curvePointAt_eq]
  have hwr : ∀ x, x ≤ i → i ≤ x + c.degree → (ix c.cpts x).w = w := fun x hx _ => hw _ (mem_ix (by omega))
  have hW : splineVal (ix c.knots) c.degree (fun r => (ix c.cpts r).w) i t = w := by
    rw [splineVal_congr (P₂ := fun _ => w) t h1 hwr, splineVal, dotL_const, basisFuns_sum h1 hg, one_mul]
  have hX : ∀ φ : Vec4 K → K, splineVal (ix c.knots) c.degree (fun r => (ix c.cpts r).w * φ (ix c.cpts r)) i t =
      w * splineVal (ix c.knots) c.degree (fun r => φ (ix c.cpts r)) i t := by
    intro φ
    rw [splineVal_congr (P₂ := fun r => w * φ (ix c.cpts r)) t h1 (fun x a b => by rw [hwr x a b]), splineVal, dotL_mul]
    rfl
  rw [hX (fun q => q.x), hX (fun q => q.y), hX (fun q => q.z), hW]
  simp only [mul_div_cancel_left₀ _ (ne_of_gt hw0)]

theorem poly_eq_of_span {F G : K[X]} {lo hi : K} (h : lo < hi) (e : ∀ s, lo ≤ s → s < hi → F.eval s = G.eval s) : F = G :=
  Polynomial.eq_of_infinite_eval_eq F G ((Set.Ico_infinite h).mono fun s hs => e s hs.1 hs.2)

theorem SpanIn.inside {n p : Nat} {U : List K} {i : Nat} {t s : K} (h : SpanIn n p U i t) (h1 : ix U i ≤ s)
    (h2 : s < ix U (i + 1)) : SpanIn n p U i s :=
  ⟨h.deg_le, h.lt_len, h.proper, .inr h1, .inr h2⟩

/-- The given polynomials are the coordinate splines, everywhere. -/
theorem PolyOn.spline {c : Curve K} (V : ValidCurve c) (hw : EqualWeights c) {i : Nat} {t : K} (h : SpanOf c i t)
    {X Y Z : K[X]} (hP : PolyOn c i X Y Z) :
    (∀ s, X.eval s = splineVal (ix c.knots) c.degree (fun r => (ix c.cpts r).x) i s) ∧
    (∀ s, Y.eval s = splineVal (ix c.knots) c.degree (fun r => (ix c.cpts r).y) i s) ∧
    (∀ s, Z.eval s = splineVal (ix c.knots) c.degree (fun r => (ix c.cpts r).z) i s) := by
  have hg := h.good V
  have hp := V.deg_pos
  obtain ⟨p, hpe⟩ : ∃ p, c.degree = p + 1 := ⟨c.degree - 1, by omega⟩
  have key : ∀ (P : Nat → K) (F : K[X]), (∀ s, ix c.knots i ≤ s → s < ix c.knots (i + 1) →
      F.eval s = splineVal (ix c.knots) c.degree P i s) → ∀ s, F.eval s = splineVal (ix c.knots) c.degree P i s := by
    intro P F hF
    rw [hpe] at hg hF ⊢
    obtain ⟨G, hG, _⟩ := splineVal_poly (by have := h.deg_le; omega) hg P
    have : F = G := poly_eq_of_span h.proper fun s a b => by rw [hF s a b, hG]
    intro s
    rw [this, hG]
  have hv : ∀ s, ix c.knots i ≤ s → s < ix c.knots (i + 1) → _ := fun s a b => by
    have := (hP s a b).symm.trans (eval_equal V hw (h.inside a b))
    exact Vec3.mk.inj (Res.ok.inj this)
  exact ⟨key _ X fun s a b => (hv s a b).1, key _ Y fun s a b => (hv s a b).2.1, key _ Z fun s a b => (hv s a b).2.2⟩

theorem PolyOn.iterate {c : Curve K} (V : ValidCurve c) (hw : EqualWeights c) {i : Nat} {t : K} (h : SpanOf c i t)
    {X Y Z : K[X]} (hP : PolyOn c i X Y Z) (k : Nat) (hk : k ≤ c.degree) :
    (∀ s, (derivative^[k] X).eval s =
      splineVal (ix c.knots) (c.degree - k) (hodoIter (ix c.knots) c.degree (fun r => (ix c.cpts r).x) k) i s) ∧
    (∀ s, (derivative^[k] Y).eval s =
      splineVal (ix c.knots) (c.degree - k) (hodoIter (ix c.knots) c.degree (fun r => (ix c.cpts r).y) k) i s) ∧
    (∀ s, (derivative^[k] Z).eval s =
      splineVal (ix c.knots) (c.degree - k) (hodoIter (ix c.knots) c.degree (fun r => (ix c.cpts r).z) k) i s) := by
  obtain ⟨a, b, d⟩ := hP.spline V hw h
  have hg := h.good V
  exact ⟨splineVal_iterate h.deg_le hg _ a k hk, splineVal_iterate h.deg_le hg _ b k hk, splineVal_iterate h.deg_le hg _ d k hk⟩

/-- All the derivatives the code computes. -/
theorem derivs_eq {c : Curve K} (V : ValidCurve c) (hw : EqualWeights c) (hp : c.degree ≤ 3) {i : Nat} {t : K}
    (h : SpanOf c i t) {X Y Z : K[X]} (hP : PolyOn c i X Y Z) (d : Nat) :
    ∃ ck, c.derivs t d = .ok ck ∧ ck.length = min d c.degree + 1 ∧ ∀ k, k ≤ min d c.degree → ∃ w, ck[k]? =
      some ⟨(derivative^[k] X).eval t, (derivative^[k] Y).eval t, (derivative^[k] Z).eval t, w⟩ := by
  have hf := h.findSpan V
  have hl := V.len
  have h2 := h.lt_len
  unfold Curve.derivs
  simp only [hf]
  rw [if_neg (by omega), if_neg (by omega), if_neg (by omega)]
  refine ⟨_, rfl, by rw [List.length_map, dersBasisFuns_length], fun k hk => ?_⟩
  obtain ⟨a, b, e⟩ := hP.iterate V hw h k (by omega)
  rw [a, b, e]
  have hr := fun P => ders_rows (ix c.knots) P i t c.degree (min d c.degree) k hp (Nat.min_le_right _ _) hk h.deg_le
  rw [List.getElem?_map]
  have hlen := dersBasisFuns_length i t c.degree (min d c.degree) (ix c.knots)
  have hk' : k < (dersBasisFuns i t c.degree (min d c.degree) (ix c.knots)).length := by omega
  rw [List.getElem?_eq_getElem hk', Option.map_some, derivAcc_eq]
  simp only [List.getElem?_eq_getElem hk', Option.getD_some] at hr
  simp only [hr, zero_add]
  exact ⟨_, rfl⟩

/-- Polynomials for a span exist, of the degree of the curve at most. -/
theorem polyOn_exists {c : Curve K} (V : ValidCurve c) (hw : EqualWeights c) {i : Nat} {t : K} (h : SpanOf c i t) :
    ∃ X Y Z : K[X], PolyOn c i X Y Z ∧ X.natDegree ≤ c.degree ∧ Y.natDegree ≤ c.degree ∧ Z.natDegree ≤ c.degree := by
  have hg := h.good V
  obtain ⟨X, hX, dX⟩ := splineVal_natDegree h.deg_le hg (fun r => (ix c.cpts r).x)
  obtain ⟨Y, hY, dY⟩ := splineVal_natDegree h.deg_le hg (fun r => (ix c.cpts r).y)
  obtain ⟨Z, hZ, dZ⟩ := splineVal_natDegree h.deg_le hg (fun r => (ix c.cpts r).z)
  refine ⟨X, Y, Z, fun s a b => ?_, dX, dY, dZ⟩
  rw [hX, hY, hZ]
  exact eval_equal V hw (h.inside a b)

theorem PolyOn.unique {c : Curve K} {i : Nat} {t : K} (h : SpanOf c i t) {X Y Z X' Y' Z' : K[X]} (hP : PolyOn c i X Y Z)
    (hP' : PolyOn c i X' Y' Z') : X = X' ∧ Y = Y' ∧ Z = Z' := by
  have hv : ∀ s, ix c.knots i ≤ s → s < ix c.knots (i + 1) → _ := fun s a b =>
    Vec3.mk.inj (Res.ok.inj ((hP s a b).symm.trans (hP' s a b)))
  exact ⟨poly_eq_of_span h.proper fun s a b => (hv s a b).1, poly_eq_of_span h.proper fun s a b => (hv s a b).2.1,
    poly_eq_of_span h.proper fun s a b => (hv s a b).2.2⟩

end Cmm.Nurbs
