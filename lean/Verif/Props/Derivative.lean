import Verif.Lemmas.CurvePoly
import Mathlib.Analysis.Calculus.Deriv.Polynomial
/-! Properties C74 and C75: derivatives of curves. -/
namespace Cmm.Nurbs
open Polynomial
variable {K : Type} [Field K] [LinearOrder K] [IsStrictOrderedRing K]

/-- A cubic with an interior knot, equal weights 2. -/
def cubicDemo : Curve ℚ :=
  ⟨[⟨0, 0, 0, 2⟩, ⟨1, 2, 0, 2⟩, ⟨3, 1, 1, 2⟩, ⟨4, 0, 2, 2⟩, ⟨6, 1, 5, 2⟩], 3, [0, 0, 0, 0, 1, 3, 3, 3, 3], false, 0, 3⟩

theorem cubicDemo_valid : ValidCurve cubicDemo :=
  ⟨by decide, by decide, by decide, by decide, by unfold SortedKnots; decide +kernel, by decide +kernel⟩

theorem cubicDemo_equal : EqualWeights cubicDemo := ⟨2, by decide +kernel, by decide +kernel⟩

theorem cubicDemo_span : SpanOf cubicDemo 4 2 :=
  ⟨by decide, by decide, by decide +kernel, .inr (by decide +kernel), .inl (by decide)⟩

/-! ### C74 -/

/-- C74. On every knot span a curve with equal weights is one polynomial per coordinate, of the degree of the curve at most, and
only one. -/
theorem C74_polynomial_on_spans (c : Curve K) (V : ValidCurve c) (hw : EqualWeights c) (i : Nat) (t : K) (h : SpanOf c i t) :
    ∃ X Y Z : K[X], PolyOn c i X Y Z ∧ X.natDegree ≤ c.degree ∧ Y.natDegree ≤ c.degree ∧ Z.natDegree ≤ c.degree ∧
      (∀ X' Y' Z', PolyOn c i X' Y' Z' → X' = X ∧ Y' = Y ∧ Z' = Z) ∧
      c.evaluate t = .ok ⟨X.eval t, Y.eval t, Z.eval t⟩ := by
  obtain ⟨X, Y, Z, hP, a, b, d⟩ := polyOn_exists V hw h
  refine ⟨X, Y, Z, hP, a, b, d, fun X' Y' Z' h' => h'.unique h hP, ?_⟩
  obtain ⟨eX, eY, eZ⟩ := hP.spline V hw h
  rw [eval_equal V hw h, eX, eY, eZ]

/-- C74. Every parameter of the domain belongs to a knot span. -/
theorem C74_spans_cover (c : Curve K) (V : ValidCurve c) (t : K) (hd : InDomain c t) : ∃ i, SpanOf c i t := by
  obtain ⟨i, _, a1, a2, a3, a4, a5, a6, _⟩ := ValidKnots.span V hd.1 hd.2
  refine ⟨i, a1, a2, a5, .inr a3, ?_⟩
  rcases a6 with h | h
  · exact .inl (by omega)
  · exact .inr h

/-- C74. `derivative(t)` of a curve of degree at most 3 with equal weights is the derivative of the curve at `t` (from the
right at an interior knot). -/
theorem C74_derivative_partial (c : Curve K) (V : ValidCurve c) (hw : EqualWeights c) (hp : c.degree ≤ 3) (i : Nat) (t : K)
    (h : SpanOf c i t) (X Y Z : K[X]) (hP : PolyOn c i X Y Z) :
    c.derivative t = .ok ⟨X.derivative.eval t, Y.derivative.eval t, Z.derivative.eval t⟩ := by
  obtain ⟨ck, e, hl, hk⟩ := derivs_eq V hw hp h hP 1
  obtain ⟨w, hk⟩ := hk 1 (by have := V.deg_pos; omega)
  unfold Curve.derivative
  rw [e, Res.ok_bind, hk]
  rfl

/-- C74. `derivative(t, result, d)` gives the point and the first `d - 1` derivatives, for `d` up to the degree plus one. -/
theorem C74_derivative_list_partial (c : Curve K) (V : ValidCurve c) (hw : EqualWeights c) (hp : c.degree ≤ 3) (i : Nat) (t : K)
    (h : SpanOf c i t) (X Y Z : K[X]) (hP : PolyOn c i X Y Z) (d : Nat) (hd : d ≤ c.degree + 1) :
    ∃ l, c.derivativeList t d = .ok l ∧ l.length = d ∧ ∀ k < d, l[k]? =
      some ⟨(derivative^[k] X).eval t, (derivative^[k] Y).eval t, (derivative^[k] Z).eval t⟩ := by
  obtain ⟨ck, e, hl, hk⟩ := derivs_eq V hw hp h hP d
  unfold Curve.derivativeList
  rw [e, Res.ok_bind, if_neg (by omega)]
  refine ⟨_, rfl, by simp; omega, fun k hkd => ?_⟩
  obtain ⟨w, hw⟩ := hk k (by omega)
  rw [List.getElem?_map, List.getElem?_take, if_pos hkd, hw]
  rfl

/-- C74. Over the reals: inside a knot span the result is the derivative of the curve as a function. -/
theorem C74_real_derivative_partial (c : Curve ℝ) (V : ValidCurve c) (hw : EqualWeights c) (hp : c.degree ≤ 3) (i : Nat) (t : ℝ)
    (h1 : c.degree ≤ i) (h2 : i < c.cpts.length) (h3 : ix c.knots i < t) (h4 : t < ix c.knots (i + 1)) (γ : ℝ → Vec3 ℝ)
    (hγ : ∀ s, ix c.knots i < s → s < ix c.knots (i + 1) → c.evaluate s = .ok (γ s)) :
    ∃ d, c.derivative t = .ok d ∧ HasDerivAt (fun s => (γ s).x) d.x t ∧ HasDerivAt (fun s => (γ s).y) d.y t ∧
      HasDerivAt (fun s => (γ s).z) d.z t := by
  have h : SpanOf c i t := ⟨h1, h2, h3.trans h4, .inr h3.le, .inr h4⟩
  obtain ⟨X, Y, Z, hP, -⟩ := polyOn_exists V hw h
  refine ⟨_, C74_derivative_partial c V hw hp i t h X Y Z hP, ?_⟩
  have hn : ∀ᶠ s in nhds t, γ s = ⟨X.eval s, Y.eval s, Z.eval s⟩ := by
    filter_upwards [Ioo_mem_nhds h3 h4] with s hs
    exact Res.ok.inj ((hγ s hs.1 hs.2).symm.trans (hP s hs.1.le hs.2))
  exact ⟨(X.hasDerivAt t).congr_of_eventuallyEq (hn.mono fun s e => by simp [e]),
    (Y.hasDerivAt t).congr_of_eventuallyEq (hn.mono fun s e => by simp [e]),
    (Z.hasDerivAt t).congr_of_eventuallyEq (hn.mono fun s e => by simp [e])⟩

example : SpanOf cubicDemo 4 2 ∧ cubicDemo.derivative 2 = .ok ⟨5 / 3, -3 / 8, 15 / 8⟩ ∧
    cubicDemo.derivativeList 2 4 = .ok [⟨34 / 9, 13 / 24, 47 / 24⟩, ⟨5 / 3, -3 / 8, 15 / 8⟩, ⟨2 / 3, 5 / 4, 7 / 4⟩,
      ⟨4 / 3, 5 / 4, 7 / 4⟩] := ⟨cubicDemo_span, by decide +kernel, by decide +kernel⟩

/-- C74. A curve of degree 4 or more makes `derivative(t)` throw, wherever `evaluate` is defined. -/
theorem C74_high_degree_throws (c : Curve K) (V : ValidCurve c) (hp : 4 ≤ c.degree) (t : K) (d : Nat) :
    c.derivative t = .throws ∧ c.derivativeList t d = .throws := by
  have e : ∀ d, c.derivs t d = .throws := by
    intro d
    have hl := V.len
    have hn := V.enough
    have := findSpan_le (n := c.cpts.length - 1) (by omega) t (ix c.knots) (p := c.degree)
    unfold Curve.derivs
    simp only
    rw [if_neg (by omega), if_pos hp]
  unfold Curve.derivative Curve.derivativeList
  rw [e, e]
  exact ⟨rfl, rfl⟩

/-- C74. Asking `derivative(t, result, d)` for more than `degree + 1` entries reads past the computed ones. -/
theorem C74_too_many_undefined (c : Curve K) (V : ValidCurve c) (hp : c.degree ≤ 3) (t : K) (d : Nat) (hd : c.degree + 1 < d) :
    c.derivativeList t d = .ub := by
  have hl := V.len
  have hn := V.enough
  have := findSpan_le (n := c.cpts.length - 1) (by omega) t (ix c.knots) (p := c.degree)
  unfold Curve.derivativeList Curve.derivs
  simp only
  rw [if_neg (by omega), if_neg (by omega), if_neg (by omega), Res.ok_bind, if_pos]
  simp [dersBasisFuns_length]; omega

example : cubicDemo.derivativeList 2 5 = .ub ∧ cubicDemo.degree + 1 < 5 := by decide +kernel

omit [IsStrictOrderedRing K] in
/-- C74. A curve of degree 0 (a step curve, which `evaluate` accepts) has no computed first derivative: `derivative(t)` reads past
the entries. -/
theorem C74_degree_zero_undefined (c : Curve K) (hp : c.degree = 0) (t : K) : c.derivative t = .ub := by
  have e : ∀ x : List (Vec4 K), x.length = 1 → x[1]? = none := fun x hx => List.getElem?_eq_none (by omega)
  unfold Curve.derivative Curve.derivs
  simp only
  split
  · rfl
  · rw [if_neg (by omega)]
    split
    · rfl
    · rw [Res.ok_bind, e _ (by simp [dersBasisFuns_length, hp])]

example : (⟨[⟨1, 2, 3, 1⟩, ⟨4, 5, 6, 1⟩], 0, [0, 1, 2], false, 0, 2⟩ : Curve ℚ).evaluate (1 / 2) = .ok ⟨1, 2, 3⟩ ∧
    (⟨[⟨1, 2, 3, 1⟩, ⟨4, 5, 6, 1⟩], 0, [0, 1, 2], false, 0, 2⟩ : Curve ℚ).derivative (1 / 2) = .ub := by decide +kernel

omit [IsStrictOrderedRing K] in
/-- C74. With no more control points than the degree (up to 3) the derivative reads past the control points. -/
theorem C74_too_few_points_undefined (c : Curve K) (hn : c.cpts.length ≤ c.degree) (hp : c.degree ≤ 3) (t : K) (d : Nat) :
    c.derivative t = .ub ∧ c.derivativeList t d = .ub := by
  have hs : findSpan (c.cpts.length - 1) c.degree t (ix c.knots) = max c.degree 0 ∨ c.cpts.length = 0 ∧ c.degree = 0 := by
    by_cases h0 : c.cpts.length = 0 ∧ c.degree = 0
    · exact .inr h0
    · left
      rw [findSpan, scanSpan, if_neg (by omega)]
      omega
  have e : ∀ d, c.derivs t d = .ub := by
    intro d
    unfold Curve.derivs
    simp only
    by_cases h1 : c.knots.length < c.cpts.length ∨ c.knots.length ≤ findSpan (c.cpts.length - 1) c.degree t (ix c.knots) + min c.degree 4
    · rw [if_pos h1]
    · rw [if_neg h1, if_neg (by omega), if_pos]
      rcases hs with hs | hs
      · rw [hs]; omega
      · omega
  unfold Curve.derivative Curve.derivativeList
  rw [e, e]
  exact ⟨rfl, rfl⟩

example : (⟨[⟨0, 0, 0, 1⟩, ⟨1, 0, 0, 1⟩], 2, [0, 0, 0, 1, 1, 1], false, 0, 1⟩ : Curve ℚ).derivative (1 / 2) = .ub ∧
    (⟨[⟨0, 0, 0, 1⟩, ⟨1, 0, 0, 1⟩], 2, [0, 0, 0, 1, 1, 1], false, 0, 1⟩ : Curve ℚ).cpts.length ≤ 2 := by decide +kernel

/-- C74. With different weights the result is not the derivative of the curve: the curve `t ↦ 3t/(1+2t)`, whose derivative at 0
is 3, gets the answer 1. -/
theorem C74_unequal_weights_counterexample :
    ∃ c : Curve ℚ, ValidCurve c ∧ PositiveWeights c ∧
      (∀ t, 0 ≤ t → t < 1 → c.evaluate t = .ok ⟨3 * t / (1 + 2 * t), 0, 0⟩) ∧ c.derivative 0 = .ok ⟨1, 0, 0⟩ := by
  refine ⟨⟨[⟨0, 0, 0, 1⟩, ⟨1, 0, 0, 3⟩], 1, [0, 0, 1, 1], false, 0, 1⟩,
    ⟨by decide, by decide, by decide, by decide, by unfold SortedKnots; decide +kernel, by decide +kernel⟩,
    by unfold PositiveWeights; decide +kernel, fun t h0 h1 => ?_, by decide +kernel⟩
  have hs : findSpan 1 1 t (ix ([0, 0, 1, 1] : List ℚ)) = 1 := by
    refine findSpan_eq (le_refl _) (le_refl _) (fun j a b => by omega) (by omega)
  have hs' : findSpan (List.length ([⟨0, 0, 0, 1⟩, ⟨1, 0, 0, 3⟩] : List (Vec4 ℚ)) - 1) 1 t (ix ([0, 0, 1, 1] : List ℚ)) = 1 := hs
  unfold Curve.evaluate
  simp only [hs']
  rw [if_neg (by decide), curvePoint, hs']
  simp only [curvePointAt, basisFuns, basisInner, curveAcc, ix, Vec3.sdiv]
  simp
  ring_nf

/-! ### C75 -/

/-- C75. With unit weights `get_derivative()` returns a curve of one degree less, with one control point less, that evaluates to
the derivative of the curve. -/
theorem C75_derivative_curve_partial (c : Curve K) (V : ValidCurve c) (hw : UnitWeights c) :
    ∃ c', c.getDerivative = .ok c' ∧ c'.degree + 1 = c.degree ∧ c'.cpts.length + 1 = c.cpts.length ∧
      c'.knots = (c.knots.drop 1).dropLast ∧ UnitWeights c' ∧ IntervalOk c' ∧ c'.periodic = false ∧
      ∀ i t X Y Z, SpanOf c i t → PolyOn c i X Y Z →
        c'.evaluate t = .ok ⟨X.derivative.eval t, Y.derivative.eval t, Z.derivative.eval t⟩ := by
  have hl := V.len
  have hn := V.enough
  have hp := V.deg_pos
  have hp8 := V.deg_le
  have hlen : ((c.knots.drop 1).take (c.knots.length - 2)).length = c.knots.length - 2 := by
    rw [List.length_take, List.length_drop]; omega
  have hk : (c.knots.drop 1).take (c.knots.length - 2) = (c.knots.drop 1).dropLast := by
    rw [List.dropLast_eq_take]; congr 1; simp; omega
  have hU' : ∀ x, x < c.knots.length - 2 → ix ((c.knots.drop 1).take (c.knots.length - 2)) x = ix c.knots (x + 1) := by
    intro x hx
    rw [ix_eq_getElem (by omega), ix_eq_getElem (by omega), List.getElem_take, List.getElem_drop]
    congr 1; omega
  unfold Curve.getDerivative
  rw [if_neg (by omega)]
  obtain ⟨lo, hi, hupd, _⟩ := updateInterval_ok (c := (⟨(List.range (c.cpts.length - 1)).map
    (hodographPoint c.degree (ix c.knots) (ix c.cpts)), c.degree - 1, (c.knots.drop 1).take (c.knots.length - 2), false, 0, 1⟩ :
    Curve K)) (by intro h; have := congrArg List.length h; simp only [hlen, List.length_nil] at this; omega)
  refine ⟨_, hupd, ?_, ?_, hk, ?_, intervalOk_of hupd, rfl, ?_⟩
  · show c.degree - 1 + 1 = c.degree
    omega
  · simp; omega
  · intro q hq
    obtain ⟨r, _, rfl⟩ := List.mem_map.mp hq
    rfl
  · intro i t X Y Z h hP
    have hw' : EqualWeights c := ⟨1, one_pos, hw⟩
    have h1 := h.deg_le
    have h2 := h.lt_len
    obtain ⟨a, b, e⟩ := hP.iterate V hw' h 1 hp
    simp only [Function.iterate_one] at a b e
    rw [a, b, e]
    set U' := (c.knots.drop 1).take (c.knots.length - 2) with hU'd
    set Q := (List.range (c.cpts.length - 1)).map (hodographPoint c.degree (ix c.knots) (ix c.cpts)) with hQd
    have hQlen : Q.length = c.cpts.length - 1 := by simp [hQd]
    have hQ : ∀ x, x < c.cpts.length - 1 → ix Q x = hodographPoint c.degree (ix c.knots) (ix c.cpts) x := by
      intro x hx
      rw [ix_eq_getElem (by omega)]
      simp [hQd]
    have hf : findSpan (Q.length - 1) (c.degree - 1) t (ix U') = i - 1 := by
      refine findSpan_eq (by omega) (by omega) (fun j ha hb => ?_) (fun hi => ?_)
      · rw [hU' j (by omega)]
        rcases h.left with e | e
        · omega
        · exact le_trans (ValidKnots.mono V _ _ (by omega) (by omega)) e
      · rw [hU' _ (by omega), Nat.sub_add_cancel (by omega)]
        rcases h.right with e | e
        · omega
        · exact e
    have hd1 : 1 ≤ i := by omega
    have hspl : ∀ P' P : Nat → K, (∀ x, i ≤ x + 1 + (c.degree - 1) → x + 1 ≤ i → P' x =
        hodo (ix c.knots) c.degree P (x + 1)) → splineVal (ix U') (c.degree - 1) P' (i - 1) t =
        splineVal (ix c.knots) (c.degree - 1) (hodoIter (ix c.knots) c.degree P 1) i t := by
      intro P' P hPP
      have e1 := splineVal_shift (U₁ := ix U') (U₂ := ix c.knots) (P₁ := P') (P₂ := hodoIter (ix c.knots) c.degree P 1)
        (i := i - 1) (d := 1) (p := c.degree - 1) t (by omega) (fun x hx hx' => hU' x (by omega))
        (fun x hx hx' => by rw [hPP x (by omega) (by omega)]; rfl)
      rw [Nat.sub_add_cancel hd1] at e1
      exact e1
    have hg' : GoodSpan (ix U') (c.degree - 1) (i - 1) := by
      intro x y ha hb hc hd
      rw [hU' x (by omega), hU' y (by omega)]
      exact h.good V _ _ (by omega) (by omega) (by omega) (by omega)
    have hw1 : ∀ x, x < c.cpts.length → (ix c.cpts x).w = 1 := fun x hx => hw _ (mem_ix hx)
    have hval : ∀ x, i ≤ x + 1 + (c.degree - 1) → x + 1 ≤ i → (ix Q x).w = 1 ∧
        (ix Q x).x = hodo (ix c.knots) c.degree (fun r => (ix c.cpts r).x) (x + 1) ∧
        (ix Q x).y = hodo (ix c.knots) c.degree (fun r => (ix c.cpts r).y) (x + 1) ∧
        (ix Q x).z = hodo (ix c.knots) c.degree (fun r => (ix c.cpts r).z) (x + 1) := by
      intro x hx1 hx2
      rw [hQ x (by omega)]
      have ed : x + 1 + c.degree = x + c.degree + 1 := by omega
      simp only [hodographPoint, hodo, Nat.add_sub_cancel, hw1 x (by omega), hw1 (x + 1) (by omega), ed]
      have hne : ix c.knots (x + c.degree + 1) - ix c.knots (x + 1) ≠ 0 :=
        ne_of_gt (sub_pos.mpr (h.good V _ _ (by omega) (by omega) (by omega) (by omega)))
      have h2 : (1 + 1 : K) ≠ 0 := ne_of_gt (by linarith [one_pos (α := K)])
      refine ⟨trivial, ?_, ?_, ?_⟩ <;> field_simp
    unfold Curve.evaluate
    simp only [hf]
    have hlen' : U'.length = c.knots.length - 2 := hlen
    rw [if_neg (by unfold maxDegree; omega), curvePoint, hf, curvePointAt_eq]
    have hW : splineVal (ix U') (c.degree - 1) (fun r => (ix Q r).w) (i - 1) t = 1 := by
      rw [splineVal_congr (P₂ := fun _ => 1) t (by omega) (fun x ha hb => (hval x (by omega) (by omega)).1), splineVal,
        dotL_const, basisFuns_sum (by omega) hg', one_mul]
    have hN : ∀ φ : Vec4 K → K, (∀ x, i ≤ x + 1 + (c.degree - 1) → x + 1 ≤ i → φ (ix Q x) =
        hodo (ix c.knots) c.degree (fun r => φ (ix c.cpts r)) (x + 1)) →
        splineVal (ix U') (c.degree - 1) (fun r => (ix Q r).w * φ (ix Q r)) (i - 1) t =
        splineVal (ix c.knots) (c.degree - 1) (hodoIter (ix c.knots) c.degree (fun r => φ (ix c.cpts r)) 1) i t := by
      intro φ hφ
      apply hspl
      intro x ha hb
      rw [(hval x ha hb).1, one_mul, hφ x ha hb]
    rw [hW, hN (fun q => q.x) fun x ha hb => (hval x ha hb).2.1, hN (fun q => q.y) fun x ha hb => (hval x ha hb).2.2.1,
      hN (fun q => q.z) fun x ha hb => (hval x ha hb).2.2.2]
    simp only [div_one]

/-- C75. For degree at most 3 and unit weights, `derivative(t)` and the curve of `get_derivative()` agree. -/
theorem C75_agrees_with_derivative_partial (c : Curve K) (V : ValidCurve c) (hw : UnitWeights c) (hp : c.degree ≤ 3) (t : K)
    (hd : InDomain c t) : ∃ c' r, c.getDerivative = .ok c' ∧ c.derivative t = .ok r ∧ c'.evaluate t = .ok r := by
  obtain ⟨c', e, -, -, -, -, -, -, h⟩ := C75_derivative_curve_partial c V hw
  obtain ⟨i, hi⟩ := C74_spans_cover c V t hd
  have hw' : EqualWeights c := ⟨1, one_pos, hw⟩
  obtain ⟨X, Y, Z, hP, -⟩ := polyOn_exists V hw' hi
  exact ⟨c', _, e, C74_derivative_partial c V hw' hp i t hi X Y Z hP, h i t X Y Z hi hP⟩

/-- C75. For degree at least 1, `get_derivative()` is defined exactly if there is a control point, if there are two knots and if the knots reach as far
as the formula for the last control point (for one control point: to the second knot). Otherwise a vector is read outside its bounds or the
least element of an empty vector is taken. -/
theorem C75_defined_partial (c : Curve K) (hp : c.degree ≠ 0) : c.getDerivative ≠ .throws ∧
    (c.knots.length ≠ 2 → (c.getDerivative = .ub ↔ c.cpts = [] ∨ c.knots.length < 2 ∨ c.knots.length < c.cpts.length + c.degree)) ∧
    (c.knots.length = 2 → c.getDerivative = .ub) := by
  unfold Curve.getDerivative
  by_cases h : c.cpts.length = 0 ∨ c.knots.length < 2 ∨ c.knots.length < c.cpts.length + c.degree ∨ c.degree = 0
  · rw [if_pos h]
    refine ⟨by simp, fun _ => ⟨fun _ => ?_, fun _ => rfl⟩, fun _ => rfl⟩
    rcases h with h | h | h | h
    · exact .inl (List.length_eq_zero_iff.mp h)
    · exact .inr (.inl h)
    · exact .inr (.inr h)
    · exact absurd h hp
  · rw [if_neg h]
    push Not at h
    obtain ⟨h1, h2, h3, -⟩ := h
    have hlen : ((c.knots.drop 1).take (c.knots.length - 2)).length = c.knots.length - 2 := by
      rw [List.length_take, List.length_drop]; omega
    by_cases hk : c.knots.length = 2
    · have e : (c.knots.drop 1).take (c.knots.length - 2) = [] := by rw [hk]; rfl
      rw [e]
      exact ⟨by simp [Curve.updateInterval, minElement], fun h => absurd hk h, fun _ => rfl⟩
    · obtain ⟨lo, hi, hupd, _⟩ := updateInterval_ok (c := (⟨(List.range (c.cpts.length - 1)).map
        (hodographPoint c.degree (ix c.knots) (ix c.cpts)), c.degree - 1, (c.knots.drop 1).take (c.knots.length - 2), false, 0, 1⟩ :
        Curve K)) (by intro h; have := congrArg List.length h; simp only [hlen, List.length_nil] at this; omega)
      rw [hupd]
      refine ⟨by simp, fun _ => ⟨fun h => by simp at h, ?_⟩, fun h => absurd h hk⟩
      rintro (h | h | h)
      · exact absurd (by rw [h]; rfl) h1
      · omega
      · omega

/-- One control point, and too few knots. -/
example : (⟨[], 1, [0, 1, 2], false, 0, 1⟩ : Curve ℚ).getDerivative = .ub ∧
    (⟨[⟨0, 0, 0, 1⟩, ⟨1, 0, 0, 1⟩, ⟨2, 0, 0, 1⟩], 1, [0, 0, 1], false, 0, 1⟩ : Curve ℚ).getDerivative = .ub ∧
    (⟨[⟨0, 0, 0, 1⟩], 1, [0, 0, 1], false, 0, 1⟩ : Curve ℚ).getDerivative = .ok ⟨[], 0, [0], false, 0, 0⟩ := by
  decide +kernel

/-- A quadratic with unit weights. -/
def quadDemo : Curve ℚ :=
  ⟨[⟨0, 0, 0, 1⟩, ⟨1, 2, 0, 1⟩, ⟨3, 1, 1, 1⟩, ⟨4, 0, 2, 1⟩], 2, [0, 0, 0, 1, 3, 3, 3], false, 0, 3⟩

theorem quadDemo_valid : ValidCurve quadDemo :=
  ⟨by decide, by decide, by decide, by decide, by unfold SortedKnots; decide +kernel, by decide +kernel⟩

example : UnitWeights quadDemo ∧ quadDemo.getDerivative =
    .ok ⟨[⟨2, 4, 0, 1⟩, ⟨4 / 3, -2 / 3, 2 / 3, 1⟩, ⟨1, -1, 1, 1⟩], 1, [0, 0, 1, 3, 3], false, 0, 3⟩ := by
  refine ⟨by unfold UnitWeights; decide +kernel, by decide +kernel⟩

/-- C75. With the common weight 2 (the same curve as with weight 1) the result is half the derivative. -/
theorem C75_equal_weights_counterexample :
    ∃ c c' : Curve ℚ, ValidCurve c ∧ EqualWeights c ∧ c.getDerivative = .ok c' ∧
      (∀ t, 0 ≤ t → t < 1 → c.evaluate t = .ok ⟨t, 0, 0⟩) ∧ c'.evaluate 0 = .ok ⟨1 / 2, 0, 0⟩ := by
  have V : ValidCurve (⟨[⟨0, 0, 0, 2⟩, ⟨1, 0, 0, 2⟩], 1, [0, 0, 1, 1], false, 0, 1⟩ : Curve ℚ) :=
    ⟨by decide, by decide, by decide, by decide, by unfold SortedKnots; decide +kernel, by decide +kernel⟩
  have W : EqualWeights (⟨[⟨0, 0, 0, 2⟩, ⟨1, 0, 0, 2⟩], 1, [0, 0, 1, 1], false, 0, 1⟩ : Curve ℚ) :=
    ⟨2, by decide +kernel, by decide +kernel⟩
  refine ⟨_, ⟨[⟨1 / 2, 0, 0, 1⟩], 0, [0, 1], false, 0, 1⟩, V, W, by decide +kernel, fun t h0 h1 => ?_, by decide +kernel⟩
  have hs : SpanOf (⟨[⟨0, 0, 0, 2⟩, ⟨1, 0, 0, 2⟩], 1, [0, 0, 1, 1], false, 0, 1⟩ : Curve ℚ) 1 t :=
    ⟨le_refl _, by decide, by decide +kernel, .inl rfl, .inl rfl⟩
  rw [eval_equal V W hs]
  simp [splineVal, basisFuns, basisInner, dotL, ix]

end Cmm.Nurbs
