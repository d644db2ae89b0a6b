import Verif.Lemmas.CurveLength
import Verif.Props.Curve
import Verif.Props.Derivative
import Verif.Props.Integrate
import Verif.Props.Plane
/-! Property C76: arc length of curves. -/
namespace Cmm.Nurbs
open Polynomial
variable {K : Type} [Field K] [LinearOrder K] [IsStrictOrderedRing K]

/-- `S t` is the speed of the curve on `[t0, t1]`: the non-negative number whose square is the sum of the squares of the
derivatives of the three coordinates. -/
def IsSpeed (c : Curve K) (t0 t1 : K) (S : K → K) : Prop :=
  ∀ t, min t0 t1 ≤ t → t ≤ max t0 t1 → ∀ i X Y Z, SpanOf c i t → PolyOn c i X Y Z → 0 ≤ S t ∧
    S t * S t = X.derivative.eval t ^ 2 + Y.derivative.eval t ^ 2 + Z.derivative.eval t ^ 2

/-- C76. For a curve of degree at most 3 with equal weights `length(t0, t1, tol)` is the adaptive Simpson value (C43) of the speed
of the curve. -/
theorem C76_integrates_speed_partial {sqrt : K → K} (hs : Newton.IsSqrt sqrt) (hs0 : sqrt 0 = 0) (c : Curve K) (V : ValidCurve c)
    (hw : EqualWeights c) (hp : c.degree ≤ 3) (t0 t1 tol : K) (h0 : InDomain c t0) (h1 : InDomain c t1) (S : K → K)
    (hS : IsSpeed c t0 t1 S) : c.length sqrt t0 t1 tol = .ok (Num.integrate S t0 t1 tol 20).result := by
  apply length_ok
  intro t a b
  obtain ⟨i, hi⟩ := C74_spans_cover c V t (minmax_domain h0 h1 a b)
  obtain ⟨X, Y, Z, hP, -⟩ := polyOn_exists V hw hi
  obtain ⟨s1, s2⟩ := hS t a b i X Y Z hi hP
  unfold Curve.speed
  rw [C74_derivative_partial c V hw hp i t hi X Y Z hP, Res.ok_bind]
  congr 1
  apply sqrt_unique hs hs0 (sqLength_nonneg' _) s1
  rw [s2]; simp only [Vec3.sqLength]; ring

/-- C76. The length exists and is not negative, for bounds in order. -/
theorem C76_nonneg_partial {sqrt : K → K} (hs : Newton.IsSqrt sqrt) (hs0 : sqrt 0 = 0) (c : Curve K) (V : ValidCurve c)
    (hw : EqualWeights c) (hp : c.degree ≤ 3) (t0 t1 tol : K) (h0 : InDomain c t0) (h1 : InDomain c t1) (h01 : t0 ≤ t1) :
    ∃ L, c.length sqrt t0 t1 tol = .ok L ∧ 0 ≤ L := by
  have hok : ∀ t, min t0 t1 ≤ t → t ≤ max t0 t1 → c.speed sqrt t = .ok (c.speedD sqrt t) := by
    intro t a b
    obtain ⟨i, hi⟩ := C74_spans_cover c V t (minmax_domain h0 h1 a b)
    obtain ⟨X, Y, Z, hP, -⟩ := polyOn_exists V hw hi
    unfold Curve.speedD Curve.speed
    rw [C74_derivative_partial c V hw hp i t hi X Y Z hP, Res.ok_bind]
  refine ⟨_, length_ok hok, Num.integrate_nonneg _ _ h01 fun x => ?_⟩
  unfold Curve.speedD Curve.speed
  cases c.derivative x with
  | throws => exact le_refl _
  | ub => exact le_refl _
  | ok d =>
    rw [Res.ok_bind]
    rcases (sqLength_nonneg' d).lt_or_eq with h | h
    · exact (hs _ h).1.le
    · show 0 ≤ sqrt d.sqLength
      rw [← h, hs0]

/-- C76. On a part of the curve with constant speed `k` the length is exactly `k (t1 - t0)`, whatever the tolerance. -/
theorem C76_constant_speed_partial {sqrt : K → K} (hs : Newton.IsSqrt sqrt) (hs0 : sqrt 0 = 0) (c : Curve K) (V : ValidCurve c)
    (hw : EqualWeights c) (hp : c.degree ≤ 3) (t0 t1 tol : K) (h0 : InDomain c t0) (h1 : InDomain c t1) (k : K)
    (hk : IsSpeed c t0 t1 (fun _ => k)) : c.length sqrt t0 t1 tol = .ok (k * (t1 - t0)) := by
  rw [C76_integrates_speed_partial hs hs0 c V hw hp t0 t1 tol h0 h1 _ hk]
  have := (Num.C43_exact (Polynomial.C k * Polynomial.X) (by
    rw [Polynomial.C_mul_X_eq_monomial]; exact le_trans (Polynomial.natDegree_monomial_le k) (by omega)) t0 t1 tol 20).1
  simp at this
  rw [this]; ring_nf

/-- A straight segment from `A` to `B` over the parameters `[a, b]`. -/
def segmentCurve (A B : Vec3 K) (w a b : K) : Curve K :=
  ⟨[⟨A.x, A.y, A.z, w⟩, ⟨B.x, B.y, B.z, w⟩], 1, [a, a, b, b], false, a, b⟩

theorem segmentCurve_valid (A B : Vec3 K) (w : K) {a b : K} (h : a < b) : ValidCurve (segmentCurve A B w a b) :=
  ⟨by simp [segmentCurve], by simp [segmentCurve], by simp [segmentCurve], rfl,
    by unfold SortedKnots; simp [segmentCurve, h.le], by simpa [segmentCurve, ix] using h⟩

theorem segmentCurve_equal (A B : Vec3 K) {w : K} (hw : 0 < w) (a b : K) : EqualWeights (segmentCurve A B w a b) :=
  ⟨w, hw, by simp [segmentCurve]⟩

theorem segmentCurve_span (A B : Vec3 K) (w : K) {a b : K} (h : a < b) (t : K) : SpanOf (segmentCurve A B w a b) 1 t :=
  ⟨by simp [segmentCurve], by simp [segmentCurve], by simpa [segmentCurve, ix] using h, .inl rfl, .inl rfl⟩

theorem segmentCurve_poly (A B : Vec3 K) {w : K} (hw : 0 < w) {a b : K} (h : a < b) :
    PolyOn (segmentCurve A B w a b) 1 (C A.x + C ((B.x - A.x) / (b - a)) * (X - C a))
      (C A.y + C ((B.y - A.y) / (b - a)) * (X - C a)) (C A.z + C ((B.z - A.z) / (b - a)) * (X - C a)) := by
  intro t _ _
  have hne : b - a ≠ 0 := (sub_pos.mpr h).ne'
  rw [eval_equal (segmentCurve_valid A B w h) (segmentCurve_equal A B hw a b) (segmentCurve_span A B w h t)]
  simp only [segmentCurve, splineVal, basisFuns, basisInner, dotL, ix]
  simp
  refine ⟨?_, ?_, ?_⟩ <;> (field_simp; ring)

theorem segmentCurve_speed (A B : Vec3 K) {w : K} (hw : 0 < w) {a b : K} (h : a < b) (D : K) (hD : 0 ≤ D)
    (e : D * D = (B.x - A.x) ^ 2 + (B.y - A.y) ^ 2 + (B.z - A.z) ^ 2) (t0 t1 : K) :
    IsSpeed (segmentCurve A B w a b) t0 t1 (fun _ => D / (b - a)) := by
  intro t _ _ i X' Y' Z' hi hP
  have hpos := sub_pos.mpr h
  have i1 : i = 1 := by
    have h1 := hi.deg_le
    have h2 := hi.lt_len
    simp [segmentCurve] at h1 h2
    omega
  subst i1
  obtain ⟨rfl, rfl, rfl⟩ := hP.unique hi (segmentCurve_poly A B hw h)
  refine ⟨div_nonneg hD hpos.le, ?_⟩
  simp
  have hne := hpos.ne'
  field_simp
  rw [pow_two, e]

/-- C76. The length of a straight segment is the distance of its ends, and of a part of it the distance of the ends of the part:
`D` is the distance from `A` to `B`. -/
theorem C76_segment {sqrt : K → K} (hs : Newton.IsSqrt sqrt) (hs0 : sqrt 0 = 0) (A B : Vec3 K) (w : K) (hw : 0 < w) (a b : K)
    (h : a < b) (D : K) (hD : 0 ≤ D) (e : D * D = (B.x - A.x) ^ 2 + (B.y - A.y) ^ 2 + (B.z - A.z) ^ 2) (t0 t1 tol : K)
    (h0 : a ≤ t0 ∧ t0 ≤ b) (h1 : a ≤ t1 ∧ t1 ≤ b) :
    (segmentCurve A B w a b).length sqrt t0 t1 tol = .ok (D * (t1 - t0) / (b - a)) ∧
    (segmentCurve A B w a b).fullLength sqrt = .ok D ∧
    (segmentCurve A B w a b).lengthTo sqrt t1 tol = .ok (D * (t1 - a) / (b - a)) := by
  have hne := (sub_pos.mpr h).ne'
  have main : ∀ t0 t1 tol, a ≤ t0 ∧ t0 ≤ b → a ≤ t1 ∧ t1 ≤ b →
      (segmentCurve A B w a b).length sqrt t0 t1 tol = .ok (D * (t1 - t0) / (b - a)) := by
    intro t0 t1 tol h0 h1
    rw [C76_constant_speed_partial hs hs0 _ (segmentCurve_valid A B w h) (segmentCurve_equal A B hw a b)
      (by simp [segmentCurve]) t0 t1 tol h0 h1 _ (segmentCurve_speed A B hw h D hD e t0 t1)]
    congr 1; field_simp
  refine ⟨main t0 t1 tol h0 h1, ?_, main a t1 tol ⟨le_refl _, h.le⟩ h1⟩
  unfold Curve.fullLength
  have := main a b lengthTol ⟨le_refl _, h.le⟩ ⟨h.le, le_refl _⟩
  rw [mul_div_assoc, div_self hne, mul_one] at this
  exact this

omit [IsStrictOrderedRing K] in
/-- C76. The shorter overloads: `length()` is the length of the whole interval with tolerance 1e-3, `length(t, tol)` the length from the start
of the interval, and `lengthAt(l, tol)` measures from the start of the interval and begins its search in the middle. -/
theorem C76_overloads (sqrt : K → K) (c : Curve K) (t l tol : K) : c.fullLength sqrt = c.length sqrt c.lo c.hi (1 / 1000) ∧
    c.lengthTo sqrt t tol = c.length sqrt c.lo t tol ∧ c.lengthAtDefault sqrt l tol = c.lengthAt sqrt l c.lo ((c.lo + c.hi) / 2) tol := by
  refine ⟨?_, rfl, ?_⟩
  · unfold Curve.fullLength lengthTol; norm_num
  · unfold Curve.lengthAtDefault; rw [mul_one_div]

/-- C76. `lengthAt` inverts `length` on a straight segment: the parameter it returns cuts off exactly the length asked for. -/
theorem C76_length_at_segment {sqrt : K → K} (hs : Newton.IsSqrt sqrt) (hs0 : sqrt 0 = 0) (A B : Vec3 K) (w : K) (hw : 0 < w)
    (a b : K) (h : a < b) (D : K) (hD : 0 ≤ D) (e : D * D = (B.x - A.x) ^ 2 + (B.y - A.y) ^ 2 + (B.z - A.z) ^ 2)
    (hbig : 1 / 10 ^ 10 ≤ D / (b - a)) (l t0 guess tol : K) (htol : 0 < tol) :
    (segmentCurve A B w a b).lengthAt sqrt l t0 guess tol = .ok (.converged (t0 + l * (b - a) / D)) ∧
    (segmentCurve A B w a b).lengthAtDefault sqrt l tol = .ok (.converged (a + l * (b - a) / D)) := by
  have V := segmentCurve_valid A B w h
  have W := segmentCurve_equal A B hw a b
  have sp : ∀ t, (segmentCurve A B w a b).speed sqrt t = .ok (D / (b - a)) := by
    intro t
    have hP := segmentCurve_poly A B hw h
    obtain ⟨s1, s2⟩ := segmentCurve_speed A B hw h D hD e t t t (by simp) (by simp) 1 _ _ _ (segmentCurve_span A B w h t) hP
    unfold Curve.speed
    rw [C74_derivative_partial _ V W (by simp [segmentCurve]) 1 t (segmentCurve_span A B w h t) _ _ _ hP, Res.ok_bind]
    congr 1
    apply sqrt_unique hs hs0 (sqLength_nonneg' _) s1
    rw [s2]; simp only [Vec3.sqLength]; ring
  have hpos : 0 < D / (b - a) := lt_of_lt_of_le (by positivity) hbig
  have spD : (segmentCurve A B w a b).speedD sqrt = fun _ => D / (b - a) := by
    funext t; unfold Curve.speedD; rw [sp]
  have main : ∀ t0 guess, (segmentCurve A B w a b).lengthAt sqrt l t0 guess tol = .ok (.converged (t0 + l * (b - a) / D)) := by
    intro t0 guess
    unfold Curve.lengthAt
    rw [sp, Res.ok_bind, spD, Num.C68_constant t0 l (D / (b - a)) guess tol (by rw [abs_of_pos hpos]; exact hbig) htol 20
      (by norm_num)]
    congr 3
    rw [div_div_eq_mul_div]
  exact ⟨main _ _, main _ _⟩

example : (1 : ℝ) / 10 ^ 10 ≤ 5 / (1 - 0) ∧ (5 : ℝ) * 5 = (3 - 0) ^ 2 + (4 - 0) ^ 2 + (0 - 0) ^ 2 := by norm_num

/-- A rigid motion: the rows of the matrix are such that all squared lengths are kept. -/
def Isometry3 (f : Affine3 K) : Prop :=
  ∀ v : Vec3 K, (f.rx.x * v.x + f.rx.y * v.y + f.rx.z * v.z) ^ 2 + (f.ry.x * v.x + f.ry.y * v.y + f.ry.z * v.z) ^ 2 +
    (f.rz.x * v.x + f.rz.y * v.y + f.rz.z * v.z) ^ 2 = v.x ^ 2 + v.y ^ 2 + v.z ^ 2

/-- C76. Moving the control points by a rigid motion does not change any length. -/
theorem C76_rigid_motion_partial {sqrt : K → K} (c : Curve K) (V : ValidCurve c) (hw : EqualWeights c) (hp : c.degree ≤ 3)
    (f : Affine3 K) (hf : Isometry3 f) (t0 t1 tol : K) (h0 : InDomain c t0) (h1 : InDomain c t1) :
    Curve.length sqrt { c with cpts := c.cpts.map f.applyCpt } t0 t1 tol = c.length sqrt t0 t1 tol := by
  set c' : Curve K := { c with cpts := c.cpts.map f.applyCpt } with hc'
  have V' : ValidCurve c' := by
    have := V
    unfold ValidCurve at this ⊢
    simpa [hc'] using this
  have W' : EqualWeights c' := by
    obtain ⟨w, hw0, hw⟩ := hw
    refine ⟨w, hw0, fun q hq => ?_⟩
    obtain ⟨q', hq', rfl⟩ := List.mem_map.mp hq
    exact hw q' hq'
  have hpw : PositiveWeights c := by
    obtain ⟨w, hw0, hw⟩ := hw
    intro q hq
    rw [hw q hq]; exact hw0
  have key : ∀ t, min t0 t1 ≤ t → t ≤ max t0 t1 → c'.speed sqrt t = .ok (c.speedD sqrt t) ∧
      c.speed sqrt t = .ok (c.speedD sqrt t) := by
    intro t a b
    obtain ⟨i, hi⟩ := C74_spans_cover c V t (minmax_domain h0 h1 a b)
    have hi' : SpanOf c' i t := by
      have h := hi
      exact ⟨h.deg_le, by simpa [hc'] using h.lt_len, h.proper, h.left, by simpa [hc'] using h.right⟩
    obtain ⟨P, Q, R, hP, -⟩ := polyOn_exists V hw hi
    have hP' : PolyOn c' i (C f.rx.x * P + C f.rx.y * Q + C f.rx.z * R + C f.t.x)
        (C f.ry.x * P + C f.ry.y * Q + C f.ry.z * R + C f.t.y) (C f.rz.x * P + C f.rz.y * Q + C f.rz.z * R + C f.t.z) := by
      intro s s1 s2
      have hd : InDomain c s := by
        have hl := V.len
        have e1 := hi.deg_le
        have e2 := hi.lt_len
        exact ⟨le_trans (ValidKnots.mono V _ _ e1 (by omega)) s1, le_trans s2.le (ValidKnots.mono V _ _ (by omega) (by omega))⟩
      obtain ⟨r, e1, e2⟩ := C28_affine_invariance c V hpw f s hd
      rw [hP s s1 s2] at e1
      have e1 := Res.ok.inj e1
      rw [e2, ← e1]
      simp [Affine3.apply]
    have e1 := C74_derivative_partial c V hw hp i t hi P Q R hP
    have e2 := C74_derivative_partial c' V' W' hp i t hi' _ _ _ hP'
    have hsq := hf ⟨P.derivative.eval t, Q.derivative.eval t, R.derivative.eval t⟩
    unfold Curve.speedD Curve.speed
    rw [e1, e2, Res.ok_bind, Res.ok_bind]
    refine ⟨?_, rfl⟩
    congr 2
    simp [Vec3.sqLength] at hsq ⊢
    linear_combination hsq
  rw [length_ok fun t a b => (key t a b).1, length_ok fun t a b => (key t a b).2]

/-- A quarter turn about the z axis with a translation is a rigid motion; the cubic of C74 meets the other hypotheses. -/
example : Isometry3 (⟨⟨0, -1, 0⟩, ⟨1, 0, 0⟩, ⟨0, 0, 1⟩, ⟨5, 6, 7⟩⟩ : Affine3 ℚ) := by
  intro v; ring

/-- C76. A curve of degree 4 or more has no length: every overload throws. -/
theorem C76_high_degree_throws (sqrt : K → K) (c : Curve K) (V : ValidCurve c) (hp : 4 ≤ c.degree) (t0 t1 tol l guess : K) :
    c.length sqrt t0 t1 tol = .throws ∧ c.lengthAt sqrt l t0 guess tol = .throws ∧ c.fullLength sqrt = .throws := by
  have sp : ∀ t, c.speed sqrt t = .throws := by
    intro t
    unfold Curve.speed
    rw [(C74_high_degree_throws c V hp t 0).1]
    rfl
  have main : ∀ t0 t1 tol, c.length sqrt t0 t1 tol = .throws := by
    intro t0 t1 tol
    unfold Curve.length
    obtain ⟨l, hl⟩ := Num.integrate_calls_head (c.speedD sqrt) t0 t1 tol 20
    simp only [hl, Curve.callAll, sp]
    rfl
  refine ⟨main _ _ _, ?_, main _ _ _⟩
  unfold Curve.lengthAt
  rw [sp]
  rfl

/-- C76. With different weights the length is wrong: the weighted segment from 0 to 1 is at 3/4 for the parameter 1/2, but its
length up to there is reported as 1/2. -/
theorem C76_unequal_weights_counterexample :
    ∃ c : Curve ℝ, ValidCurve c ∧ PositiveWeights c ∧ c.evaluate 0 = .ok ⟨0, 0, 0⟩ ∧ c.evaluate (1 / 2) = .ok ⟨3 / 4, 0, 0⟩ ∧
      c.length Real.sqrt 0 (1 / 2) (1 / 1000) = .ok (1 / 2) := by
  have hf : ∀ t : ℝ, findSpan 1 1 t (ix ([0, 0, 1, 1] : List ℝ)) = 1 := fun t =>
    findSpan_eq (le_refl _) (le_refl _) (fun j a b => by omega) (by omega)
  have V : ValidCurve (⟨[⟨0, 0, 0, 1⟩, ⟨1, 0, 0, 3⟩], 1, [0, 0, 1, 1], false, 0, 1⟩ : Curve ℝ) :=
    ⟨by simp, by simp, by simp, rfl, by unfold SortedKnots; simp, by simp [ix]⟩
  have hd : ∀ t, Curve.derivative (⟨[⟨0, 0, 0, 1⟩, ⟨1, 0, 0, 3⟩], 1, [0, 0, 1, 1], false, 0, 1⟩ : Curve ℝ) t = .ok ⟨1, 0, 0⟩ := by
    intro t
    have hf' : findSpan (List.length ([⟨0, 0, 0, 1⟩, ⟨1, 0, 0, 3⟩] : List (Vec4 ℝ)) - 1) 1 t (ix ([0, 0, 1, 1] : List ℝ)) = 1 := hf t
    unfold Curve.derivative Curve.derivs
    simp only [hf']
    simp [dersBasisFuns, dersFuncs, dersOrders, dersStep, dersInner, nduAt, basisFuns, basisInner, upd, dersFactor, derivAcc,
      List.range_succ, ix]
  refine ⟨_, V, by unfold PositiveWeights; simp, ?_, ?_, ?_⟩
  · have hf' : findSpan (List.length ([⟨0, 0, 0, 1⟩, ⟨1, 0, 0, 3⟩] : List (Vec4 ℝ)) - 1) 1 0 (ix ([0, 0, 1, 1] : List ℝ)) = 1 := hf 0
    unfold Curve.evaluate
    simp only [hf']
    rw [if_neg (by simp [maxDegree]), curvePoint, hf']
    simp [curvePointAt, basisFuns, basisInner, curveAcc, ix, Vec3.sdiv]
  · have hf' : findSpan (List.length ([⟨0, 0, 0, 1⟩, ⟨1, 0, 0, 3⟩] : List (Vec4 ℝ)) - 1) 1 (1 / 2) (ix ([0, 0, 1, 1] : List ℝ)) = 1 :=
      hf _
    unfold Curve.evaluate
    simp only [hf']
    rw [if_neg (by simp [maxDegree]), curvePoint, hf']
    simp [curvePointAt, basisFuns, basisInner, curveAcc, ix, Vec3.sdiv]
    norm_num
  · rw [length_ok (S := fun _ => 1)]
    · have := (Num.C43_exact (Polynomial.X : ℝ[X]) (by simp) 0 (1 / 2) (1 / 1000) 20).1
      simp at this
      simp [this]
    · intro t _ _
      unfold Curve.speed
      rw [hd, Res.ok_bind]
      simp [Vec3.sqLength]

end Cmm.Nurbs
