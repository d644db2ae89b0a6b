import Verif.Lemmas.CcxDefault
import Verif.Props.Plane
/-! C56: curve-curve intersection (cmmcore/ccx.h). -/
namespace Cmm.Ccx
open Cmm.Nurbs
variable {K : Type} [Field K] [LinearOrder K] [IsStrictOrderedRing K]

omit [IsStrictOrderedRing K] in
/-- C56. The outcome of a call does not depend on the depth allowed for the recursion, once it is reached. -/
theorem C56_outcome_unique (sqrt : K → K) (tol : K) (c1 c2 : Curve K) (acc : List (K × K)) (m n : Nat) (r r' : Res (List (K × K)))
    (h : ccx sqrt tol m c1 c2 acc = some r) (h' : ccx sqrt tol n c1 c2 acc = some r') : r = r' := by
  have mono : ∀ k m r, ccx sqrt tol m c1 c2 acc = some r → ccx sqrt tol (m + k) c1 c2 acc = some r := by
    intro k
    induction k with
    | zero => intro _ _ h; exact h
    | succ k ih => intro m r h; exact ccx_succ _ _ _ _ _ (ih m r h)
  have a := mono n m r h
  have b := mono m n r' h'
  rw [Nat.add_comm n m, a] at b
  exact Option.some.inj b

/-- C56 (partial: clamped curves with unit weights whose knots stay clear of the halving points). If the call returns, it returns normally and only
appends to the given list. Every appended pair is the middle of two parts, each smaller than `tol` and less than `2 * tol` apart. Every pair of parameters at
which the curves meet lies in two such parts whose middle was reported, or is within `tol` of a reported pair. No two consecutive reports agree up to
`tol` in both parameters. -/
theorem C56_nothing_missed_partial (sqrt : K → K) (hs : Newton.IsSqrt sqrt) (hs0 : sqrt 0 = 0) (tol : K) (fuel : Nat) (c1 c2 : Curve K)
    (H1 : Halvable fuel c1) (H2 : Halvable fuel c2) (acc : List (K × K)) (r : Res (List (K × K))) (h : ccx sqrt tol fuel c1 c2 acc = some r) :
    ∃ new, r = .ok (acc ++ new) ∧ (∀ p ∈ new, Genuine tol c1 c2 p) ∧
      (acc.IsChain (Apart tol) → (acc ++ new).IsChain (Apart tol)) ∧
      ∀ s t P, c1.lo ≤ s → s ≤ c1.hi → c2.lo ≤ t → t ≤ c2.hi → c1.evaluate s = .ok P → c2.evaluate t = .ok P →
        ∃ p ∈ acc ++ new, Accounts tol c1 c2 p s t := by
  rcases search hs hs0 H1 H2 fuel 0 0 0 c1 c2 acc (piece_self H1) (piece_self H2) (by omega) with h0 | ⟨res, h0, ⟨new, e, g, ch⟩, cov⟩
  · rw [h0] at h; cases h
  · rw [h0] at h
    cases h
    subst e
    refine ⟨new, rfl, g, ch, fun s t P a1 a2 b1 b2 eP eQ => cov s t P ?_ ?_ eP eQ⟩
    · exact ⟨by simpa [cut] using a1, by simpa [cut] using a2⟩
    · exact ⟨by simpa [cut] using b1, by simpa [cut] using b2⟩

/-- C56. Two Bézier curves with unit weights: the call returns after at most `m` halvings, where `m` is large enough for the control polygons, of steps at
most `d1` and `d2`, to become smaller than `tol`, and the parameter intervals are wide enough to be halved so often. -/
theorem C56_bezier_returns (sqrt : K → K) (hs : Newton.IsSqrt sqrt) (hs0 : sqrt 0 = 0) (tol : K) (ht : 0 < tol) (m : Nat) (c1 c2 : Curve K)
    (V1 : ValidCurve c1) (V2 : ValidCurve c2) (I1 : IntervalOk c1) (I2 : IntervalOk c2) (w1 : ∀ q ∈ c1.cpts, q.w = 1) (w2 : ∀ q ∈ c2.cpts, q.w = 1)
    (B1 : IsBezier c1) (B2 : IsBezier c2) (d1 d2 : K) (hd1 : 0 ≤ d1) (hd2 : 0 ≤ d2) (S1 : StepsLe d1 c1) (S2 : StepsLe d2 c2)
    (hm1 : 3 * (c1.degree * d1) ^ 2 < tol ^ 2 * 4 ^ m) (hm2 : 3 * (c2.degree * d2) ^ 2 < tol ^ 2 * 4 ^ m)
    (hw1 : 2 ^ (m + 1) / 10 ^ 12 < c1.hi - c1.lo) (hw2 : 2 ^ (m + 1) / 10 ^ 12 < c2.hi - c2.lo) :
    ∃ res, ccx sqrt tol (m + 1) c1 c2 [] = some (.ok res) ∧ (∀ p ∈ res, Genuine tol c1 c2 p) ∧ res.IsChain (Apart tol) ∧
      ∀ s t P, c1.lo ≤ s → s ≤ c1.hi → c2.lo ≤ t → t ≤ c2.hi → c1.evaluate s = .ok P → c2.evaluate t = .ok P → ∃ p ∈ res, Accounts tol c1 c2 p s t := by
  have two : (2 : K) ^ m / 10 ^ 12 ≤ 2 ^ (m + 1) / 10 ^ 12 :=
    div_le_div_of_nonneg_right (pow_le_pow_right₀ (by norm_num) (by omega)) (by positivity)
  obtain ⟨res, hr⟩ := bezier_search hs hs0 ht m d1 d2 _ _ c1 c2 [] ⟨V1, w1, I1, B1, hw1, S1⟩ ⟨V2, w2, I2, B2, hw2, S2⟩ hd1 hd2 two two hm1 hm2
  obtain ⟨new, e, g, ch, cov⟩ := C56_nothing_missed_partial sqrt hs hs0 tol (m + 1) c1 c2 (halvable_bezier V1 w1 I1 B1 hw1) (halvable_bezier V2 w2 I2 B2 hw2)
    [] _ hr
  rw [List.nil_append] at e ch cov
  cases e
  exact ⟨_, hr, g, ch (by simp), cov⟩

/-- C56. Two clamped curves with unit weights whose knots stay clear of the halving points: the call returns after at most `m` halvings, where `m` is large
enough for curves of slope at most `degree * M` on their parameter intervals to become smaller than `tol`, and what it returns accounts for every crossing. -/
theorem C56_returns (sqrt : K → K) (hs : Newton.IsSqrt sqrt) (hs0 : sqrt 0 = 0) (tol : K) (ht : 0 < tol) (m : Nat) (c1 c2 : Curve K)
    (H1 : Halvable (m + 1) c1) (H2 : Halvable (m + 1) c2) (M1 M2 : K) (hM1 : 0 ≤ M1) (hM2 : 0 ≤ M2) (S1 : SlopeLe M1 c1) (S2 : SlopeLe M2 c2)
    (hm1 : 3 * (c1.degree * (M1 * (c1.hi - c1.lo))) ^ 2 < tol ^ 2 * 4 ^ m) (hm2 : 3 * (c2.degree * (M2 * (c2.hi - c2.lo))) ^ 2 < tol ^ 2 * 4 ^ m) :
    ∃ res, ccx sqrt tol (m + 1) c1 c2 [] = some (.ok res) ∧ (∀ p ∈ res, Genuine tol c1 c2 p) ∧ res.IsChain (Apart tol) ∧
      ∀ s t P, c1.lo ≤ s → s ≤ c1.hi → c2.lo ≤ t → t ≤ c2.hi → c1.evaluate s = .ok P → c2.evaluate t = .ok P → ∃ p ∈ res, Accounts tol c1 c2 p s t := by
  have mono : ∀ {c : Curve K}, Halvable (m + 1) c → Halvable m c := fun h =>
    ⟨h.valid, h.unit, h.interval, h.clamped, h.mult, fun n hn => h.clear n (by omega)⟩
  obtain ⟨res, hr⟩ := slope_search hs hs0 ht (mono H1) (mono H2) hM1 hM2 hm1 hm2 m 0 0 0 c1 c2 [] (by omega) (piece_self H1) (piece_self H2) S1 S2
  obtain ⟨new, e, g, ch, cov⟩ := C56_nothing_missed_partial sqrt hs hs0 tol (m + 1) c1 c2 H1 H2 [] _ hr
  rw [List.nil_append] at e ch cov
  cases e
  exact ⟨_, hr, g, ch (by simp), cov⟩

/-- C56. Curves made from control points (unit weights) and a degree, with the default knots: the call returns after at most `m` halvings, where `m` is
large enough for control polygons with steps at most `d1` and `d2`, and its answer accounts for every crossing. -/
theorem C56_default_knots_return (sqrt : K → K) (hs : Newton.IsSqrt sqrt) (hs0 : sqrt 0 = 0) (tol : K) (ht : 0 < tol) (m : Nat) (hm : m ≤ 38)
    (pts1 pts2 : List (Vec4 K)) (p1 p2 : Nat) (l1 : 1 ≤ p1) (l2 : 1 ≤ p2) (g1 : p1 ≤ 8) (g2 : p2 ≤ 8) (n1 : p1 < pts1.length) (n2 : p2 < pts2.length)
    (w1 : ∀ q ∈ pts1, q.w = 1) (w2 : ∀ q ∈ pts2, q.w = 1) (d1 d2 : K) (hd1 : 0 ≤ d1) (hd2 : 0 ≤ d2)
    (s1 : ∀ i, i + 1 < pts1.length → |(ix pts1 (i + 1)).x - (ix pts1 i).x| ≤ d1 ∧ |(ix pts1 (i + 1)).y - (ix pts1 i).y| ≤ d1 ∧
      |(ix pts1 (i + 1)).z - (ix pts1 i).z| ≤ d1)
    (s2 : ∀ i, i + 1 < pts2.length → |(ix pts2 (i + 1)).x - (ix pts2 i).x| ≤ d2 ∧ |(ix pts2 (i + 1)).y - (ix pts2 i).y| ≤ d2 ∧
      |(ix pts2 (i + 1)).z - (ix pts2 i).z| ≤ d2)
    (hm1 : 3 * (p1 * (d1 * (pts1.length - p1))) ^ 2 < tol ^ 2 * 4 ^ m) (hm2 : 3 * (p2 * (d2 * (pts2.length - p2))) ^ 2 < tol ^ 2 * 4 ^ m) :
    ∃ c1 c2 res, Curve.make pts1 p1 false = .ok c1 ∧ Curve.make pts2 p2 false = .ok c2 ∧ ccx sqrt tol (m + 1) c1 c2 [] = some (.ok res) ∧
      (c1.lo = 0 ∧ c1.hi = pts1.length - p1) ∧ (c2.lo = 0 ∧ c2.hi = pts2.length - p2) ∧ (∀ p ∈ res, Genuine tol c1 c2 p) ∧ res.IsChain (Apart tol) ∧
      ∀ s t P, c1.lo ≤ s → s ≤ c1.hi → c2.lo ≤ t → t ≤ c2.hi → c1.evaluate s = .ok P → c2.evaluate t = .ok P → ∃ p ∈ res, Accounts tol c1 c2 p s t := by
  have hN : (2 : K) ^ (m + 1) < 10 ^ 12 :=
    lt_of_le_of_lt (pow_le_pow_right₀ (by norm_num) (by omega : m + 1 ≤ 39)) (by norm_num)
  obtain ⟨c1, e1, H1, f1, f2, f3, f4, f5⟩ := default_curve l1 g1 n1 w1 hN
  obtain ⟨c2, e2, H2, k1, k2, k3, k4, k5⟩ := default_curve l2 g2 n2 w2 hN
  obtain ⟨res, h, r⟩ := C56_returns sqrt hs hs0 tol ht m c1 c2 H1 H2 d1 d2 hd1 hd2 (f5 d1 hd1 (by unfold StepsLe; rw [f1]; exact s1))
    (k5 d2 hd2 (by unfold StepsLe; rw [k1]; exact s2)) (by rw [f2, f3, f4, sub_zero]; exact hm1) (by rw [k2, k3, k4, sub_zero]; exact hm2)
  exact ⟨c1, c2, res, e1, e2, h, ⟨f3, f4⟩, ⟨k3, k4⟩, r⟩

example : ∃ c1 c2 res, Curve.make [⟨0, 0, 0, 1⟩, ⟨1, 0, 0, 1⟩, ⟨2, 0, 0, 1⟩, ⟨3, 1, 0, 1⟩] 1 false = .ok c1 ∧
    Curve.make [⟨0, 1, 0, 1⟩, ⟨1, 1, 0, 1⟩, ⟨1, 0, 0, 1⟩, ⟨1, -1, 0, 1⟩] 2 false = .ok c2 ∧ ccx Real.sqrt 1 5 c1 c2 [] = some (.ok res) := by
  obtain ⟨c1, c2, res, e1, e2, h, _⟩ := C56_default_knots_return Real.sqrt Geom.real_isSqrt Real.sqrt_zero 1 one_pos 4 (by norm_num)
    [⟨0, 0, 0, 1⟩, ⟨1, 0, 0, 1⟩, ⟨2, 0, 0, 1⟩, ⟨3, 1, 0, 1⟩] [⟨0, 1, 0, 1⟩, ⟨1, 1, 0, 1⟩, ⟨1, 0, 0, 1⟩, ⟨1, -1, 0, 1⟩] 1 2 (by norm_num) (by norm_num)
    (by norm_num) (by norm_num) (by simp) (by simp) (by simp) (by simp) 1 1 zero_le_one zero_le_one
    (by intro i hi; obtain rfl | rfl | rfl : i = 0 ∨ i = 1 ∨ i = 2 := by simp at hi; omega
        all_goals norm_num [ix])
    (by intro i hi; obtain rfl | rfl | rfl : i = 0 ∨ i = 1 ∨ i = 2 := by simp at hi; omega
        all_goals norm_num [ix])
    (by norm_num) (by norm_num)
  exact ⟨c1, c2, res, e1, e2, h⟩

/-- A line from the origin to (1, 1, 0). -/
noncomputable def diagonalUp : Curve ℝ := ⟨[⟨0, 0, 0, 1⟩, ⟨1, 1, 0, 1⟩], 1, [0, 0, 1, 1], false, 0, 1⟩
/-- A line from (0, 1, 0) to (1, 0, 0). -/
noncomputable def diagonalDown : Curve ℝ := ⟨[⟨0, 1, 0, 1⟩, ⟨1, 0, 0, 1⟩], 1, [0, 0, 1, 1], false, 0, 1⟩

theorem unit_line (a b : Vec4 ℝ) (ha : a.w = 1) (hb : b.w = 1) (hx : |b.x - a.x| ≤ 1) (hy : |b.y - a.y| ≤ 1) (hz : |b.z - a.z| ≤ 1) :
    let c : Curve ℝ := ⟨[a, b], 1, [0, 0, 1, 1], false, 0, 1⟩
    ValidCurve c ∧ IntervalOk c ∧ (∀ q ∈ c.cpts, q.w = 1) ∧ IsBezier c ∧ StepsLe 1 c := by
  refine ⟨⟨le_refl _, show 1 ≤ 8 by decide, show 1 < 2 by decide, rfl, ?_, ?_⟩, ?_, ?_, ⟨rfl, rfl⟩, ?_⟩
  · unfold SortedKnots; simp
  · simp [ix]
  · unfold IntervalOk Curve.updateInterval; simp [minElement, maxElement, not_lt.2 (zero_le_one (α := ℝ))]
  · simp [ha, hb]
  · intro i hi
    have : i = 0 := by simp at hi; omega
    subst this
    simpa [ix] using ⟨hx, hy, hz⟩

theorem line_mid (a b : Vec4 ℝ) (ha : a.w = 1) (hb : b.w = 1) :
    (⟨[a, b], 1, [0, 0, 1, 1], false, 0, 1⟩ : Curve ℝ).evaluate (1 / 2) = .ok ⟨(a.x + b.x) / 2, (a.y + b.y) / 2, (a.z + b.z) / 2⟩ := by
  have hspan : findSpan 1 1 (1 / 2 : ℝ) (ix [0, 0, 1, 1]) = 1 := by
    unfold findSpan
    rw [scanSpan]
    norm_num [ix]
  unfold Curve.evaluate curvePoint
  simp only [List.length_cons, List.length_nil, hspan]
  norm_num [maxDegree, hspan, curvePointAt, curveAcc, basisFuns, basisInner, ix, ha, hb]
  simp only [Vec3.sdiv, div_one, Vec3.mk.injEq]
  refine ⟨?_, ?_, ?_⟩ <;> ring

example : ∃ res, ccx Real.sqrt (1 / 2) 4 diagonalUp diagonalDown [] = some (.ok res) ∧ (∀ p ∈ res, Genuine (1 / 2) diagonalUp diagonalDown p) ∧
    ∃ p ∈ res, Accounts (1 / 2) diagonalUp diagonalDown p (1 / 2) (1 / 2) := by
  obtain ⟨V1, I1, w1, B1, S1⟩ := unit_line ⟨0, 0, 0, 1⟩ ⟨1, 1, 0, 1⟩ rfl rfl (by norm_num) (by norm_num) (by norm_num)
  obtain ⟨V2, I2, w2, B2, S2⟩ := unit_line ⟨0, 1, 0, 1⟩ ⟨1, 0, 0, 1⟩ rfl rfl (by norm_num) (by norm_num) (by norm_num)
  obtain ⟨res, e, g, _, cov⟩ := C56_bezier_returns Real.sqrt Geom.real_isSqrt Real.sqrt_zero (1 / 2) (by norm_num) 3 diagonalUp diagonalDown V1 V2 I1 I2 w1 w2
    B1 B2 1 1 (by norm_num) (by norm_num) S1 S2 (by norm_num [diagonalUp]) (by norm_num [diagonalDown]) (by norm_num [diagonalUp])
    (by norm_num [diagonalDown])
  refine ⟨res, e, g, cov (1 / 2) (1 / 2) ⟨1 / 2, 1 / 2, 0⟩ ?_ ?_ ?_ ?_ ?_ ?_⟩
  · norm_num [diagonalUp]
  · norm_num [diagonalUp]
  · norm_num [diagonalDown]
  · norm_num [diagonalDown]
  · rw [diagonalUp, line_mid _ _ rfl rfl]; norm_num
  · rw [diagonalDown, line_mid _ _ rfl rfl]; norm_num

/-- C56. With a tolerance that is not positive the search cannot end normally once the curves meet, however far it is followed. -/
theorem C56_needs_positive_tolerance (sqrt : K → K) (hs : Newton.IsSqrt sqrt) (hs0 : sqrt 0 = 0) (tol : K) (ht : tol ≤ 0) (fuel : Nat) (c1 c2 : Curve K)
    (H1 : Halvable fuel c1) (H2 : Halvable fuel c2) (s t : K) (P : Vec3 K) (a1 : c1.lo ≤ s) (a2 : s ≤ c1.hi) (b1 : c2.lo ≤ t) (b2 : t ≤ c2.hi)
    (e1 : c1.evaluate s = .ok P) (e2 : c2.evaluate t = .ok P) : ccx sqrt tol fuel c1 c2 [] = none := by
  cases h : ccx sqrt tol fuel c1 c2 [] with
  | none => rfl
  | some r =>
    obtain ⟨new, _, _, _, cov⟩ := C56_nothing_missed_partial sqrt hs hs0 tol fuel c1 c2 H1 H2 [] r h
    obtain ⟨p, _, n, k, l, hc, hk, hl, d1, d2⟩ := cov s t P a1 a2 b1 b2 e1 e2
    have h0 : tol = 0 := le_antisymm ht (le_trans (abs_nonneg _) d1)
    have := hc.2.2.1 s s hk hk P P e1 e1
    rw [h0] at this
    simp [Vec3.sqLength] at this

omit [IsStrictOrderedRing K] in
/-- C56: a call with a curve without control points is undefined: it has no first point to start its box with. -/
theorem C56_no_points (sqrt : K → K) (tol : K) (fuel : Nat) (c1 c2 : Curve K) (acc : List (K × K)) (h : c1.cpts = [] ∨ c2.cpts = []) :
    ccx sqrt tol (fuel + 1) c1 c2 acc = some .ub := by
  have e : ∀ c : Curve K, c.cpts = [] → c.bbox = .ub := fun c hc => by unfold Curve.bbox; rw [hc]
  rw [ccx]
  rcases h with h | h
  · rw [e _ h]
  · rw [e _ h]
    cases c1.bbox <;> rfl

/-- C56. Boxes that meet, are not both small, and a parameter interval of the first curve not wider than twice the tolerance of `split`: the call throws. -/
theorem C56_too_narrow_throws (sqrt : K → K) (tol : K) (fuel : Nat) (c1 c2 : Curve K) (acc : List (K × K)) (b1 b2 : AABB K) (e1 : c1.bbox = .ok b1)
    (e2 : c2.bbox = .ok b2) (hi : b1.intersects b2 = true) (hbig : ¬ (sqrt (b1.max - b1.min).sqLength < tol ∧ sqrt (b2.max - b2.min).sqLength < tol))
    (hw : c1.hi - c1.lo ≤ 2 / 10 ^ 12) (hw0 : c1.lo ≤ c1.hi) : ccx sqrt tol (fuel + 1) c1 c2 acc = some .throws := by
  have hsm : (small sqrt tol b1 && small sqrt tol b2) = false := by
    rw [Bool.eq_false_iff]
    intro h
    rw [Bool.and_eq_true] at h
    exact hbig ⟨of_decide_eq_true h.1, of_decide_eq_true h.2⟩
  have hsp : c1.split ((c1.hi - c1.lo) * (1 / 2) + c1.lo) false = .throws := by
    unfold Curve.split
    rw [if_pos]
    right; right; left
    have e : (c1.hi - c1.lo) * (1 / 2) + c1.lo - c1.lo = (c1.hi - c1.lo) / 2 := by ring
    rw [e, absA_eq, abs_of_nonneg (by linarith), splitTol_eq]
    linarith
  rw [ccx, e1, e2]
  simp only [hi, hsm, hsp, andThen]
  rfl

example : ∃ b1 b2, (⟨[⟨0, 0, 0, 1⟩, ⟨1, 1, 0, 1⟩], 1, [0, 0, 1, 1], false, 0, 1 / 10 ^ 12⟩ : Curve ℚ).bbox = .ok b1 ∧
    (⟨[⟨0, 1, 0, 1⟩, ⟨1, 0, 0, 1⟩], 1, [0, 0, 1, 1], false, 0, 1⟩ : Curve ℚ).bbox = .ok b2 ∧ b1.intersects b2 = true ∧
    ccx (fun x => x) (1 / 2) 1 (⟨[⟨0, 0, 0, 1⟩, ⟨1, 1, 0, 1⟩], 1, [0, 0, 1, 1], false, 0, 1 / 10 ^ 12⟩ : Curve ℚ)
      ⟨[⟨0, 1, 0, 1⟩, ⟨1, 0, 0, 1⟩], 1, [0, 0, 1, 1], false, 0, 1⟩ [] = some .throws :=
  ⟨⟨⟨0, 0, 0⟩, ⟨1, 1, 0⟩⟩, ⟨⟨0, 0, 0⟩, ⟨1, 1, 0⟩⟩, by decide +kernel, by decide +kernel, by decide +kernel,
    C56_too_narrow_throws _ _ 0 _ _ _ ⟨⟨0, 0, 0⟩, ⟨1, 1, 0⟩⟩ ⟨⟨0, 0, 0⟩, ⟨1, 1, 0⟩⟩ (by decide +kernel) (by decide +kernel) (by decide +kernel) (by decide +kernel) (by decide +kernel) (by decide +kernel)⟩

/-- C56. With weights other than 1 the boxes do not hold the curves, and a crossing is missed: the two lines meet at parameters (1/2, 1/2) and nothing is
reported. -/
theorem C56_weighted_counterexample : ∃ (c1 c2 : Curve ℚ) (P : Vec3 ℚ), ValidCurve c1 ∧ ValidCurve c2 ∧ PositiveWeights c1 ∧ PositiveWeights c2 ∧
    c1.evaluate (1 / 2) = .ok P ∧ c2.evaluate (1 / 2) = .ok P ∧ ∀ sqrt tol, ccx sqrt tol 1 c1 c2 [] = some (.ok []) := by
  refine ⟨weightedLine, ⟨[⟨3 / 4, -1, 0, 1⟩, ⟨3 / 4, 1, 0, 1⟩], 1, [0, 0, 1, 1], false, 0, 1⟩, ⟨3 / 4, 0, 0⟩, weightedLine_valid,
    ⟨by decide, by decide, by decide, by decide, by unfold SortedKnots; decide +kernel, by decide +kernel⟩, by unfold PositiveWeights; decide +kernel,
    by unfold PositiveWeights; decide +kernel, by decide +kernel, by decide +kernel, fun sqrt tol => ?_⟩
  have e1 : weightedLine.bbox = .ok ⟨⟨0, 0, 0⟩, ⟨1 / 3, 0, 0⟩⟩ := by decide +kernel
  have e2 : (⟨[⟨3 / 4, -1, 0, 1⟩, ⟨3 / 4, 1, 0, 1⟩], 1, [0, 0, 1, 1], false, 0, 1⟩ : Curve ℚ).bbox = .ok ⟨⟨3 / 4, -1, 0⟩, ⟨3 / 4, 1, 0⟩⟩ := by decide +kernel
  have hi : (⟨⟨0, 0, 0⟩, ⟨1 / 3, 0, 0⟩⟩ : AABB ℚ).intersects ⟨⟨3 / 4, -1, 0⟩, ⟨3 / 4, 1, 0⟩⟩ = false := by decide +kernel
  rw [ccx, e1, e2]
  simp only [hi]
  rfl

end Cmm.Ccx
