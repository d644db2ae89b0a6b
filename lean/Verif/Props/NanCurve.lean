import Verif.Lemmas.NanCurve
import Mathlib.Algebra.Order.Field.Rat
/-!
C138: NaN in the control points, knots or parameters of a spline. C139: NaN as the parameter of an insertion or a split.

All statements are for any arithmetic on the numbers that are not NaN (`Arith`), so they do not depend on rounding.
-/
namespace Cmm.Nurbs
variable {K : Type} [Arith K] [LinearOrder K]

omit [Arith K] in
theorem InPiece.findSpan {U : Nat → K} {n p k : Nat} {t : K} (h : InPiece U n p k t) : findSpan (n - 1) p t U = k := by
  have h1 := h.deg_le
  have h2 := h.lt_len
  have : scanSpan U t (n - 1 + 1) (p + 1) = k + 1 := by
    refine scanSpan_to U t _ _ (k - p) _ (by omega) (by omega) (fun j a b => h.left j (by omega) (by omega)) ?_
    intro hl
    rcases h.right with r | r
    · omega
    · exact not_le.2 r
  rw [Nurbs.findSpan, this]
  omega

omit [Arith K] in
theorem InPiece.dbl {U : Nat → K} {V : Nat → Dbl K} {n p k : Nat} {t : K} (h : InPiece U n p k t) (hp : 1 ≤ p)
    (hV : ∀ i, 1 ≤ i → i ≤ k + p → V i = .num (U i)) : Nurbs.findSpan (n - 1) p (.num t) V = k := by
  have h1 := h.deg_le
  have h2 := h.lt_len
  rw [findSpan_num (n - 1) p t U V (by omega), h.findSpan]
  intro j a b _
  rw [h.findSpan] at b
  exact hV j (by omega) (by omega)

/-- **C138**: evaluating at a parameter needs only the control points and knots of its piece: a curve that has NaN elsewhere has the same value there as the curve
without NaN. -/
theorem C138_local (c : Curve K) (d : Curve (Dbl K)) (sh : ShapeOk d) (hd : d.degree = c.degree) (hn : d.cpts.length = c.cpts.length)
    (hl : d.knots.length = c.knots.length) (t : K) (k : Nat) (hk : InPiece (ix c.knots) c.cpts.length c.degree k t)
    (hU : ∀ i, 1 ≤ i → i ≤ k + c.degree → ix d.knots i = .num (ix c.knots i))
    (hP : ∀ i, k - c.degree ≤ i → i ≤ k → ix d.cpts i = (ix c.cpts i).dbl) :
    ∃ q, c.evaluate t = .ok q ∧ d.evaluate (.num t) = .ok q.dbl := by
  obtain ⟨s1, s2, s3, s4⟩ := sh
  rw [hd] at s1 s2 s3 s4
  rw [hn] at s3 s4
  rw [hl] at s4
  have h1 := hk.deg_le
  have h2 := hk.lt_len
  have e1 := hk.findSpan
  have e2 := hk.dbl s1 hU
  unfold Curve.evaluate
  simp only
  rw [hd, hn, hl, e1, e2, if_neg (by unfold maxDegree; omega), if_neg (by unfold maxDegree; omega)]
  refine ⟨_, rfl, ?_⟩
  unfold curvePoint
  rw [e1, e2]
  unfold curvePointAt
  simp only
  rw [basisFuns_num (ix c.knots) (ix d.knots) k t c.degree h1 (fun x a b => hU x (by omega) b)]
  have := curveAcc_num (ix c.cpts) (ix d.cpts) (basisFuns k t (ix c.knots) c.degree) (k - c.degree) 0 ⟨0, 0, 0⟩ (fun i hi => by
    rw [basisFuns_len] at hi
    exact hP _ (by omega) (by omega))
  have e3 : (⟨0, 0, 0⟩ : Vec3 K).dbl = 0 := rfl
  have e4 : (⟨0, 0, 0⟩ : Vec3 K) = 0 := rfl
  rw [e3, e4] at this
  rw [dbl_zero, this]
  rfl

/-- **C138**: with numbers as knots a coordinate of the value is NaN exactly if that coordinate or the weight of one of the `degree + 1` control points of the piece
is NaN (also if the basis function of that point is zero). -/
theorem C138_nan_iff (d : Curve (Dbl K)) (sh : ShapeOk d) (U : Nat → K) (t : K) (k : Nat) (hk : InPiece U d.cpts.length d.degree k t)
    (hU : ∀ i, 1 ≤ i → i ≤ k + d.degree → ix d.knots i = .num (U i)) :
    ∃ r, d.evaluate (.num t) = .ok r ∧
      (r.x = .nan ↔ ∃ i, k - d.degree ≤ i ∧ i ≤ k ∧ ((ix d.cpts i).w = .nan ∨ (ix d.cpts i).x = .nan)) ∧
      (r.y = .nan ↔ ∃ i, k - d.degree ≤ i ∧ i ≤ k ∧ ((ix d.cpts i).w = .nan ∨ (ix d.cpts i).y = .nan)) ∧
      (r.z = .nan ↔ ∃ i, k - d.degree ≤ i ∧ i ≤ k ∧ ((ix d.cpts i).w = .nan ∨ (ix d.cpts i).z = .nan)) := by
  obtain ⟨s1, s2, s3, s4⟩ := sh
  have h1 := hk.deg_le
  have h2 := hk.lt_len
  have e2 := hk.dbl s1 hU
  unfold Curve.evaluate
  simp only
  rw [e2, if_neg (by unfold maxDegree; omega)]
  refine ⟨_, rfl, ?_⟩
  unfold curvePoint
  rw [e2]
  unfold curvePointAt
  simp only
  rw [basisFuns_num U (ix d.knots) k t d.degree h1 (fun x a b => hU x (by omega) b)]
  obtain ⟨a0, ax, ay, az⟩ := curveAcc_nan (ix d.cpts) (basisFuns k t U d.degree) (k - d.degree) 0 0
  have z : (0 : Dbl K) ≠ .nan := by rw [dbl_zero]; simp
  have zx : (0 : Vec3 (Dbl K)).x ≠ .nan := z
  have zy : (0 : Vec3 (Dbl K)).y ≠ .nan := z
  have zz : (0 : Vec3 (Dbl K)).z ≠ .nan := z
  simp only [z, zx, zy, zz, false_or, basisFuns_len] at a0 ax ay az
  have key : ∀ F G : Nat → Prop, ((∃ i < d.degree + 1, F (k - d.degree + i) ∨ G (k - d.degree + i)) ∨ ∃ i < d.degree + 1, F (k - d.degree + i)) ↔
      ∃ i, k - d.degree ≤ i ∧ i ≤ k ∧ (F i ∨ G i) := by
    intro F G
    constructor
    · rintro (⟨i, hi, h⟩ | ⟨i, hi, h⟩)
      · exact ⟨_, by omega, by omega, h⟩
      · exact ⟨_, by omega, by omega, .inl h⟩
    · rintro ⟨i, a, b, h⟩
      refine .inl ⟨i - (k - d.degree), by omega, ?_⟩
      rwa [show k - d.degree + (i - (k - d.degree)) = i by omega]
  simp only [Vec3.sdiv, div_eq_nan, a0, ax, ay, az]
  exact ⟨key (fun i => (ix d.cpts i).w = .nan) (fun i => (ix d.cpts i).x = .nan), key (fun i => (ix d.cpts i).w = .nan) (fun i => (ix d.cpts i).y = .nan),
    key (fun i => (ix d.cpts i).w = .nan) (fun i => (ix d.cpts i).z = .nan)⟩

/-- A quadratic curve on three pieces with a NaN in the last control point. -/
def lateNan : Curve (Dbl ℚ) :=
  ⟨[⟨.num 0, .num 0, .num 0, .num 1⟩, ⟨.num 1, .num 2, .num 0, .num 1⟩, ⟨.num 2, .num 0, .num 0, .num 1⟩, ⟨.num 3, .num 2, .num 0, .num 1⟩,
    ⟨.nan, .num 0, .num 0, .num 1⟩], 2, [.num 0, .num 0, .num 0, .num 1, .num 2, .num 3, .num 3, .num 3], false, .num 0, .num 3⟩

/-- The hypotheses are met; the NaN reaches the last piece and no other, and there only the x coordinate. -/
example : ShapeOk lateNan ∧ InPiece (ix [0, 0, 0, 1, 2, 3, 3, 3] : Nat → ℚ) 5 2 3 (3 / 2) ∧
    lateNan.evaluate (.num (3 / 2)) = .ok ⟨.num 2, .num (1 / 2), .num 0⟩ ∧ lateNan.evaluate (.num (5 / 2)) = .ok ⟨.nan, .num (5 / 4), .num 0⟩ := by
  refine ⟨⟨by decide, by decide, by decide, by decide⟩, ⟨by decide, by decide, ?_, ?_⟩, by decide +kernel, by decide +kernel⟩
  · intro j a b
    obtain rfl : j = 3 := by omega
    decide +kernel
  · right
    decide +kernel

/-- **C138**: at NaN a curve of sizes that fit is NaN in all coordinates, whatever its numbers are; nothing is read outside the vectors. -/
theorem C138_parameter (d : Curve (Dbl K)) (sh : ShapeOk d) : d.evaluate .nan = .ok allNan := by
  obtain ⟨s1, s2, s3, s4⟩ := sh
  have e := findSpan_nan (d.cpts.length - 1) d.degree .nan (ix d.knots) (.inl rfl)
  unfold Curve.evaluate
  simp only
  rw [e, if_neg (by unfold maxDegree; omega)]
  unfold curvePoint
  rw [e, curvePointAt_nan _ _ _ _ _ s1 (.inl rfl)]

/-- **C138**: a NaN knot spoils the curve from the knot before it on: if knot number `m` is NaN, the knots between the first piece and it are numbers up to `t`, then the
value at `t` is NaN. -/
theorem C138_nan_knot (d : Curve (Dbl K)) (sh : ShapeOk d) (m : Nat) (hm : d.degree < m) (hmn : m ≤ d.cpts.length) (hnan : ix d.knots m = .nan) (t : Dbl K)
    (ht : ∀ j, d.degree < j → j < m → ix d.knots j ≤ t) : d.evaluate t = .ok allNan := by
  obtain ⟨s1, s2, s3, s4⟩ := sh
  have e : findSpan (d.cpts.length - 1) d.degree t (ix d.knots) = m - 1 := by
    have : scanSpan (ix d.knots) t (d.cpts.length - 1 + 1) (d.degree + 1) = m := by
      refine scanSpan_to _ _ _ _ (m - (d.degree + 1)) _ (by omega) (by omega) (fun j a b => ht j (by omega) b) ?_
      intro _
      rw [hnan]
      simp
    rw [findSpan, this]
  unfold Curve.evaluate
  simp only
  rw [e, if_neg (by unfold maxDegree; omega)]
  unfold curvePoint
  rw [e, curvePointAt_nan _ _ _ _ _ s1 (.inr (by rw [show m - 1 + 1 = m by omega, hnan]))]

/-- A curve with a NaN as knot number 4: from the knot before it on, that is from 1 on, everything is NaN, and before that the degree decides. -/
example : let d : Curve (Dbl ℚ) := ⟨lateNan.cpts, 2, [.num 0, .num 0, .num 0, .num 1, .nan, .num 3, .num 3, .num 3], false, .num 0, .num 3⟩
    ShapeOk d ∧ d.evaluate (.num 1) = .ok allNan ∧ d.evaluate (.num (1 / 2)) = .ok allNan := by
  refine ⟨⟨by decide, by decide, by decide, by decide⟩, by decide +kernel, by decide +kernel⟩

/-- **C138**, surfaces: a NaN parameter in either direction gives NaN in all coordinates, whatever the other parameter is. -/
theorem C138_surface_parameter (s : Surface (Dbl K)) (hu : 1 ≤ s.du ∧ s.du ≤ 8 ∧ s.du < s.su ∧ s.ku.length = s.su + s.du + 1)
    (hv : 1 ≤ s.dv ∧ s.dv ≤ 8 ∧ s.dv < s.sv ∧ s.kv.length = s.sv + s.dv + 1) (hc : s.cpts.length = s.su) (hr : ∀ r ∈ s.cpts, r.length = s.sv)
    (u v : Dbl K) (h : u = .nan ∨ v = .nan) : s.evaluate u v = .ok allNan := by
  obtain ⟨u1, u2, u3, u4⟩ := hu
  obtain ⟨v1, v2, v3, v4⟩ := hv
  have bu := findSpan_between (s.su - 1) s.du u (ix s.ku) (by omega)
  have bv := findSpan_between (s.sv - 1) s.dv v (ix s.kv) (by omega)
  unfold Surface.evaluate
  simp only
  generalize findSpan (s.su - 1) s.du u (ix s.ku) = us at *
  generalize findSpan (s.sv - 1) s.dv v (ix s.kv) = vs at *
  have hrow : ((s.cpts.drop (us - s.du)).take (s.du + 1)).any (fun r => decide (r.length ≤ vs)) = false := by
    rw [List.any_eq_false]
    intro r hr'
    have := hr r (List.mem_of_mem_drop (List.mem_of_mem_take hr'))
    simp only [decide_eq_true_eq]
    omega
  rw [hrow, if_neg (by simp only [maxDegree, Bool.false_eq_true, false_or]; omega)]
  have e : surfaceSum s.du s.dv (ix s.ku) (ix s.kv) (cell s.cpts) us vs u v = ⟨.nan, .nan, .nan, .nan⟩ := by
    have ne : ∀ (i : Nat) (x : Dbl K) (U : Nat → Dbl K) (p : Nat), basisFuns i x U p ≠ [] := by
      intro i x U p hx
      have := basisFuns_len i x U p
      rw [hx] at this
      simp at this
    unfold surfaceSum
    refine acc4_all _ _ (ne _ _ _ _) ?_ _ _
    rcases h with h | h
    · exact .inr fun k => acc4_all _ _ (ne _ _ _ _) (.inl (basisFuns_nan _ _ _ (.inl h) _ u1)) _ _
    · exact .inl (basisFuns_nan _ _ _ (.inl h) _ v1)
  rw [e, dehomog, if_neg (by rw [dbl_zero]; simp)]
  simp [allNan]

example : let s : Surface (Dbl ℚ) := ⟨[[⟨.num 0, .num 0, .num 0, .num 1⟩, ⟨.num 0, .num 1, .num 0, .num 1⟩],
      [⟨.num 1, .num 0, .num 0, .num 1⟩, ⟨.num 1, .num 1, .num 0, .num 1⟩]], 1, 1, 2, 2, [.num 0, .num 0, .num 1, .num 1], [.num 0, .num 0, .num 1, .num 1],
      .num 0, .num 1, .num 0, .num 1⟩
    s.evaluate (.num (1 / 2)) (.num (1 / 4)) = .ok ⟨.num (1 / 2), .num (1 / 4), .num 0⟩ ∧ s.evaluate .nan (.num (1 / 4)) = .ok allNan := by decide +kernel

/-- **C138**: the ends of a clamped curve do not survive a NaN in an inner control point, although its basis function is zero there. -/
theorem C138_end_counterexample : ∃ d : Curve (Dbl ℚ), ShapeOk d ∧ d.knots = [.num 0, .num 0, .num 0, .num 1, .num 1, .num 1] ∧
    ix d.cpts 0 = ⟨.num 5, .num 6, .num 7, .num 1⟩ ∧ d.evaluate (.num 0) = .ok ⟨.nan, .num 6, .num 7⟩ :=
  ⟨⟨[⟨.num 5, .num 6, .num 7, .num 1⟩, ⟨.nan, .num 1, .num 1, .num 1⟩, ⟨.num 2, .num 2, .num 2, .num 1⟩], 2,
    [.num 0, .num 0, .num 0, .num 1, .num 1, .num 1], false, .num 0, .num 1⟩, ⟨by decide, by decide, by decide, by decide⟩, rfl, rfl, by decide +kernel⟩

/-! ### Insertion and splitting -/

theorem findMultiplicity_nan (l : List (Dbl K)) : findMultiplicity .nan l = 0 := by
  induction l with
  | nil => rfl
  | cons a l ih =>
    have : ¬ absA (Dbl.nan - a) ≤ multTol := by
      rw [nan_sub, absA, neg_nan, Dbl.max_def']
      simp
    rw [findMultiplicity, if_neg this, ih]

omit [Arith K] [LinearOrder K] in
theorem kvNan {l : List (Dbl K)} {s : Nat} (h : s < l.length) : ∀ r, (knotInsertionKv l .nan s r).length = l.length + r ∧
    (∀ i, s + 1 ≤ i → i < s + 1 + r → (knotInsertionKv l .nan s r)[i]? = some .nan) := by
  intro r
  induction r with
  | zero => exact ⟨rfl, fun i a b => by omega⟩
  | succ r ih =>
    obtain ⟨i1, i2⟩ := ih
    rw [knotInsertionKv]
    refine ⟨by rw [List.length_insertIdx_of_le_length (by omega), i1]; omega, fun i a b => ?_⟩
    · rcases Nat.eq_or_lt_of_le a with rfl | a
      · rw [List.getElem?_insertIdx_self, if_pos (by omega)]
      · rw [List.getElem?_insertIdx_of_gt (by omega)]
        exact i2 (i - 1) (by omega) (by omega)

omit [Arith K] in
theorem updateInterval_some (c : Curve (Dbl K)) (h : c.knots ≠ []) : ∃ lo hi, c.updateInterval = .ok { c with lo, hi } := by
  unfold Curve.updateInterval
  cases hk : c.knots with
  | nil => exact absurd hk h
  | cons a l => exact ⟨_, _, rfl⟩

theorem insertKnot_nan (d : Curve (Dbl K)) (sh : ShapeOk d) (count : Nat) (hc : count ≤ d.degree) :
    ∃ d', d.insertKnot .nan count = .ok d' ∧ d'.degree = d.degree ∧ d'.cpts.length = d.cpts.length + count ∧ d'.knots.length = d.knots.length + count ∧
      ∀ i, d.degree + 1 ≤ i → i < d.degree + 1 + count → d'.knots[i]? = some .nan := by
  obtain ⟨s1, s2, s3, s4⟩ := sh
  have e := findSpan_nan (d.cpts.length - 1) d.degree .nan (ix d.knots) (.inl rfl)
  obtain ⟨k1, k2⟩ := kvNan (l := d.knots) (s := d.degree) (by omega) count
  unfold Curve.insertKnot
  simp only
  rw [e, findMultiplicity_nan, if_neg (by omega)]
  unfold knotInsertion
  rw [if_neg (by unfold maxDegree; omega), Res.ok_bind]
  obtain ⟨lo, hi, h⟩ := updateInterval_some ({ d with
    cpts := (List.range (d.cpts.length + count)).map (insArray lerp4 d.degree (ix d.knots) (ix d.cpts) .nan count 0 d.degree
      (fun i => if i ≤ count then ix d.cpts (d.cpts.length - 1) - ⟨(i : Dbl K), (i : Dbl K), (i : Dbl K), (i : Dbl K)⟩ else ix d.cpts i)),
    knots := knotInsertionKv d.knots .nan d.degree count } : Curve (Dbl K)) (by
      intro h0
      simp only at h0
      rw [h0] at k1
      simp at k1
      omega)
  exact ⟨_, h, rfl, by simp, k1, k2⟩

theorem nan_knot_first (d : Curve (Dbl K)) (h1 : 1 ≤ d.degree) (h2 : d.degree ≤ 8) (h3 : d.degree < d.cpts.length) (h4 : d.degree + d.degree < d.knots.length)
    (h5 : d.cpts.length ≤ d.knots.length) (h : d.knots[d.degree + 1]? = some .nan) (t : Dbl K) : d.evaluate t = .ok allNan := by
  have hx : ix d.knots (d.degree + 1) = .nan := by rw [ix, List.getD_eq_getElem?_getD, h]; rfl
  have e := findSpan_nan (d.cpts.length - 1) d.degree t (ix d.knots) (.inr hx)
  unfold Curve.evaluate
  simp only
  rw [e, if_neg (by unfold maxDegree; omega)]
  unfold curvePoint
  rw [e, curvePointAt_nan _ _ _ _ _ h1 (.inr hx)]

/-- **C139** (violated): NaN is not refused by `insert_knot`. Every curve of sizes that fit becomes a curve that is NaN at every parameter. -/
theorem C139_insert_counterexample (d : Curve (Dbl K)) (sh : ShapeOk d) (count : Nat) (h1 : 1 ≤ count) (hc : count ≤ d.degree) :
    ∃ d', d.insertKnot .nan count = .ok d' ∧ d'.cpts.length = d.cpts.length + count ∧ ∀ t, d'.evaluate t = .ok allNan := by
  obtain ⟨d', e, a1, a2, a3, a4⟩ := insertKnot_nan d sh count hc
  obtain ⟨s1, s2, s3, s4⟩ := sh
  refine ⟨d', e, a2, fun t => nan_knot_first d' (by omega) (by omega) (by omega) (by omega) (by omega) ?_ t⟩
  rw [a1]
  exact a4 _ (le_refl _) (by omega)

theorem ofKnots_some (P : List (Vec4 (Dbl K))) (p : Nat) (U : List (Dbl K)) (b : Bool) (hP : P ≠ []) (hU : U ≠ []) :
    ∃ lo hi, Curve.ofKnots P p U b = .ok ⟨P, p, U, b, lo, hi⟩ := by
  obtain ⟨lo, hi, h⟩ := updateInterval_some (⟨P, p, U, b, 0, 1⟩ : Curve (Dbl K)) hU
  refine ⟨lo, hi, ?_⟩
  unfold Curve.ofKnots
  rw [h, Res.ok_bind, if_neg (by simpa using hP)]

theorem normalize_some (c : Curve (Dbl K)) (h : c.knots ≠ []) : ∃ (lo hi : Dbl K) (f : Dbl K → Dbl K), f .nan = .nan ∧
    c.normalizeKnots = .ok ⟨c.cpts, c.degree, c.knots.map f, c.periodic, lo, hi⟩ := by
  unfold Curve.normalizeKnots Nurbs.normalizeKnots
  cases hk : c.knots with
  | nil => exact absurd hk h
  | cons a l =>
    simp only [minElement, maxElement, Res.ok_bind]
    generalize hm : l.foldl (fun m x => if x < m then x else m) a = m
    generalize hM : l.foldl (fun m x => if m < x then x else m) a = M
    obtain ⟨lo, hi, e⟩ := updateInterval_some ({ c with knots := (a :: l).map fun k => (k - m) * (1 / (M - m)) } : Curve (Dbl K)) (by simp)
    exact ⟨lo, hi, fun k => (k - m) * (1 / (M - m)), by simp, e⟩

theorem short_knots (c : Curve (Dbl K)) (hp : 2 ≤ c.degree) (hP : c.cpts.length = c.degree + 1) (hU : c.knots.length = c.degree + 2) (t : Dbl K) :
    c.evaluate t = .ub := by
  have b := findSpan_between (c.cpts.length - 1) c.degree t (ix c.knots) (by omega)
  unfold Curve.evaluate
  simp only
  rw [if_pos (by omega)]

/-- **C139** (violated): NaN passes the test of `split` against the ends of the interval. For every curve of sizes that fit and both values of the flag two pieces are
returned; the second is NaN at every parameter; the first has too few knots, so that evaluating it is undefined, or is NaN everywhere as well (degree 1). -/
theorem C139_split_counterexample (d : Curve (Dbl K)) (sh : ShapeOk d) (normalize : Bool) : ∃ a b, d.split .nan normalize = .ok (a, b) ∧
    (∀ t, b.evaluate t = .ok allNan) ∧ (2 ≤ d.degree → ∀ t, a.evaluate t = .ub) ∧ (d.degree = 1 → ∀ t, a.evaluate t = .ok allNan) := by
  have sh' := sh
  obtain ⟨s1, s2, s3, s4⟩ := sh
  obtain ⟨lo, hi, e0⟩ := ofKnots_some d.cpts d.degree d.knots d.periodic (by intro h; rw [h] at s3; simp at s3) (by intro h; rw [h] at s4; simp at s4)
  obtain ⟨r, e1, a1, a2, a3, a4⟩ := insertKnot_nan (⟨d.cpts, d.degree, d.knots, d.periodic, lo, hi⟩ : Curve (Dbl K)) ⟨s1, s2, s3, s4⟩ d.degree (le_refl _)
  simp only at a1 a2 a3 a4
  have hks : findSpan d.cpts.length d.degree .nan (ix d.knots) = d.degree := findSpan_nan _ _ _ _ (.inl rfl)
  have hsp : findSpan r.cpts.length d.degree .nan (ix r.knots) = d.degree := findSpan_nan _ _ _ _ (.inl rfl)
  obtain ⟨lo1, hi1, f1⟩ := ofKnots_some (r.cpts.take (d.degree + 1)) d.degree (r.knots.take (d.degree + 1) ++ [.nan]) false
    (by intro h; have := congrArg List.length h; rw [List.length_take, a2] at this; simp at this; omega) (by simp)
  obtain ⟨lo2, hi2, f2⟩ := ofKnots_some (r.cpts.drop d.degree) d.degree (List.replicate (d.degree + 1) .nan ++ r.knots.drop (d.degree + 1)) false
    (by intro h; have := congrArg List.length h; rw [List.length_drop, a2, List.length_nil] at this; omega) (by simp)
  -- the two pieces before normalising
  have l1 : (r.cpts.take (d.degree + 1)).length = d.degree + 1 := by rw [List.length_take, a2]; omega
  have k1 : (r.knots.take (d.degree + 1) ++ [Dbl.nan]).length = d.degree + 2 := by
    rw [List.length_append, List.length_take, a3, List.length_singleton]; omega
  have n1 : (r.knots.take (d.degree + 1) ++ [Dbl.nan])[d.degree + 1]? = some .nan := by
    have : (r.knots.take (d.degree + 1)).length = d.degree + 1 := by rw [List.length_take, a3]; omega
    rw [List.getElem?_append_right (by omega), this]
    simp
  have l2 : (r.cpts.drop d.degree).length = d.cpts.length := by rw [List.length_drop, a2]; omega
  have k2 : (List.replicate (d.degree + 1) Dbl.nan ++ r.knots.drop (d.degree + 1)).length = d.knots.length + d.degree := by
    rw [List.length_append, List.length_drop, a3, List.length_replicate]; omega
  have n2 : (List.replicate (d.degree + 1) Dbl.nan ++ r.knots.drop (d.degree + 1))[d.degree + 1]? = some .nan := by
    rw [List.getElem?_append_right (by simp), List.length_replicate, Nat.sub_self, List.getElem?_drop]
    exact a4 _ (by omega) (by omega)
  have main : ∀ (U1 U2 : List (Dbl K)) (x1 y1 x2 y2 : Dbl K), U1.length = d.degree + 2 → U1[d.degree + 1]? = some .nan →
      U2.length = d.knots.length + d.degree → U2[d.degree + 1]? = some .nan →
      let a : Curve (Dbl K) := ⟨r.cpts.take (d.degree + 1), d.degree, U1, false, x1, y1⟩
      let b : Curve (Dbl K) := ⟨r.cpts.drop d.degree, d.degree, U2, false, x2, y2⟩
      (∀ t, b.evaluate t = .ok allNan) ∧ (2 ≤ d.degree → ∀ t, a.evaluate t = .ub) ∧ (d.degree = 1 → ∀ t, a.evaluate t = .ok allNan) := by
    intro U1 U2 x1 y1 x2 y2 g1 g2 g3 g4 a b
    refine ⟨fun t => nan_knot_first b s1 s2 ?_ ?_ ?_ g4 t, fun h t => short_knots a h l1 g1 t, fun h t => nan_knot_first a s1 s2 ?_ ?_ ?_ g2 t⟩
    · show d.degree < (r.cpts.drop d.degree).length; omega
    · show d.degree + d.degree < U2.length; omega
    · show (r.cpts.drop d.degree).length ≤ U2.length; omega
    · show d.degree < (r.cpts.take (d.degree + 1)).length; omega
    · show d.degree + d.degree < U1.length; omega
    · show (r.cpts.take (d.degree + 1)).length ≤ U1.length; omega
  have pre : d.split .nan normalize = (if normalize then do
        let n1 ← (⟨r.cpts.take (d.degree + 1), d.degree, r.knots.take (d.degree + 1) ++ [.nan], false, lo1, hi1⟩ : Curve (Dbl K)).normalizeKnots
        let n2 ← (⟨r.cpts.drop d.degree, d.degree, List.replicate (d.degree + 1) .nan ++ r.knots.drop (d.degree + 1), false, lo2, hi2⟩ : Curve (Dbl K)).normalizeKnots
        .ok (n1, n2)
      else .ok (⟨r.cpts.take (d.degree + 1), d.degree, r.knots.take (d.degree + 1) ++ [.nan], false, lo1, hi1⟩,
        ⟨r.cpts.drop d.degree, d.degree, List.replicate (d.degree + 1) .nan ++ r.knots.drop (d.degree + 1), false, lo2, hi2⟩)) := by
    unfold Curve.split
    rw [if_neg (by simp [absA, Dbl.max_def'])]
    simp only [findMultiplicity_nan, hks, Nat.sub_zero]
    rw [if_neg (by omega), e0, Res.ok_bind, e1, Res.ok_bind, hsp, Nat.sub_self, Nat.zero_add, Nat.add_comm 1 d.degree, f1, Res.ok_bind, Nat.add_sub_cancel, f2, Res.ok_bind]
  rw [pre]
  cases normalize with
  | false => exact ⟨_, _, rfl, main _ _ _ _ _ _ k1 n1 k2 n2⟩
  | true =>
    obtain ⟨x1, y1, g1, h1, j1⟩ := normalize_some (⟨r.cpts.take (d.degree + 1), d.degree, r.knots.take (d.degree + 1) ++ [.nan], false, lo1, hi1⟩ : Curve (Dbl K))
      (by simp)
    obtain ⟨x2, y2, g2, h2, j2⟩ := normalize_some (⟨r.cpts.drop d.degree, d.degree, List.replicate (d.degree + 1) .nan ++ r.knots.drop (d.degree + 1), false, lo2,
      hi2⟩ : Curve (Dbl K)) (by simp)
    rw [if_pos rfl, j1, Res.ok_bind, j2, Res.ok_bind]
    refine ⟨_, _, rfl, main _ _ _ _ _ _ ?_ ?_ ?_ ?_⟩
    · rw [List.length_map, k1]
    · rw [List.getElem?_map, n1, Option.map_some, h1]
    · rw [List.length_map, k2]
    · rw [List.getElem?_map, n2, Option.map_some, h2]

/-- **C139**, what holds: a number at or outside the ends of the interval is refused, also if the curve has NaN among its data. -/
theorem C139_numbers_refused_partial (d : Curve (Dbl K)) (lo hi t : K) (normalize : Bool) (hlo : d.lo = .num lo) (hhi : d.hi = .num hi) (h : t ≤ lo ∨ hi ≤ t) :
    d.split (.num t) normalize = .throws := by
  unfold Curve.split
  rw [if_pos]
  rw [hlo, hhi]
  rcases h with h | h
  · exact .inl h
  · exact .inr (.inl h)

example : ShapeOk lateNan ∧ lateNan.split (.num 3) false = .throws ∧ (∃ a b, lateNan.split .nan false = .ok (a, b)) ∧
    (lateNan.split (.num 1) false >>= fun p => p.1.evaluate (.num (1 / 2))) = lateNan.evaluate (.num (1 / 2)) := by
  refine ⟨⟨by decide, by decide, by decide, by decide⟩, by decide +kernel, ?_, by decide +kernel⟩
  obtain ⟨a, b, h, _⟩ := C139_split_counterexample lateNan ⟨by decide, by decide, by decide, by decide⟩ false
  exact ⟨a, b, h⟩

end Cmm.Nurbs
