import Verif.Props.SsxCode
/-!
C132: the u parameter stored for a border with fixed v belongs to another point, and examples for the hypotheses of C132.
-/
namespace Cmm.Gauss
open Cmm.Nurbs Cmm.Csx Cmm.Bnd

section patch
variable {K : Type} [Field K] [LinearOrder K] [IsStrictOrderedRing K]

/-- The bilinear patch with unit weights and the given corners over `[a, b] × [c, d]`. -/
def corners (P00 P01 P10 P11 : Vec3 K) (a b c d : K) : Surface K :=
  ⟨[[⟨P00.x, P00.y, P00.z, 1⟩, ⟨P01.x, P01.y, P01.z, 1⟩], [⟨P10.x, P10.y, P10.z, 1⟩, ⟨P11.x, P11.y, P11.z, 1⟩]], 1, 1, 2, 2, [a, a, b, b], [c, c, d, d],
    a, b, c, d⟩

omit [IsStrictOrderedRing K] in
theorem two_knots {a b : K} (h : a < b) : ValidKnots 2 1 [a, a, b, b] :=
  ⟨by decide, by decide, by decide, rfl, by unfold SortedKnots; simp [h.le], by simpa [ix] using h⟩

theorem corners_patch (P00 P01 P10 P11 : Vec3 K) {a b c d : K} (h : a < b) (h' : c < d) : PositivePatch (corners P00 P01 P10 P11 a b c d) := by
  refine ⟨⟨rfl, by simp [corners], two_knots h, two_knots h'⟩, by unfold SurfIntervalOk; rfl, ⟨rfl, rfl, rfl, rfl⟩, ?_⟩
  intro r hr q hq
  simp [corners] at hr
  rcases hr with rfl | rfl <;> simp at hq <;> rcases hq with rfl | rfl <;> exact one_pos

omit [IsStrictOrderedRing K] in
theorem corners_unit (P00 P01 P10 P11 : Vec3 K) (a b c d : K) : SurfUnit (corners P00 P01 P10 P11 a b c d) := by
  intro r hr q hq
  simp [corners] at hr
  rcases hr with rfl | rfl <;> simp at hq <;> rcases hq with rfl | rfl <;> rfl

theorem span_one {a b : K} (h : a < b) {x : K} (h1 : a ≤ x) (h2 : x ≤ b) : findSpan 1 1 x (ix [a, a, b, b]) = 1 := by
  obtain ⟨i, hi, b1, b2, -⟩ := (two_knots h).span (t := x) (by simpa [ix] using h1) (by simpa [ix] using h2)
  rw [show (1 : Nat) = 2 - 1 from rfl, hi]
  omega

theorem ofSize_two : (Curve.ofSize 2 1 : Res (Curve K)) = .ok ⟨[0, 0], 1, [0, 0, 1, 1], false, 0, 1⟩ := by
  unfold Curve.ofSize Curve.generateKnots
  simp [generateKnots, Curve.updateInterval, minElement, maxElement, bind, Res.bind, not_lt.2 (zero_le_one (α := K)), List.replicate]

theorem corners_borders (P00 P01 P10 P11 : Vec3 K) {a b c d : K} (h : a < b) (h' : c < d) :
    freeBoundaries (corners P00 P01 P10 P11 a b c d) = .ok [segmentCurve P00 P01 1 c d, segmentCurve P10 P11 1 c d, segmentCurve P00 P10 1 0 1,
      segmentCurve P01 P11 1 0 1] := by
  have e1 := span_one h (le_refl a) h.le
  have e2 := span_one h h.le (le_refl b)
  have e3 := span_one h' (le_refl c) h'.le
  have e4 := span_one h' h'.le (le_refl d)
  have hb := sub_ne_zero.2 h.ne'
  have hd := sub_ne_zero.2 h'.ne'
  have cov := (corners_patch P00 P01 P10 P11 h h').valid.covered
  unfold freeBoundaries freeIsocurveU freeIsocurveV
  rw [cov]
  simp only [corners, show 2 - 1 = 1 from rfl, e1, e2, e3, e4, ofSize_two]
  simp [maxDegree, basisFuns, basisInner, acc4, ix, cell, hb, hd, Curve.updateInterval, minElement, maxElement, bind, Res.bind, not_lt.2 h'.le, h', h'.le,
    not_lt.2 h.le, not_lt.2 h'.le, List.range_succ, segmentCurve]
  refine ⟨⟨?_, ?_⟩, ⟨?_, ?_⟩, ⟨?_, ?_⟩, ?_, ?_⟩ <;> ext <;> simp [Vec4.smul]

theorem flat_corners {a b c d : K} (h : a < b) (h' : c < d) (u v : K) :
    (corners ⟨a, c, 0⟩ ⟨a, d, 0⟩ ⟨b, c, 0⟩ ⟨b, d, 0⟩ a b c d).evaluate u v = .ok ⟨u, v, 0⟩ := by
  have P := corners_patch (⟨a, c, 0⟩ : Vec3 K) ⟨a, d, 0⟩ ⟨b, c, 0⟩ ⟨b, d, 0⟩ h h'
  have sp : ∀ {x y : K}, x < y → ∀ t : K, SpanIn 2 1 ([x, x, y, y] : List K) 1 t :=
    fun h t => ⟨by omega, by omega, by simpa [ix] using h, .inl rfl, .inl rfl⟩
  rw [surf_eval_span P.valid (corners_unit _ _ _ _ _ _ _ _) (sp h u) (sp h' v)]
  have hb := sub_ne_zero.2 h.ne'
  have hd := sub_ne_zero.2 h'.ne'
  simp [corners, spline2, splineVal, basisFuns, basisInner, dotL, cell, ix]
  constructor <;> field_simp <;> ring

variable [FloorRing K]

/-- A segment and a bilinear patch in separate boxes have no hits. -/
theorem apart_hits {sqrt : K → K} (hs : Newton.IsSqrt sqrt) (h0 : sqrt 0 = 0) (big tiny : K) (ins : List (Vec2 K) → Vec2 K → Bool)
    (sort : Hull2d.StdSort (Vec2 K)) (rounds depth : Nat) (tol : K) (A B P00 P01 P10 P11 : Vec3 K) (a b c d : K) {l r : K} (h : l < r)
    (hap : Sep.aabbTest [A, B] [P00, P01, P10, P11] = .ok true) :
    (codeEnv sqrt big tiny ins sort rounds (depth + 1)).csx tol (segmentCurve A B 1 l r) (corners P00 P01 P10 P11 a b c d) = .ok [] := by
  have hD : 0 ≤ sqrt (B - A).sqLength ∧ sqrt (B - A).sqLength * sqrt (B - A).sqLength = (B - A).sqLength := by
    rcases eq_or_lt_of_le (sqLength_pos (B - A)) with e | e
    · rw [← e, h0]; simp
    · exact ⟨(hs _ e).1.le, (hs _ e).2⟩
  have eL : (segmentCurve A B 1 l r).fullLength sqrt = .ok (sqrt (B - A).sqLength) :=
    (C76_segment hs h0 A B 1 one_pos l r h _ hD.1 (by rw [hD.2]; simp only [Vec3.sqLength, Vec3.sub_x, Vec3.sub_y, Vec3.sub_z]; ring) l r 0
      ⟨le_refl _, h.le⟩ ⟨h.le, le_refl _⟩).2.1
  unfold codeEnv
  simp only
  unfold csxCode
  simp only [eL, Ccx.andThen]
  unfold Csx.csx
  rw [C55_apart_reports_nothing _ _ _ _ _ _ _ ([⟨P00.x, P00.y, P00.z, 1⟩, ⟨P01.x, P01.y, P01.z, 1⟩, ⟨P10.x, P10.y, P10.z, 1⟩, ⟨P11.x, P11.y, P11.z, 1⟩]) rfl
    (Or.inl (by simpa [segmentCurve, Vec4.toVec3] using hap))]
  rfl

end patch

/-- A horizontal patch of the size 2 by 1, over `[0, 2] × [0, 1]`: its point at (u, v) is (u, v, 0). -/
noncomputable def ground : Surface ℝ := corners ⟨0, 0, 0⟩ ⟨0, 1, 0⟩ ⟨2, 0, 0⟩ ⟨2, 1, 0⟩ 0 2 0 1

/-- An upright patch in the plane x = 1/2. -/
noncomputable def wall : Surface ℝ := parallelogram ⟨1 / 2, -1, -(1 / 100)⟩ ⟨0, 0, 1⟩ ⟨0, 3, 0⟩

theorem wall_corners : wall = corners ⟨1 / 2, -1, -(1 / 100)⟩ ⟨1 / 2, 2, -(1 / 100)⟩ ⟨1 / 2, -1, 99 / 100⟩ ⟨1 / 2, 2, 99 / 100⟩ 0 1 0 1 := by
  unfold wall parallelogram corners
  norm_num

/-- The bounding boxes of two lists of points are apart. -/
theorem aabb_apart {l1 l2 : List (Vec3 ℝ)} {b1 b2 : AABB ℝ} (h1 : AABB.ofPoints l1 = .ok b1) (h2 : AABB.ofPoints l2 = .ok b2)
    (h : b1.intersects b2 = false) : Sep.aabbTest l1 l2 = .ok true := by
  unfold Sep.aabbTest; rw [h1, Res.ok_bind, h2, Res.ok_bind, h]; rfl

/-- Closes `aabbTest … = .ok true` for lists of numerals. -/
macro "apart" : tactic => `(tactic| (
  refine aabb_apart rfl rfl ?_
  rw [Bool.eq_false_iff]
  intro h
  have := (intersects_iff _ _).1 h
  simp [AABB.expand] at this <;> norm_num at this))

/-- The hash is defined for a point near the origin. -/
theorem hasKey_small (t y : ℝ) (y0 : 0 ≤ y) (y1 : y ≤ 1) (h1 : -(1 / 1000000) ≤ t - 1 / 4) (h2 : t - 1 / 4 ≤ 1 / 1000000) :
    HasKey (⟨2 * t, y, 0⟩ : Vec3 ℝ) := by
  have q : ∀ c : ℝ, 0 ≤ c → c ≤ 1 → ∃ r, Hash.quantize c Hash.decimals = .ok r := by
    intro c c0 c1
    rcases Hash.quantize_cases c with h | h
    · unfold Hash.quantize Hash.decimals at h
      rw [Hash.toInt_ub] at h
      push_cast at h
      rcases h with h | h <;> linarith
    · exact h
  obtain ⟨a, ea⟩ := q (2 * t) (by linarith) (by linarith)
  obtain ⟨b, eb⟩ := q y y0 y1
  obtain ⟨c, ec⟩ := q 0 (le_refl _) zero_le_one
  unfold HasKey Hash.vec3Hash
  rw [ea, Res.ok_bind, eb, Res.ok_bind, ec, Res.ok_bind]
  exact ⟨_, rfl⟩

theorem ground_unit_segment (y : ℝ) (hy : y = 0 ∨ y = 1) (big tiny : ℝ) (ins : List (Vec2 ℝ) → Vec2 ℝ → Bool) (sort : Hull2d.StdSort (Vec2 ℝ))
    (rounds depth : Nat) : ∃ x : Bnd.Hit ℝ, (codeEnv Real.sqrt big tiny ins sort (rounds + 1) (depth + 1)).csx (1 / 20) (segmentCurve ⟨0, y, 0⟩ ⟨2, y, 0⟩ 1 0 1)
      wall = .ok [x] ∧ x.point = ⟨2 * x.t, y, 0⟩ ∧ |x.t - 1 / 4| ≤ 1 / 1000000 := by
  set base : Env ℝ := ⟨Real.sqrt, big, ins, sort, fun pts => Hull3d.convexHull3d (Quick.quickHull Real.sqrt false) pts [], fun _ _ _ => .ub⟩ with hb
  have hL : Real.sqrt (⟨2, 0, 0⟩ : Vec3 ℝ).sqLength = 2 := by
    rw [show (⟨2, 0, 0⟩ : Vec3 ℝ).sqLength = 2 ^ 2 by simp [Vec3.sqLength]; norm_num]; exact Real.sqrt_sq (by norm_num)
  have H : CleanCrossing Real.sqrt (⟨0, y, 0⟩ : Vec3 ℝ) ⟨2, 0, 0⟩ ⟨1 / 2, -1, -(1 / 100)⟩ ⟨0, 0, 1⟩ ⟨0, 3, 0⟩ (1 / 4) (1 / 100) ((y + 1) / 3) 2
      ((1 / 10 ^ 6) / (2 + 1 / 10 ^ 6)) (1 / 20) := by
    refine ⟨?_, by norm_num, fun x z w => ?_, rfl, ?_, ?_, ?_, by norm_num, ?_, ?_, ?_⟩
    · ext <;> simp [Vec3.smul] <;> ring
    · simp [Vec3.sqLength, Vec3.smul]; nlinarith [sq_nonneg x, sq_nonneg z, sq_nonneg w]
    · norm_num
    · norm_num
    · rcases hy with rfl | rfl <;> norm_num
    · simp only [Vec3.sqLength]; norm_num
    · rw [hL]; norm_num
    · simp [Vec3.sqLength]
  obtain ⟨r, e1, e2, -, -, -, e6⟩ := C131_crossing_found_partial base Geom.real_isSqrt Real.sqrt_zero tiny rounds depth _ _ _ _ _ _ _ _ _ _ _ H
  have hsmall : (1 / 10 ^ 6 / (2 + 1 / 10 ^ 6) : ℝ) ≤ 1 / 1000000 := by norm_num
  have hpos : (0 : ℝ) ≤ 1 / 10 ^ 6 / (2 + 1 / 10 ^ 6) := by norm_num
  have e1' := e1.trans (pow_le_pow_left₀ hpos hsmall 2)
  have hu : (r.u - 1 / 100) ^ 2 ≤ (1 / 1000000 : ℝ) ^ 2 := by linarith [sq_nonneg (r.t - 1 / 4), sq_nonneg (r.v - (y + 1) / 3)]
  have ht : (r.t - 1 / 4) ^ 2 ≤ (1 / 1000000 : ℝ) ^ 2 := by linarith [sq_nonneg (r.u - 1 / 100), sq_nonneg (r.v - (y + 1) / 3)]
  have hu := abs_le_of_sq_le_sq' hu (by norm_num)
  have ht := abs_le_of_sq_le_sq' ht (by norm_num)
  have hcode := e6 (Or.inl (by
    rw [show base.sqrt = Real.sqrt from rfl, hL, abs_lt]; constructor <;> linarith [hu.1, hu.2]))
  refine ⟨⟨r.point, r.t, r.u, r.v⟩, ?_, ?_, ?_⟩
  · show toHits (csxCode base tiny (rounds + 1) (depth + 1) _ _ _) = _
    rw [show (segmentCurve ⟨0, y, 0⟩ ⟨2, y, 0⟩ 1 0 1 : Curve ℝ) = Csx.segment ⟨0, y, 0⟩ ⟨2, 0, 0⟩ by unfold Csx.segment; congr 1; ext <;> simp]
    unfold wall
    rw [hcode]
    rfl
  · rw [e2]; ext <;> simp [Vec3.smul, mul_comm]
  · rw [abs_le]; exact ht

/-- **C132**: the u stored for the ends of a patch is not the parameter of the point. For the two patches `ground` and `wall` and a tolerance of 1/20, the
examination of the pair reports one patch; the point of `ground` at the stored parameters of each of its ends is farther than 1/5 from the stored end, which
is on `ground` at another u. (`detectIntersections` drops this flat pair before the examination, by its test of the volume.) -/
theorem C132_stored_u_counterexample (big tiny : ℝ) (ins : List (Vec2 ℝ) → Vec2 ℝ → Bool) (sort : Hull2d.StdSort (Vec2 ℝ)) (rounds depth : Nat) :
    ∃ x y : Bnd.Point ℝ, processSimple ((codeEnv Real.sqrt big tiny ins sort (rounds + 1) (depth + 1)).csx (1 / 20)) ground wall [] = .ok [(x, y)] ∧
      ∀ e ∈ [x, y], e.fromFirst = true ∧ ground.evaluate (2 * e.params1.1) e.params1.2 = .ok e.point ∧
        ∃ p, ground.evaluate e.params1.1 e.params1.2 = .ok p ∧ 1 / 5 < Real.sqrt (p - e.point).sqLength := by
  obtain ⟨x, hx, px, tx⟩ := ground_unit_segment 0 (.inl rfl) big tiny ins sort rounds depth
  obtain ⟨y, hy, py, ty⟩ := ground_unit_segment 1 (.inr rfl) big tiny ins sort rounds depth
  have w := wall_corners
  have hs := @Geom.real_isSqrt
  set env := codeEnv Real.sqrt big tiny ins sort (rounds + 1) (depth + 1) with henv
  have g0 : env.csx (1 / 20) (segmentCurve ⟨0, 0, 0⟩ ⟨0, 1, 0⟩ 1 0 1) wall = .ok [] := by
    rw [w]; exact apart_hits hs Real.sqrt_zero _ _ _ _ _ _ _ _ _ _ _ _ _ _ _ _ _ one_pos (by apart)
  have g1 : env.csx (1 / 20) (segmentCurve ⟨2, 0, 0⟩ ⟨2, 1, 0⟩ 1 0 1) wall = .ok [] := by
    rw [w]; exact apart_hits hs Real.sqrt_zero _ _ _ _ _ _ _ _ _ _ _ _ _ _ _ _ _ one_pos (by apart)
  have w0 : env.csx (1 / 20) (segmentCurve ⟨1 / 2, -1, -(1 / 100)⟩ ⟨1 / 2, 2, -(1 / 100)⟩ 1 0 1) ground = .ok [] :=
    apart_hits hs Real.sqrt_zero _ _ _ _ _ _ _ _ _ _ _ _ _ _ _ _ _ one_pos (by apart)
  have w1 : env.csx (1 / 20) (segmentCurve ⟨1 / 2, -1, 99 / 100⟩ ⟨1 / 2, 2, 99 / 100⟩ 1 0 1) ground = .ok [] :=
    apart_hits hs Real.sqrt_zero _ _ _ _ _ _ _ _ _ _ _ _ _ _ _ _ _ one_pos (by apart)
  have w2 : env.csx (1 / 20) (segmentCurve ⟨1 / 2, -1, -(1 / 100)⟩ ⟨1 / 2, -1, 99 / 100⟩ 1 0 1) ground = .ok [] :=
    apart_hits hs Real.sqrt_zero _ _ _ _ _ _ _ _ _ _ _ _ _ _ _ _ _ one_pos (by apart)
  have w3 : env.csx (1 / 20) (segmentCurve ⟨1 / 2, 2, -(1 / 100)⟩ ⟨1 / 2, 2, 99 / 100⟩ 1 0 1) ground = .ok [] :=
    apart_hits hs Real.sqrt_zero _ _ _ _ _ _ _ _ _ _ _ _ _ _ _ _ _ one_pos (by apart)
  have b1 : freeBoundaries ground = .ok _ := corners_borders _ _ _ _ (by norm_num) (by norm_num)
  have b2 : freeBoundaries wall = .ok _ := (congrArg _ w).trans (corners_borders _ _ _ _ one_pos one_pos)
  have tx := abs_le.1 tx
  have ty := abs_le.1 ty
  set P : Bnd.Point ℝ := Point.make x.point x.t (x.u, x.v) 2 true ((0, 2), (0, 1)) with hP
  set Q : Bnd.Point ℝ := Point.make y.point y.t (y.u, y.v) 3 true ((0, 2), (0, 1)) with hQ
  have kx := hasKey_small x.t 0 (by norm_num) (by norm_num) tx.1 tx.2
  have ky := hasKey_small y.t 1 (by norm_num) (by norm_num) ty.1 ty.2
  rw [← px] at kx
  rw [← py] at ky
  have pP : P.point = x.point := rfl
  have pQ : Q.point = y.point := rfl
  have hf : findBoundaryIntersections (env.csx (1 / 20)) ground wall [] = .ok [P, Q] := by
    unfold findBoundaryIntersections
    rw [b1, Res.ok_bind, b2, Res.ok_bind]
    simp only [collect, g0, g1, hx, hy, w0, w1, w2, w3, Res.ok_bind]
    show dedup [P, Q] = _
    refine (C53_dedup _ _).2 ⟨fun p hp => ?_, ?_⟩
    · rcases List.mem_pair.1 hp with rfl | rfl
      · exact kx
      · exact ky
    · have hne : samePoint P Q = false := by
        unfold samePoint
        rw [decide_eq_false_iff_not]
        intro h
        have := (Hash.C71_vec3_close_partial _ _ h).1.2.1
        rw [pP, pQ, px, py] at this
        norm_num at this
      simp [keepLast, hne]
  refine ⟨P, Q, by unfold processSimple; rw [hf, Res.ok_bind]; rfl, fun e he => ?_⟩
  have ev : ∀ u v : ℝ, ground.evaluate u v = .ok ⟨u, v, 0⟩ := flat_corners (by norm_num) (by norm_num)
  have far : ∀ t y : ℝ, -(1 / 1000000) ≤ t - 1 / 4 → 1 / 5 < Real.sqrt ((⟨t, y, 0⟩ : Vec3 ℝ) - ⟨2 * t, y, 0⟩).sqLength := by
    intro t y h
    refine Real.lt_sqrt_of_sq_lt ?_
    simp only [Vec3.sqLength, Vec3.sub_x, Vec3.sub_y, Vec3.sub_z]
    nlinarith
  rcases List.mem_pair.1 he with rfl | rfl
  · refine ⟨rfl, ?_, _, ev _ _, ?_⟩
    · rw [ev, pP, px]; rfl
    · rw [pP, px]; exact far x.t 0 tx.1
  · refine ⟨rfl, ?_, _, ev _ _, ?_⟩
    · rw [ev, pQ, py]; rfl
    · rw [pQ, py]; exact far y.t 1 ty.1

/-- The hypotheses of the theorems on the ends can be met: both patches are Bézier with unit weights, and the run of `C132_stored_u_counterexample` has two
ends, which are true ends. -/
example (big tiny : ℝ) (ins : List (Vec2 ℝ) → Vec2 ℝ → Bool) (sort : Hull2d.StdSort (Vec2 ℝ)) (rounds depth : Nat) :
    (PositivePatch ground ∧ SurfUnit ground) ∧ (PositivePatch wall ∧ SurfUnit wall) ∧
      ∃ x y : Bnd.Point ℝ, processSimple ((codeEnv Real.sqrt big tiny ins sort (rounds + 1) (depth + 1)).csx (1 / 20)) ground wall [] = .ok [(x, y)] ∧
        TrueEndOf Real.sqrt (1 / 20) ground wall x ∧ TrueEndOf Real.sqrt (1 / 20) ground wall y := by
  have G : PositivePatch ground := corners_patch _ _ _ _ (by norm_num) (by norm_num)
  have Gu : SurfUnit ground := corners_unit _ _ _ _ _ _ _ _
  have W : PositivePatch wall := by rw [wall_corners]; exact corners_patch _ _ _ _ (by norm_num) (by norm_num)
  have Wu : SurfUnit wall := by rw [wall_corners]; exact corners_unit _ _ _ _ _ _ _ _
  refine ⟨⟨G, Gu⟩, ⟨W, Wu⟩, ?_⟩
  obtain ⟨x, y, h, -⟩ := C132_stored_u_counterexample big tiny ins sort rounds depth
  refine ⟨x, y, h, ?_⟩
  unfold processSimple at h
  obtain ⟨l, hl, h⟩ := ok_of_bind h
  have T := ends_true Real.sqrt big tiny ins sort _ _ ⟨G.bez, Gu⟩ ⟨W.bez, Wu⟩ (SurfPiece.refl G.bez) (SurfPiece.refl W.bez) hl
  split at h
  · rename_i a b ha hb
    have ma := T a (List.mem_of_getElem? ha)
    have mb := T b (List.mem_of_getElem? hb)
    replace h := Res.ok.inj h
    split_ifs at h
    · simp at h
      obtain ⟨rfl, rfl⟩ := h
      exact ⟨ma, mb⟩
  · exact absurd (Res.ok.inj h) (by simp)

end Cmm.Gauss
