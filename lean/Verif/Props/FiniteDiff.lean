import Verif.Lemmas.FiniteDiff
import Verif.Props.Plane
/-! Properties C77 (finite differences) and C78 (surface normals). -/
namespace Cmm.Nurbs
open Polynomial
variable {K : Type} [Field K] [LinearOrder K] [IsStrictOrderedRing K]

/-- `1e-5`, the step of all finite differences. -/
theorem C77_step : (fdStep : K) = 1 / 100000 := by unfold fdStep; norm_num

/-- C77. `derivative_fdm` of a curve of degree at most 4 with equal weights, when one knot span is in charge of both `t - 1e-5`
and `t + 1e-5`: the derivative plus `1e-10 / 6` times the third derivative. -/
theorem C77_derivative_fdm_partial (c : Curve K) (V : ValidCurve c) (hw : EqualWeights c) (hp : c.degree ≤ 4) (i : Nat) (t : K)
    (h1 : SpanOf c i (t - 1 / 100000)) (h2 : SpanOf c i (t + 1 / 100000)) (X Y Z : K[X]) (hP : PolyOn c i X Y Z) :
    c.derivativeFdm t = .ok ⟨X.derivative.eval t + (1 / 100000) ^ 2 / 6 * (derivative^[3] X).eval t,
      Y.derivative.eval t + (1 / 100000) ^ 2 / 6 * (derivative^[3] Y).eval t,
      Z.derivative.eval t + (1 / 100000) ^ 2 / 6 * (derivative^[3] Z).eval t⟩ := by
  rw [← C77_step] at *
  obtain ⟨a, b, d⟩ := hP.natDegree V hw h1
  unfold Curve.derivativeFdm
  rw [hP.eval V hw h1, hP.eval V hw h2, Res.ok_bind, Res.ok_bind, two_fdStep]
  congr 1
  ext
  · exact central1 X (by omega) t fdStep fdStep_ne
  · exact central1 Y (by omega) t fdStep fdStep_ne
  · exact central1 Z (by omega) t fdStep fdStep_ne

theorem poly_third {F : K[X]} (h : F.natDegree ≤ 2) (t : K) : (derivative^[3] F).eval t = 0 := by
  rw [Polynomial.iterate_derivative_eq_zero (by omega), eval_zero]

/-- C77. For degree at most 2 the finite difference is the derivative, exactly. -/
theorem C77_exact_quadratic_partial (c : Curve K) (V : ValidCurve c) (hw : EqualWeights c) (hp : c.degree ≤ 2) (i : Nat) (t : K)
    (h1 : SpanOf c i (t - 1 / 100000)) (h2 : SpanOf c i (t + 1 / 100000)) (X Y Z : K[X]) (hP : PolyOn c i X Y Z) :
    c.derivativeFdm t = .ok ⟨X.derivative.eval t, Y.derivative.eval t, Z.derivative.eval t⟩ := by
  obtain ⟨a, b, d⟩ := hP.natDegree V hw h1
  rw [C77_derivative_fdm_partial c V hw (by omega) i t h1 h2 X Y Z hP, poly_third (by omega), poly_third (by omega),
    poly_third (by omega)]
  simp

/-- C77. `derivatives(t, d0, d1, d2)`: the point, the first derivative up to `1e-10 / 6` times the third, and the second up to
`1e-10 / 12` times the fourth. -/
theorem C77_derivatives_partial (c : Curve K) (V : ValidCurve c) (hw : EqualWeights c) (hp : c.degree ≤ 4) (i : Nat) (t : K)
    (h0 : SpanOf c i t) (h1 : SpanOf c i (t - 1 / 100000)) (h2 : SpanOf c i (t + 1 / 100000)) (X Y Z : K[X])
    (hP : PolyOn c i X Y Z) :
    c.derivatives t = .ok (⟨X.eval t, Y.eval t, Z.eval t⟩,
      ⟨X.derivative.eval t + (1 / 100000) ^ 2 / 6 * (derivative^[3] X).eval t,
       Y.derivative.eval t + (1 / 100000) ^ 2 / 6 * (derivative^[3] Y).eval t,
       Z.derivative.eval t + (1 / 100000) ^ 2 / 6 * (derivative^[3] Z).eval t⟩,
      ⟨(derivative^[2] X).eval t + (1 / 100000) ^ 2 / 12 * (derivative^[4] X).eval t,
       (derivative^[2] Y).eval t + (1 / 100000) ^ 2 / 12 * (derivative^[4] Y).eval t,
       (derivative^[2] Z).eval t + (1 / 100000) ^ 2 / 12 * (derivative^[4] Z).eval t⟩) := by
  rw [← C77_step] at *
  obtain ⟨a, b, d⟩ := hP.natDegree V hw h1
  unfold Curve.derivatives
  rw [hP.eval V hw h0, hP.eval V hw h1, hP.eval V hw h2, Res.ok_bind, Res.ok_bind, Res.ok_bind, two_fdStep, sq_fdStep]
  congr 2
  congr 1
  · ext
    · exact central1 X (by omega) t fdStep fdStep_ne
    · exact central1 Y (by omega) t fdStep fdStep_ne
    · exact central1 Z (by omega) t fdStep fdStep_ne
  · ext
    · exact central2 X (by omega) t fdStep fdStep_ne
    · exact central2 Y (by omega) t fdStep fdStep_ne
    · exact central2 Z (by omega) t fdStep fdStep_ne

/-- C77. `second_derivative_fdm` computes the first derivative: it always answers what `derivative_fdm` answers. -/
theorem C77_second_is_first (c : Curve K) (t : K) : c.secondDerivativeFdm t = c.derivativeFdm t := rfl

/-- C77. So it is not the second derivative: on the straight line `t ↦ t`, whose second derivative is zero, it answers 1. -/
theorem C77_second_derivative_counterexample :
    ∃ c : Curve ℚ, ValidCurve c ∧ UnitWeights c ∧ (∀ t, c.evaluate t = .ok ⟨t, 0, 0⟩) ∧
      c.secondDerivativeFdm (1 / 2) = .ok ⟨1, 0, 0⟩ := by
  have V : ValidCurve (⟨[⟨0, 0, 0, 1⟩, ⟨1, 0, 0, 1⟩], 1, [0, 0, 1, 1], false, 0, 1⟩ : Curve ℚ) :=
    ⟨by decide, by decide, by decide, by decide, by unfold SortedKnots; decide +kernel, by decide +kernel⟩
  have W : UnitWeights (⟨[⟨0, 0, 0, 1⟩, ⟨1, 0, 0, 1⟩], 1, [0, 0, 1, 1], false, 0, 1⟩ : Curve ℚ) := by
    unfold UnitWeights; decide +kernel
  refine ⟨_, V, W, fun t => ?_, by decide +kernel⟩
  have hs : SpanOf (⟨[⟨0, 0, 0, 1⟩, ⟨1, 0, 0, 1⟩], 1, [0, 0, 1, 1], false, 0, 1⟩ : Curve ℚ) 1 t :=
    ⟨le_refl _, by decide, by decide +kernel, .inl rfl, .inl rfl⟩
  rw [eval_equal V ⟨1, one_pos, W⟩ hs]
  simp [splineVal, basisFuns, basisInner, dotL, ix]

/-- C77. `derivative_u` of a surface with unit weights and degree at most 4 in `u`. -/
theorem C77_derivative_u_partial (s : Surface K) (S : ValidSurface s) (hw : SurfUnit s) (hp : s.du ≤ 4) (i j : Nat) (u v : K)
    (h1 : SpanIn s.su s.du s.ku i (u - 1 / 100000)) (h2 : SpanIn s.su s.du s.ku i (u + 1 / 100000))
    (hv : SpanIn s.sv s.dv s.kv j v) (X Y Z : K[X]) (hP : PolyOnU s i v X Y Z) :
    s.derivativeU u v = .ok ⟨X.derivative.eval u + (1 / 100000) ^ 2 / 6 * (derivative^[3] X).eval u,
      Y.derivative.eval u + (1 / 100000) ^ 2 / 6 * (derivative^[3] Y).eval u,
      Z.derivative.eval u + (1 / 100000) ^ 2 / 6 * (derivative^[3] Z).eval u⟩ := by
  rw [← C77_step] at *
  obtain ⟨e, a, b, d⟩ := hP.all S hw h1 hv
  unfold Surface.derivativeU
  rw [e _ h1, e _ h2, Res.ok_bind, Res.ok_bind]
  congr 1
  ext
  · exact central1 X (by omega) u fdStep fdStep_ne
  · exact central1 Y (by omega) u fdStep fdStep_ne
  · exact central1 Z (by omega) u fdStep fdStep_ne

/-- C77. `derivative_v` of a surface with unit weights and degree at most 4 in `v`. -/
theorem C77_derivative_v_partial (s : Surface K) (S : ValidSurface s) (hw : SurfUnit s) (hp : s.dv ≤ 4) (i j : Nat) (u v : K)
    (h1 : SpanIn s.sv s.dv s.kv j (v - 1 / 100000)) (h2 : SpanIn s.sv s.dv s.kv j (v + 1 / 100000))
    (hu : SpanIn s.su s.du s.ku i u) (X Y Z : K[X]) (hP : PolyOnV s j u X Y Z) :
    s.derivativeV u v = .ok ⟨X.derivative.eval v + (1 / 100000) ^ 2 / 6 * (derivative^[3] X).eval v,
      Y.derivative.eval v + (1 / 100000) ^ 2 / 6 * (derivative^[3] Y).eval v,
      Z.derivative.eval v + (1 / 100000) ^ 2 / 6 * (derivative^[3] Z).eval v⟩ := by
  rw [← C77_step] at *
  obtain ⟨e, a, b, d⟩ := hP.all S hw hu h1
  unfold Surface.derivativeV
  rw [e _ h1, e _ h2, Res.ok_bind, Res.ok_bind]
  congr 1
  ext
  · exact central1 X (by omega) v fdStep fdStep_ne
  · exact central1 Y (by omega) v fdStep fdStep_ne
  · exact central1 Z (by omega) v fdStep fdStep_ne

/-! ### C78 -/

/-- C78. Wherever `normal` succeeds it is perpendicular to both derivatives of the surface that `derivative_u` and `derivative_v`
report, and it is a non-negative multiple of their cross product; if the cross product is longer than 1 (by more than the
machine epsilon) it has length 1. -/
theorem C78_normal_perpendicular_partial {sqrt : K → K} (hs : Newton.IsSqrt sqrt) (s : Surface K) (u v : K) (n : Vec3 K)
    (h : s.normal sqrt u v = .ok n) :
    ∃ a b, s.derivativeU u v = .ok a ∧ s.derivativeV u v = .ok b ∧ n.dot a = 0 ∧ n.dot b = 0 ∧
      (∃ k, 0 < k ∧ a.cross b = n.smul k) ∧
      (1 + Geom.machEps < sqrt (a.cross b).sqLength → 0 < (a.cross b).sqLength → n.sqLength = 1) := by
  unfold Surface.normal at h
  cases ha : s.derivativeU u v with
  | throws => rw [ha] at h; cases h
  | ub => rw [ha] at h; cases h
  | ok a =>
    cases hb : s.derivativeV u v with
    | throws => rw [ha, hb] at h; cases h
    | ub => rw [ha, hb] at h; cases h
    | ok b =>
      rw [ha, hb] at h
      have h := Res.ok.inj h
      obtain ⟨u1, u2⟩ := Geom.C70_unitize hs (a.cross b)
      have hk : ∃ k, 0 < k ∧ a.cross b = n.smul k := by
        by_cases hl : sqrt (a.cross b).sqLength ≤ 1 + Geom.machEps
        · rw [u2 hl] at h
          refine ⟨1, one_pos, ?_⟩
          rw [← h]; ext <;> simp
        · have hl := not_le.mp hl
          by_cases h0 : 0 < (a.cross b).sqLength
          · rw [h] at u1
            exact ⟨_, (hs _ h0).1, (u1 hl h0).2⟩
          · refine ⟨1, one_pos, ?_⟩
            have hz : a.cross b = 0 := by
              have : (a.cross b).sqLength = 0 := le_antisymm (not_lt.mp h0) (by
                unfold Vec3.sqLength; nlinarith [mul_self_nonneg (a.cross b).x, mul_self_nonneg (a.cross b).y,
                  mul_self_nonneg (a.cross b).z])
              unfold Vec3.sqLength at this
              have hx := mul_self_nonneg (a.cross b).x
              have hy := mul_self_nonneg (a.cross b).y
              have hz := mul_self_nonneg (a.cross b).z
              ext
              · exact mul_self_eq_zero.mp (by linarith)
              · exact mul_self_eq_zero.mp (by linarith)
              · exact mul_self_eq_zero.mp (by linarith)
            rw [← h, hz]
            unfold Geom.unitize3
            dsimp only
            split
            · ext <;> simp
            · ext <;> simp
      refine ⟨a, b, rfl, rfl, ?_, ?_, hk, fun h1 h2 => ?_⟩
      · obtain ⟨k, hk0, hk⟩ := hk
        have : k * n.dot a = 0 := by
          have : (n.smul k).dot a = 0 := by rw [← hk]; simp only [Vec3.cross, Vec3.dot]; ring
          rw [← this]; simp only [Vec3.dot, Vec3.smul]; ring
        exact (mul_eq_zero.mp this).resolve_left hk0.ne'
      · obtain ⟨k, hk0, hk⟩ := hk
        have : k * n.dot b = 0 := by
          have : (n.smul k).dot b = 0 := by rw [← hk]; simp only [Vec3.cross, Vec3.dot]; ring
          rw [← this]; simp only [Vec3.dot, Vec3.smul]; ring
        exact (mul_eq_zero.mp this).resolve_left hk0.ne'
      · rw [← h]; exact (u1 h1 h2).1

/-- A flat bilinear patch of size `a × 1`. -/
def flatPatch (a : K) : Surface K :=
  ⟨[[⟨0, 0, 0, 1⟩, ⟨0, 1, 0, 1⟩], [⟨a, 0, 0, 1⟩, ⟨a, 1, 0, 1⟩]], 1, 1, 2, 2, [0, 0, 1, 1], [0, 0, 1, 1], 0, 1, 0, 1⟩

theorem flatPatch_valid (a : K) : ValidSurface (flatPatch a) := by
  have hk : ValidKnots 2 1 ([0, 0, 1, 1] : List K) :=
    ⟨by decide, by decide, by decide, rfl, by unfold SortedKnots; simp, by simp [ix]⟩
  exact ⟨rfl, by simp [flatPatch], hk, hk⟩

theorem flatPatch_unit (a : K) : SurfUnit (flatPatch a) := by
  intro r hr q hq
  simp only [flatPatch, List.mem_cons, List.not_mem_nil, or_false] at hr
  rcases hr with rfl | rfl <;> (simp only [List.mem_cons, List.not_mem_nil, or_false] at hq; rcases hq with rfl | rfl <;> rfl)

theorem flatPatch_span (t : K) : SpanIn 2 1 ([0, 0, 1, 1] : List K) 1 t := ⟨by omega, by omega, by simp [ix], .inl rfl, .inl rfl⟩

theorem flatPatch_eval (a u v : K) : (flatPatch a).evaluate u v = .ok ⟨a * u, v, 0⟩ := by
  rw [surf_eval_span (flatPatch_valid a) (flatPatch_unit a) (flatPatch_span u) (flatPatch_span v)]
  simp [flatPatch, spline2, splineVal, basisFuns, basisInner, dotL, cell, ix]
  ring

theorem flatPatch_du (a u v : K) : (flatPatch a).derivativeU u v = .ok ⟨a, 0, 0⟩ := by
  have h := fdStep_ne (K := K)
  unfold Surface.derivativeU
  rw [flatPatch_eval, flatPatch_eval]
  simp only [Res.ok_bind, Vec3.sdiv, Res.ok.injEq, Vec3.mk.injEq, Vec3.sub_x, Vec3.sub_y, Vec3.sub_z, sub_self, zero_div, and_true]
  field_simp
  ring

theorem flatPatch_dv (a u v : K) : (flatPatch a).derivativeV u v = .ok ⟨0, 1, 0⟩ := by
  have h := fdStep_ne (K := K)
  unfold Surface.derivativeV
  rw [flatPatch_eval, flatPatch_eval]
  simp only [Res.ok_bind, Vec3.sdiv, Res.ok.injEq, Vec3.mk.injEq, Vec3.sub_x, Vec3.sub_y, Vec3.sub_z, sub_self, zero_div, and_true,
    true_and]
  field_simp
  ring

example (u v : ℝ) : ∃ X Y Z, PolyOnU (flatPatch (3 : ℝ)) 1 v X Y Z ∧ SpanIn (flatPatch (3 : ℝ)).su 1 (flatPatch (3 : ℝ)).ku 1 u :=
  ⟨C 3 * X, C v, 0, fun x _ _ => by rw [flatPatch_eval]; simp, flatPatch_span u⟩

example (u v : ℝ) : (flatPatch (3 : ℝ)).normal Real.sqrt u v = .ok ⟨0, 0, 1⟩ := by
  have hm : (Geom.machEps : ℝ) < 1 := by unfold Geom.machEps; norm_num
  unfold Surface.normal
  rw [flatPatch_du, flatPatch_dv]
  have e : (⟨3, 0, 0⟩ : Vec3 ℝ).cross ⟨0, 1, 0⟩ = ⟨0, 0, 3⟩ := by simp [Vec3.cross]
  have h3 : Real.sqrt ((⟨0, 0, 3⟩ : Vec3 ℝ).sqLength) = 3 := by
    rw [show (⟨0, 0, 3⟩ : Vec3 ℝ).sqLength = 3 ^ 2 by unfold Vec3.sqLength; norm_num, Real.sqrt_sq (by norm_num)]
  simp only [Res.ok_bind, e, Geom.unitize3, h3]
  rw [if_neg (by rintro (h | h) <;> linarith)]
  norm_num

/-- C78. A cross product of length up to 1 is returned as it is: on the half-size flat patch the normal has length 1/2. -/
theorem C78_short_normal_counterexample :
    ∃ s : Surface ℝ, ValidSurface s ∧ SurfUnit s ∧ ∀ u v, s.normal Real.sqrt u v = .ok ⟨0, 0, 1 / 2⟩ := by
  refine ⟨flatPatch (1 / 2), flatPatch_valid _, flatPatch_unit _, fun u v => ?_⟩
  unfold Surface.normal
  rw [flatPatch_du, flatPatch_dv]
  have e : (⟨1 / 2, 0, 0⟩ : Vec3 ℝ).cross ⟨0, 1, 0⟩ = ⟨0, 0, 1 / 2⟩ := by simp [Vec3.cross]
  simp only [Res.ok_bind, e]
  rw [(Geom.C70_unitize Geom.real_isSqrt _).2]
  rw [show (⟨0, 0, 1 / 2⟩ : Vec3 ℝ).sqLength = (1 / 2) ^ 2 by unfold Vec3.sqLength; norm_num, Real.sqrt_sq (by norm_num)]
  have := Geom.machEps_pos (K := ℝ)
  linarith

/-- C78. A surface whose two derivatives are defined has a normal. -/
theorem C78_normal_defined (sqrt : K → K) (s : Surface K) (u v : K) (a b : Vec3 K) (ha : s.derivativeU u v = .ok a)
    (hb : s.derivativeV u v = .ok b) : ∃ n, s.normal sqrt u v = .ok n := by
  unfold Surface.normal
  rw [ha, hb]
  exact ⟨_, rfl⟩

/-! Non-vacuity for curves: the quadratic with knots 0, 1, 3 at the parameter 2, with one span in charge of `2 ± 1e-5`. -/

/-- A quadratic with an interior knot. -/
def fdDemo : Curve ℚ :=
  ⟨[⟨0, 0, 0, 1⟩, ⟨1, 2, 0, 1⟩, ⟨3, 1, 1, 1⟩, ⟨4, 0, 2, 1⟩], 2, [0, 0, 0, 1, 3, 3, 3], false, 0, 3⟩

example : ValidCurve fdDemo ∧ SpanOf fdDemo 3 (2 - 1 / 100000) ∧ SpanOf fdDemo 3 (2 + 1 / 100000) ∧
    fdDemo.derivativeFdm 2 = .ok ⟨7 / 6, -5 / 6, 5 / 6⟩ := by
  refine ⟨⟨by decide, by decide, by decide, by decide, by unfold SortedKnots; decide +kernel, by decide +kernel⟩,
    ⟨by decide, by decide, by decide +kernel, .inr (by decide +kernel), .inl (by decide)⟩,
    ⟨by decide, by decide, by decide +kernel, .inr (by decide +kernel), .inl (by decide)⟩, by decide +kernel⟩

end Cmm.Nurbs
