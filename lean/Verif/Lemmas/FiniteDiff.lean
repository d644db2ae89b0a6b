import Verif.Lemmas.CurvePoly
import Verif.Lemmas.SurfaceOps
import Verif.Model.SurfaceDerivative
/-! Central differences of polynomials, and surfaces as polynomials in one direction. -/
namespace Cmm.Nurbs
open Polynomial
variable {K : Type} [Field K] [LinearOrder K] [IsStrictOrderedRing K]

omit [LinearOrder K] [IsStrictOrderedRing K] in
/-- Expansion of a polynomial of degree at most 4 around a point. -/
theorem poly_taylor4 (F : K[X]) (h : F.natDegree ≤ 4) : ∃ a b c d e : K, F = C a + C b * X + C c * X ^ 2 + C d * X ^ 3 + C e * X ^ 4 := by
  refine ⟨F.coeff 0, F.coeff 1, F.coeff 2, F.coeff 3, F.coeff 4, ?_⟩
  conv_lhs => rw [F.as_sum_range_C_mul_X_pow' (n := 5) (by omega)]
  simp [Finset.sum_range_succ]

theorem central1 (F : K[X]) (hF : F.natDegree ≤ 4) (t h : K) (hh : h ≠ 0) :
    (F.eval (t + h) - F.eval (t - h)) / (2 * h) = F.derivative.eval t + h ^ 2 / 6 * (derivative^[3] F).eval t := by
  obtain ⟨a, b, c, d, e, rfl⟩ := poly_taylor4 F hF
  have h2 : (2 * h : K) ≠ 0 := mul_ne_zero two_ne_zero hh
  rw [div_eq_iff h2]
  simp [Function.iterate_succ_apply, derivative_pow]
  ring

theorem central2 (F : K[X]) (hF : F.natDegree ≤ 4) (t h : K) (hh : h ≠ 0) :
    (F.eval (t + h) - F.eval t * 2 + F.eval (t - h)) / h ^ 2 =
      (derivative^[2] F).eval t + h ^ 2 / 12 * (derivative^[4] F).eval t := by
  obtain ⟨a, b, c, d, e, rfl⟩ := poly_taylor4 F hF
  rw [div_eq_iff (pow_ne_zero 2 hh)]
  simp [Function.iterate_succ_apply, derivative_pow]
  ring

theorem fdStep_ne : (fdStep : K) ≠ 0 := by unfold fdStep; positivity

theorem two_fdStep : (2 / 10 ^ 5 : K) = 2 * fdStep := by unfold fdStep; ring

theorem sq_fdStep : (1 / 10 ^ 10 : K) = fdStep ^ 2 := by unfold fdStep; ring

/-- The polynomials of a span give the points wherever the span is in charge. -/
theorem PolyOn.eval {c : Curve K} (V : ValidCurve c) (hw : EqualWeights c) {i : Nat} {t : K} (h : SpanOf c i t)
    {X Y Z : K[X]} (hP : PolyOn c i X Y Z) : c.evaluate t = .ok ⟨X.eval t, Y.eval t, Z.eval t⟩ := by
  obtain ⟨eX, eY, eZ⟩ := hP.spline V hw h
  rw [eval_equal V hw h, eX, eY, eZ]

theorem PolyOn.natDegree {c : Curve K} (V : ValidCurve c) (hw : EqualWeights c) {i : Nat} {t : K} (h : SpanOf c i t)
    {X Y Z : K[X]} (hP : PolyOn c i X Y Z) : X.natDegree ≤ c.degree ∧ Y.natDegree ≤ c.degree ∧ Z.natDegree ≤ c.degree := by
  obtain ⟨X', Y', Z', hP', a⟩ := polyOn_exists V hw h
  obtain ⟨rfl, rfl, rfl⟩ := hP.unique h hP'
  exact a

/-- Evaluation of a surface with unit weights, in the spans in charge. -/
theorem surf_eval_span {s : Surface K} (S : ValidSurface s) (hw : SurfUnit s) {u v : K} {i j : Nat}
    (hi : SpanIn s.su s.du s.ku i u) (hj : SpanIn s.sv s.dv s.kv j v) :
    s.evaluate u v = .ok ⟨spline2 s.du s.dv (ix s.ku) (ix s.kv) (fun a b => (cell s.cpts a b).x) i j u v,
      spline2 s.du s.dv (ix s.ku) (ix s.kv) (fun a b => (cell s.cpts a b).y) i j u v,
      spline2 s.du s.dv (ix s.ku) (ix s.kv) (fun a b => (cell s.cpts a b).z) i j u v⟩ := by
  have fi := hi.findSpan S.knots_u
  have fj := hj.findSpan S.knots_v
  have gi := hi.good S.knots_u
  have gj := hj.good S.knots_v
  have a1 := hi.deg_le
  have a2 := hi.lt_len
  have b1 := hj.deg_le
  have b2 := hj.lt_len
  have hl := S.knots_u.len
  have hl' := S.knots_v.len
  have h8 := S.knots_u.deg_le
  have h8' := S.knots_v.deg_le
  have hr := S.rows
  have hW : spline2 s.du s.dv (ix s.ku) (ix s.kv) (fun a b => (cell s.cpts a b).w) i j u v = 1 := by
    have h1 : ∀ a ≤ i, ∀ b ≤ j, (cell s.cpts a b).w = 1 := by
      intro a ha b hb
      obtain ⟨r, hr, hm⟩ := S.cell_mem (i := a) (j := b) (by omega) (by omega)
      exact hw r hr _ hm
    have h2 : ∀ b, b ≤ j → j ≤ b + s.dv →
        splineVal (ix s.ku) s.du (fun a => (cell s.cpts a b).w) i u = 1 := by
      intro b hb _
      rw [splineVal_congr (P₂ := fun _ => 1) u a1 (fun x hx _ => h1 x hx b hb), splineVal, dotL_const,
        basisFuns_sum a1 gi, one_mul]
    rw [spline2, splineVal_congr (P₂ := fun _ => 1) v b1 h2, splineVal, dotL_const, basisFuns_sum b1 gj, one_mul]
  simp only [Surface.evaluate, fi, fj]
  rw [if_neg]
  · rw [dehomog]
    simp only [surfaceSum_comp Vec4.x cx rfl, surfaceSum_comp Vec4.y cy rfl, surfaceSum_comp Vec4.z cz rfl,
      surfaceSum_comp Vec4.w cw rfl, hW, div_one]
    rw [if_neg one_ne_zero]
  · unfold maxDegree
    have hany : ((s.cpts.drop (i - s.du)).take (s.du + 1)).any (fun r => decide (r.length ≤ j)) = false := by
      rw [List.any_eq_false]
      intro r hr
      have := S.cols r (List.mem_of_mem_drop (List.mem_of_mem_take hr))
      simp; omega
    rw [hany]
    simp
    omega

theorem spline2_polyU {p q : Nat} {U V : Nat → K} {P : Nat → Nat → K} {i j : Nat} (hp : p ≤ i) (hU : GoodSpan U p i) (v : K) :
    ∃ F : K[X], (∀ u, F.eval u = spline2 p q U V P i j u v) ∧ F.natDegree ≤ p := by
  obtain ⟨F, h, d⟩ := splineVal_natDegree hp hU (fun a => splineVal V q (fun b => P a b) j v)
  exact ⟨F, fun u => by rw [h, spline2_comm]; rfl, d⟩

theorem spline2_polyV {p q : Nat} {U V : Nat → K} {P : Nat → Nat → K} {i j : Nat} (hq : q ≤ j) (hV : GoodSpan V q j) (u : K) :
    ∃ F : K[X], (∀ v, F.eval v = spline2 p q U V P i j u v) ∧ F.natDegree ≤ q := by
  obtain ⟨F, h, d⟩ := splineVal_natDegree hq hV (fun b => splineVal U p (fun a => P a b) i u)
  exact ⟨F, fun v => by rw [h]; rfl, d⟩

/-- The polynomials in the first direction, everywhere the span is in charge. -/
theorem PolyOnU.all {s : Surface K} (S : ValidSurface s) (hw : SurfUnit s) {u v : K} {i j : Nat}
    (hi : SpanIn s.su s.du s.ku i u) (hj : SpanIn s.sv s.dv s.kv j v) {X Y Z : K[X]} (hP : PolyOnU s i v X Y Z) :
    (∀ x, SpanIn s.su s.du s.ku i x → s.evaluate x v = .ok ⟨X.eval x, Y.eval x, Z.eval x⟩) ∧
    X.natDegree ≤ s.du ∧ Y.natDegree ≤ s.du ∧ Z.natDegree ≤ s.du := by
  have gi := hi.good S.knots_u
  obtain ⟨X', hX, dX⟩ := spline2_polyU (q := s.dv) (V := ix s.kv) (P := fun a b => (cell s.cpts a b).x) (j := j) hi.deg_le gi v
  obtain ⟨Y', hY, dY⟩ := spline2_polyU (q := s.dv) (V := ix s.kv) (P := fun a b => (cell s.cpts a b).y) (j := j) hi.deg_le gi v
  obtain ⟨Z', hZ, dZ⟩ := spline2_polyU (q := s.dv) (V := ix s.kv) (P := fun a b => (cell s.cpts a b).z) (j := j) hi.deg_le gi v
  have hv : ∀ x, ix s.ku i ≤ x → x < ix s.ku (i + 1) → _ := fun x a b =>
    Vec3.mk.inj (Res.ok.inj ((hP x a b).symm.trans (surf_eval_span S hw (hi.inside a b) hj)))
  have e1 : X = X' := poly_eq_of_span hi.proper fun x a b => by rw [hX]; exact (hv x a b).1
  have e2 : Y = Y' := poly_eq_of_span hi.proper fun x a b => by rw [hY]; exact (hv x a b).2.1
  have e3 : Z = Z' := poly_eq_of_span hi.proper fun x a b => by rw [hZ]; exact (hv x a b).2.2
  subst e1 e2 e3
  exact ⟨fun x hx => by rw [surf_eval_span S hw hx hj, hX, hY, hZ], dX, dY, dZ⟩

/-- The polynomials in the second direction, everywhere the span is in charge. -/
theorem PolyOnV.all {s : Surface K} (S : ValidSurface s) (hw : SurfUnit s) {u v : K} {i j : Nat}
    (hi : SpanIn s.su s.du s.ku i u) (hj : SpanIn s.sv s.dv s.kv j v) {X Y Z : K[X]} (hP : PolyOnV s j u X Y Z) :
    (∀ y, SpanIn s.sv s.dv s.kv j y → s.evaluate u y = .ok ⟨X.eval y, Y.eval y, Z.eval y⟩) ∧
    X.natDegree ≤ s.dv ∧ Y.natDegree ≤ s.dv ∧ Z.natDegree ≤ s.dv := by
  have gj := hj.good S.knots_v
  obtain ⟨X', hX, dX⟩ := spline2_polyV (p := s.du) (U := ix s.ku) (P := fun a b => (cell s.cpts a b).x) (i := i) hj.deg_le gj u
  obtain ⟨Y', hY, dY⟩ := spline2_polyV (p := s.du) (U := ix s.ku) (P := fun a b => (cell s.cpts a b).y) (i := i) hj.deg_le gj u
  obtain ⟨Z', hZ, dZ⟩ := spline2_polyV (p := s.du) (U := ix s.ku) (P := fun a b => (cell s.cpts a b).z) (i := i) hj.deg_le gj u
  have hv : ∀ y, ix s.kv j ≤ y → y < ix s.kv (j + 1) → _ := fun y a b =>
    Vec3.mk.inj (Res.ok.inj ((hP y a b).symm.trans (surf_eval_span S hw hi (hj.inside a b))))
  have e1 : X = X' := poly_eq_of_span hj.proper fun x a b => by rw [hX]; exact (hv x a b).1
  have e2 : Y = Y' := poly_eq_of_span hj.proper fun x a b => by rw [hY]; exact (hv x a b).2.1
  have e3 : Z = Z' := poly_eq_of_span hj.proper fun x a b => by rw [hZ]; exact (hv x a b).2.2
  subst e1 e2 e3
  exact ⟨fun x hx => by rw [surf_eval_span S hw hi hx, hX, hY, hZ], dX, dY, dZ⟩

/-- Both kinds of polynomials exist. -/
theorem polyOnU_exists {s : Surface K} (S : ValidSurface s) (hw : SurfUnit s) {u v : K} {i j : Nat}
    (hi : SpanIn s.su s.du s.ku i u) (hj : SpanIn s.sv s.dv s.kv j v) : ∃ X Y Z, PolyOnU s i v X Y Z := by
  have gi := hi.good S.knots_u
  obtain ⟨X', hX, dX⟩ := spline2_polyU (q := s.dv) (V := ix s.kv) (P := fun a b => (cell s.cpts a b).x) (j := j) hi.deg_le gi v
  obtain ⟨Y', hY, dY⟩ := spline2_polyU (q := s.dv) (V := ix s.kv) (P := fun a b => (cell s.cpts a b).y) (j := j) hi.deg_le gi v
  obtain ⟨Z', hZ, dZ⟩ := spline2_polyU (q := s.dv) (V := ix s.kv) (P := fun a b => (cell s.cpts a b).z) (j := j) hi.deg_le gi v
  exact ⟨X', Y', Z', fun x a b => by rw [surf_eval_span S hw (hi.inside a b) hj, hX, hY, hZ]⟩

theorem polyOnV_exists {s : Surface K} (S : ValidSurface s) (hw : SurfUnit s) {u v : K} {i j : Nat}
    (hi : SpanIn s.su s.du s.ku i u) (hj : SpanIn s.sv s.dv s.kv j v) : ∃ X Y Z, PolyOnV s j u X Y Z := by
  have gj := hj.good S.knots_v
  obtain ⟨X', hX, dX⟩ := spline2_polyV (p := s.du) (U := ix s.ku) (P := fun a b => (cell s.cpts a b).x) (i := i) hj.deg_le gj u
  obtain ⟨Y', hY, dY⟩ := spline2_polyV (p := s.du) (U := ix s.ku) (P := fun a b => (cell s.cpts a b).y) (i := i) hj.deg_le gj u
  obtain ⟨Z', hZ, dZ⟩ := spline2_polyV (p := s.du) (U := ix s.ku) (P := fun a b => (cell s.cpts a b).z) (i := i) hj.deg_le gj u
  exact ⟨X', Y', Z', fun x a b => by rw [surf_eval_span S hw hi (hj.inside a b), hX, hY, hZ]⟩

end Cmm.Nurbs
