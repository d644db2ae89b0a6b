import Verif.Lemmas.RoundingEval
import Verif.Props.Curve
import Verif.Props.Surface
/-!
C121: the error of `evaluate` on curves and surfaces when every arithmetic operation rounds.

`R.RelError u` says that one rounding changes a number by at most the part `u` of it, as IEEE 754 does with `u = 2 ^ -53` for `double` if no result leaves the range of
normal numbers. `c.exact` is the curve with the same numbers, evaluated without rounding.
-/
namespace Cmm.Nurbs
variable {K : Type} [Field K] [LinearOrder K] [IsStrictOrderedRing K] {R : Rounding K} {u : K}

theorem errUnit (hu : R.RelError u) (h0 : 0 ≤ u) (h1 : u < 1) : ErrUnit R u (1 - u)⁻¹ :=
  ⟨hu, h0, h1, inv_mul_cancel₀ (by linarith)⟩

/-- C121. The basis functions: each computed value has a relative error of at most `(6 p + 2) u`. In particular no value is negative, and a value is zero only if it should be. -/
theorem C121_basis_functions (hu : R.RelError u) (h0 : 0 ≤ u) (h1 : u ≤ 1 / 2 ^ 16) {U : List (Fp R)} {n p : Nat}
    (hV : ValidKnots n p (U.map Fp.val)) {t : Fp R} (ht : (ix U p).val ≤ t.val ∧ t.val ≤ (ix U n).val) :
    let i := findSpan (n - 1) p t (ix U)
    i = findSpan (n - 1) p t.val (ix (U.map Fp.val)) ∧
    List.Forall₂ (fun (a : K) (b : Fp R) => |b.val - a| ≤ (6 * p + 2) * u * a ∧ 0 ≤ b.val ∧ (b.val = 0 ↔ a = 0))
      (basisFuns i t.val (ix (U.map Fp.val)) p) (basisFuns i t (ix U) p) := by
  have H := errUnit hu h0 (lt_of_le_of_lt h1 (by norm_num))
  have e : ix (U.map Fp.val) = fun i => (ix U i).val := funext (ix_knots_exact U)
  have ei : findSpan (n - 1) p t (ix U) = findSpan (n - 1) p t.val (ix (U.map Fp.val)) := by rw [findSpan_val, e]
  obtain ⟨i, hi, a1, a2, a3, a4, a5, _, _⟩ := hV.span (t := t.val) (by rw [e]; exact ht.1) (by rw [e]; exact ht.2)
  simp only [ei, hi]
  rw [e] at a3 a4 a5 ⊢
  have hm := hV.mono
  rw [e] at hm
  refine ⟨trivial, (basisFuns_close H (ix U) i _ t hm a3 a4 a5 p a1 (by omega)).imp fun a b hc => ?_⟩
  have h8 := hV.deg_le
  have hb := H.pow_le h1 (6 * p + 1) (by omega)
  refine ⟨(hc.sub_le H).trans (mul_le_mul_of_nonneg_right (by push_cast at hb; linarith) hc.1), hc.nonneg H, fun hz => ?_, fun hz => ?_⟩
  · have := hc.2.2; rw [hz, mul_zero] at this; exact le_antisymm this hc.1
  · have := hc.2.1; rw [hz, mul_zero] at this; exact le_antisymm this (hc.nonneg H)

/-- C121. `evaluate` of a curve with positive weights: the computed point differs from the exact one by at most `(14 p + 10) u` times the largest coordinate of the control
points. -/
theorem C121_curve_error (hu : R.RelError u) (h0 : 0 ≤ u) (h1 : u ≤ 1 / 2 ^ 16) (c : Curve (Fp R)) (V : ValidCurve c.exact)
    (hw : PositiveWeights c.exact) (t : Fp R) (hd : InDomain c.exact t.val) (M : K) (hM : ∀ q ∈ c.exact.cpts, Bounded M (Vec4.pos q)) :
    ∃ r r', c.evaluate t = .ok r ∧ c.exact.evaluate t.val = .ok r' ∧ Within ((14 * c.degree + 10) * u * M) r r' := by
  have H := errUnit hu h0 (lt_of_le_of_lt h1 (by norm_num))
  have e : ix c.exact.knots = fun i => (ix c.knots i).val := funext (ix_knots_exact c.knots)
  have ec : ix c.exact.cpts = fun i => exact4 (ix c.cpts i) := funext (ix_cpts_exact c.cpts)
  have el : c.exact.cpts.length = c.cpts.length := by simp [Curve.exact]
  have ek : c.exact.knots.length = c.knots.length := by simp [Curve.exact]
  have ed : c.exact.degree = c.degree := rfl
  obtain ⟨i, hi, a1, a2, a3, a4, a5, _, _⟩ := ValidKnots.span V hd.1 hd.2
  obtain ⟨i', hi', _, _, _, hn, hs, hS, he⟩ := curve_eval_sum V hw hd
  obtain rfl : i = i' := by rw [← hi, ← hi']
  have hlen := V.len
  have h8 := V.deg_le
  have hi'' : findSpan (c.cpts.length - 1) c.degree t (ix c.knots) = i := by
    rw [findSpan_val, ← e, ← hi, el, ed]
  rw [ed] at a1 h8
  rw [el, ed, ek] at hlen
  rw [el] at a2
  have hm := V.mono
  rw [e] at a3 a4 a5 hm
  have hB := basisFuns_close H (ix c.knots) i _ t hm a3 a4 a5 c.degree a1 (by rw [el, ed]; omega)
  have hbl := basisFuns_length i t.val (fun i => (ix c.knots i).val) c.degree
  have z : Near (1 - u)⁻¹ (6 * c.degree + 1 + 2) (0 * M) 0 (0 : Fp R).val := by
    rw [Fp.zero_val, zero_mul]; exact Near.refl H (by rw [abs_zero])
  obtain ⟨q1, q2, q3, q4⟩ := curveAcc_near H (ix c.cpts) M (6 * c.degree + 1) _ _ hB (i - c.degree) (6 * c.degree + 1 + 2) 0 0 0 0 (le_refl _)
    (by
      intro x _ hx
      rw [hbl] at hx
      have hmem : ix c.exact.cpts x ∈ c.exact.cpts := mem_ix (by rw [el]; omega)
      have g1 := hw _ hmem
      have g2 := hM _ hmem
      rw [ec] at g1 g2
      exact ⟨g1, g2⟩) (by rw [Fp.zero_val]; exact Close.refl H (le_refl _)) z z z
  rw [hbl] at q1 q2 q3 q4
  rw [e, ec, ed] at he
  rw [curvePointAt] at he
  have hpos : 0 < (curveAcc (fun i => exact4 (ix c.cpts i)) (basisFuns i t.val (fun i => (ix c.knots i).val) c.degree) (i - c.degree) 0 0).1 := by
    rw [ed, e, ec] at hS
    rw [curveAcc_eq, zero_add]
    exact hS
  have hb := H.pow_le h1 (14 * c.degree + 9) (by omega)
  have hev : c.evaluate t = .ok (curvePointAt i c.degree (ix c.knots) (ix c.cpts) t) := by
    rw [Curve.evaluate]
    simp only [hi'']
    rw [if_neg (by unfold maxDegree; omega), curvePoint, hi'']
  refine ⟨_, _, hev, he, ?_⟩
  · have hM0 : 0 ≤ M := by
      have hmem : ix c.exact.cpts i ∈ c.exact.cpts := mem_ix (by rw [el]; omega)
      exact (abs_nonneg _).trans (hM _ hmem).1
    have fin : ∀ {x x' : K}, Near (1 - u)⁻¹ (6 * c.degree + 1 + 2 + (c.degree + 1)) ((curveAcc (fun i => exact4 (ix c.cpts i))
          (basisFuns i t.val (fun i => (ix c.knots i).val) c.degree) (i - c.degree) 0 0).1 * M) x x' →
        |R.rnd (x' / (curveAcc (ix c.cpts) (basisFuns i t (ix c.knots) c.degree) (i - c.degree) 0 0).1.val) -
          x / (curveAcc (fun i => exact4 (ix c.cpts i)) (basisFuns i t.val (fun i => (ix c.knots i).val) c.degree) (i - c.degree) 0 0).1| ≤
          (14 * c.degree + 10) * u * M :=
      fun q => by
        have g := ((q.div H q1 hpos).rnd H).2
        rw [mul_div_cancel_left₀ _ (ne_of_gt hpos)] at g
        refine g.trans (mul_le_mul_of_nonneg_right ?_ hM0)
        have e2 : 6 * c.degree + 1 + 2 + (c.degree + 1) + (6 * c.degree + 1 + 2 + (c.degree + 1)) + 1 = 14 * c.degree + 9 := by omega
        rw [e2]
        push_cast at hb
        linarith
    exact ⟨fin q2, fin q3, fin q4⟩

/-- C121. For `double` rounded to nearest and every degree, a computed curve point is within `2 ^ -46` times the largest coordinate of the control points. -/
theorem C121_curve_double [FloorRing K] (c : Curve (Fp (Rounding.float (K := K) 53 (by norm_num)))) (V : ValidCurve c.exact)
    (hw : PositiveWeights c.exact) (t : Fp _) (hd : InDomain c.exact t.val) (M : K) (hM : ∀ q ∈ c.exact.cpts, Bounded M (Vec4.pos q)) :
    ∃ r r', c.evaluate t = .ok r ∧ c.exact.evaluate t.val = .ok r' ∧ Within (1 / 2 ^ 46 * M) r r' := by
  obtain ⟨r, r', e1, e2, h1, h2, h3⟩ := C121_curve_error (float_error 53 _) (by norm_num) (by norm_num) c V hw t hd M hM
  have h8 : (c.degree : K) ≤ 8 := by exact_mod_cast V.deg_le
  have hM0 : 0 ≤ M := by
    have hl := V.enough
    have hmem : ix c.exact.cpts 0 ∈ c.exact.cpts := mem_ix (by omega)
    exact (abs_nonneg _).trans (hM _ hmem).1
  have hb : (14 * (c.degree : K) + 10) * (1 / 2 ^ 53) * M ≤ 1 / 2 ^ 46 * M := by
    refine mul_le_mul_of_nonneg_right ?_ hM0
    norm_num
    linarith
  exact ⟨r, r', e1, e2, h1.trans hb, h2.trans hb, h3.trans hb⟩

/-- C121. `evaluate` of a surface with positive weights: the computed point differs from the exact one by at most `(14 (p + q) + 14) u` times the largest coordinate of the
control points (in space: the surface stores them multiplied by the weight). -/
theorem C121_surface_error (hu : R.RelError u) (h0 : 0 ≤ u) (h1 : u ≤ 1 / 2 ^ 16) (s : Surface (Fp R)) (S : ValidSurface s.exact)
    (hw : SurfPositive s.exact) (a b : Fp R) (hd : SurfInDomain s.exact a.val b.val) (M : K)
    (hM : ∀ row ∈ s.exact.cpts, ∀ q ∈ row, Bounded M (Vec4.toVec3 q)) :
    ∃ r r', s.evaluate a b = .ok r ∧ s.exact.evaluate a.val b.val = .ok r' ∧ Within ((14 * (s.du + s.dv) + 14) * u * M) r r' := by
  have H := errUnit hu h0 (lt_of_le_of_lt h1 (by norm_num))
  have eu : ix s.exact.ku = fun i => (ix s.ku i).val := funext (ix_knots_exact s.ku)
  have ev : ix s.exact.kv = fun i => (ix s.kv i).val := funext (ix_knots_exact s.kv)
  have ec : cell s.exact.cpts = fun i j => exact4 (cell s.cpts i j) := funext fun i => funext fun j => cell_exact s.cpts i j
  have eku : s.exact.ku.length = s.ku.length := by simp [Surface.exact]
  have ekv : s.exact.kv.length = s.kv.length := by simp [Surface.exact]
  have el : s.exact.cpts.length = s.cpts.length := by simp [Surface.exact]
  obtain ⟨i, hi, a1, a2, a3, a4, a5, _, a7⟩ := S.knots_u.span hd.1.1 hd.1.2
  obtain ⟨j, hj, b1, b2, b3, b4, b5, _, b7⟩ := S.knots_v.span hd.2.1 hd.2.2
  have hN := basisFuns_nonneg S.knots_u.mono a3 a4 s.du a1 (by have := S.knots_u.enough; change i < s.su at a2; change i + s.du < s.su + s.du + 1; omega)
  have hN' := basisFuns_nonneg S.knots_v.mono b3 b4 s.dv b1 (by have := S.knots_v.enough; change j < s.sv at b2; change j + s.dv < s.sv + s.dv + 1; omega)
  have sN := basisFuns_sum a1 a7 a.val
  have sN' := basisFuns_sum b1 b7 b.val
  have hev := surf_eval S hd
  have hlu : s.ku.length = s.su + s.du + 1 := by rw [← eku]; exact S.knots_u.len
  have hlv : s.kv.length = s.sv + s.dv + 1 := by rw [← ekv]; exact S.knots_v.len
  have h8 : s.du ≤ 8 := S.knots_u.deg_le
  have h8' : s.dv ≤ 8 := S.knots_v.deg_le
  have hr : s.cpts.length = s.su := by rw [← el]; exact S.rows
  change s.du ≤ i at a1
  change i < s.su at a2
  change s.dv ≤ j at b1
  change j < s.sv at b2
  have hi' : findSpan (s.su - 1) s.du a (ix s.ku) = i := by rw [findSpan_val, ← eu]; exact hi
  have hj' : findSpan (s.sv - 1) s.dv b (ix s.kv) = j := by rw [findSpan_val, ← ev]; exact hj
  have hmu := S.knots_u.mono
  have hmv := S.knots_v.mono
  have e1 : s.exact.du = s.du := rfl
  have e2 : s.exact.dv = s.dv := rfl
  rw [hi, hj, e1, e2, eu, ev, ec] at hev
  rw [eu] at a3 a4 a5 hmu hN sN
  rw [ev] at b3 b4 b5 hmv hN' sN'
  have hB := basisFuns_close H (ix s.ku) i _ a hmu a3 a4 a5 s.du a1 (by change i + s.du < s.su + s.du + 1; omega)
  have hB' := basisFuns_close H (ix s.kv) j _ b hmv b3 b4 b5 s.dv b1 (by change j + s.dv < s.sv + s.dv + 1; omega)
  have hbl := basisFuns_length i a.val (fun i => (ix s.ku i).val) s.du
  have hbl' := basisFuns_length j b.val (fun i => (ix s.kv i).val) s.dv
  have hcell : ∀ x y, x < s.su → y < s.sv → 0 < (cell s.cpts x y).w.val ∧ Bounded M (Vec4.toVec3 (exact4 (cell s.cpts x y))) := by
    intro x y hx hy
    obtain ⟨row, g1, g2⟩ := S.cell_mem (i := x) (j := y) hx hy
    have g3 := hw row g1 _ g2
    have g4 := hM row g1 _ g2
    rw [ec] at g3 g4
    exact ⟨g3, g4⟩
  have hpt : ∀ x y, x < s.su → y < s.sv → Near4 (1 - u)⁻¹ 0 M (exact4 (cell s.cpts x y)) (cell s.cpts x y) := by
    intro x y hx hy
    obtain ⟨g1, g2, g3, g4⟩ := hcell x y hx hy
    have key : ∀ z : K, |z / (cell s.cpts x y).w.val| ≤ M → |z| ≤ (cell s.cpts x y).w.val * M := by
      intro z hz
      rw [abs_div, abs_of_pos g1, div_le_iff₀ g1] at hz
      rw [mul_comm]; exact hz
    exact ⟨Close.refl H g1.le, Near.refl H (key _ g2), Near.refl H (key _ g3), Near.refl H (key _ g4)⟩
  have hin : ∀ y, j - s.dv ≤ y → y < j - s.dv + (s.dv + 1) → Near4 (1 - u)⁻¹ (7 * s.du + 3) M
      (acc4 (fun x => exact4 (cell s.cpts x y)) (basisFuns i a.val (fun i => (ix s.ku i).val) s.du) (i - s.du) 0)
      (acc4 (fun x => cell s.cpts x y) (basisFuns i a (ix s.ku) s.du) (i - s.du) 0) := by
    intro y hy1 hy2
    have := acc4_near H (fun x => exact4 (cell s.cpts x y)) (fun x => cell s.cpts x y) M _ 0 _ _ hB (i - s.du) (6 * s.du + 2) 0 0 (by omega)
      (fun x _ hx => hpt x y (by rw [hbl] at hx; omega) (by omega)) (Near4.zero H _ _)
    rw [hbl] at this
    have e3 : 6 * s.du + 2 + (s.du + 1) = 7 * s.du + 3 := by omega
    rw [e3] at this
    exact this
  have hout := acc4_near H _ _ M _ (7 * s.du + 3) _ _ hB' (j - s.dv) (7 * s.du + 6 * s.dv + 5) 0 0 (by omega)
    (fun y h1 h2 => hin y h1 (by rw [hbl'] at h2; exact h2)) (Near4.zero H _ _)
  rw [hbl'] at hout
  have hpos : 0 < (surfaceSum s.du s.dv (fun i => (ix s.ku i).val) (fun i => (ix s.kv i).val) (fun i j => exact4 (cell s.cpts i j)) i j a.val b.val).w := by
    rw [surfaceSum_comp Vec4.w cw rfl, spline2]
    refine (dotL_pos _ _ _ hN' ?_).2 (by rw [show s.dv = s.exact.dv from rfl, sN']; exact one_pos)
    intro y hy
    refine (dotL_pos _ _ _ hN ?_).2 (by rw [show s.du = s.exact.du from rfl, sN]; exact one_pos)
    intro x hx
    rw [hbl] at hx
    rw [hbl'] at hy
    exact (hcell _ _ (by omega) (by omega)).1
  rw [surfaceSum] at hpos hev
  obtain ⟨q1, q2, q3, q4⟩ := hout
  have hpos' := q1.pos H hpos
  rw [dehomog, if_neg (ne_of_gt hpos)] at hev
  have hb := H.pow_le h1 (14 * (s.du + s.dv) + 13) (by omega)
  set W := (acc4 (fun y => acc4 (fun x => exact4 (cell s.cpts x y)) (basisFuns i a.val (fun i => (ix s.ku i).val) s.du) (i - s.du) 0)
    (basisFuns j b.val (fun i => (ix s.kv i).val) s.dv) (j - s.dv) 0) with hW
  set W' := (acc4 (fun y => acc4 (fun x => cell s.cpts x y) (basisFuns i a (ix s.ku) s.du) (i - s.du) 0)
    (basisFuns j b (ix s.kv) s.dv) (j - s.dv) 0) with hW'
  have hev' : s.evaluate a b = .ok ⟨W'.x / W'.w, W'.y / W'.w, W'.z / W'.w⟩ := by
    rw [Surface.evaluate]
    simp only [hi', hj']
    rw [if_neg ?_, dehomog, surfaceSum, if_neg]
    · intro hz
      rw [hz, Fp.zero_val] at hpos'
      exact lt_irrefl _ hpos'
    · unfold maxDegree
      have hany : ((s.cpts.drop (i - s.du)).take (s.du + 1)).any (fun r => decide (r.length ≤ j)) = false := by
        rw [List.any_eq_false]
        intro r hr
        have := S.cols (r.map exact4) (List.mem_map_of_mem (List.mem_of_mem_drop (List.mem_of_mem_take hr)))
        rw [List.length_map] at this
        change r.length = s.sv at this
        simp; omega
      rw [hany]
      simp
      omega
  refine ⟨_, _, hev', hev, ?_⟩
  · have hM0 : 0 ≤ M := (abs_nonneg _).trans (hcell i j a2 b2).2.1
    have fin : ∀ {x x' : K}, Near (1 - u)⁻¹ (7 * s.du + 6 * s.dv + 5 + (s.dv + 1)) (W.w * M) x x' →
        |R.rnd (x' / W'.w.val) - x / W.w| ≤ (14 * ((s.du : K) + s.dv) + 14) * u * M :=
      fun q => by
        have g := ((q.div H q1 hpos).rnd H).2
        rw [mul_div_cancel_left₀ _ (ne_of_gt hpos)] at g
        refine g.trans (mul_le_mul_of_nonneg_right ?_ hM0)
        have e2 : 7 * s.du + 6 * s.dv + 5 + (s.dv + 1) + (7 * s.du + 6 * s.dv + 5 + (s.dv + 1)) + 1 = 14 * (s.du + s.dv) + 13 := by omega
        rw [e2]
        push_cast at hb
        linarith
    exact ⟨fin q2, fin q3, fin q4⟩

/-- C121. For `double` rounded to nearest and all degrees, a computed surface point is within `2 ^ -45` times the largest coordinate of the control points. -/
theorem C121_surface_double [FloorRing K] (s : Surface (Fp (Rounding.float (K := K) 53 (by norm_num)))) (S : ValidSurface s.exact)
    (hw : SurfPositive s.exact) (a b : Fp _) (hd : SurfInDomain s.exact a.val b.val) (M : K)
    (hM : ∀ row ∈ s.exact.cpts, ∀ q ∈ row, Bounded M (Vec4.toVec3 q)) :
    ∃ r r', s.evaluate a b = .ok r ∧ s.exact.evaluate a.val b.val = .ok r' ∧ Within (1 / 2 ^ 45 * M) r r' := by
  obtain ⟨r, r', e1, e2, h1, h2, h3⟩ := C121_surface_error (float_error 53 _) (by norm_num) (by norm_num) s S hw a b hd M hM
  have h8 : (s.du : K) ≤ 8 := by exact_mod_cast S.knots_u.deg_le
  have h8' : (s.dv : K) ≤ 8 := by exact_mod_cast S.knots_v.deg_le
  have hM0 : 0 ≤ M := by
    obtain ⟨row, g1, g2⟩ := S.cell_mem (i := 0) (j := 0) (by have := S.knots_u.enough; omega) (by have := S.knots_v.enough; omega)
    exact (abs_nonneg _).trans (hM row g1 _ g2).1
  have hb : (14 * ((s.du : K) + s.dv) + 14) * (1 / 2 ^ 53) * M ≤ 1 / 2 ^ 45 * M := by
    refine mul_le_mul_of_nonneg_right ?_ hM0
    norm_num
    linarith
  exact ⟨r, r', e1, e2, h1.trans hb, h2.trans hb, h3.trans hb⟩

/-! ### Cases -/

/-- 53 binary digits, rounded to nearest. -/
abbrev double : Rounding ℚ := Rounding.float 53 (by norm_num)

/-- The curve with its numbers rounded to `double`. -/
def Curve.rounded (c : Curve ℚ) : Curve (Fp double) :=
  ⟨c.cpts.map fun q => ⟨.round _ q.x, .round _ q.y, .round _ q.z, .round _ q.w⟩, c.degree, c.knots.map (.round _), c.periodic, .round _ c.lo, .round _ c.hi⟩

/-- The surface with its numbers rounded to `double`. -/
def Surface.rounded (s : Surface ℚ) : Surface (Fp double) :=
  ⟨s.cpts.map (·.map fun q => ⟨.round _ q.x, .round _ q.y, .round _ q.z, .round _ q.w⟩), s.du, s.dv, s.su, s.sv, s.ku.map (.round _), s.kv.map (.round _),
    .round _ s.u0, .round _ s.u1, .round _ s.v0, .round _ s.v1⟩

/-- A line whose weights are both the `double` nearest to 0.1. -/
def tenthLine : Curve ℚ := ⟨[⟨3, 0, 0, 1 / 10⟩, ⟨5, 0, 0, 1 / 10⟩], 1, [0, 0, 1, 1], false, 0, 1⟩

/-- The quadratic curve of C26 has `double` coordinates and meets the hypotheses, at the parameter nearest to 0.1. -/
example : demoCurve.rounded.exact = demoCurve ∧ ValidCurve demoCurve.rounded.exact ∧ PositiveWeights demoCurve.rounded.exact ∧
    InDomain demoCurve.rounded.exact (Fp.round double (1 / 10)).val ∧ ∀ q ∈ demoCurve.rounded.exact.cpts, Bounded 6 (Vec4.pos q) := by
  have e : demoCurve.rounded.exact = demoCurve := by decide +kernel
  rw [e]
  exact ⟨rfl, demoCurve_valid, by unfold PositiveWeights; decide +kernel, by unfold InDomain; decide +kernel, by unfold Bounded; decide +kernel⟩

/-- The same for a surface with weights 1, 2 and 3. -/
example : weightedSurface.rounded.exact = weightedSurface ∧ ValidSurface weightedSurface.rounded.exact ∧ SurfPositive weightedSurface.rounded.exact ∧
    SurfInDomain weightedSurface.rounded.exact (Fp.round double (1 / 10)).val (Fp.round double (2 / 3)).val ∧
    ∀ row ∈ weightedSurface.rounded.exact.cpts, ∀ q ∈ row, Bounded 2 (Vec4.toVec3 q) := by
  have e : weightedSurface.rounded.exact = weightedSurface := by decide +kernel
  rw [e]
  exact ⟨rfl, weightedSurface_valid, by unfold SurfPositive; decide +kernel, by unfold SurfInDomain; decide +kernel, by unfold Bounded; decide +kernel⟩

/-- C121. With rounding a clamped curve does not pass exactly through its end points: here the computed start is one unit in the last place above the first control point. -/
theorem C121_end_point_counterexample :
    ValidCurve tenthLine.rounded.exact ∧ PositiveWeights tenthLine.rounded.exact ∧ Clamped tenthLine.rounded.exact ∧
    ∃ r, tenthLine.rounded.evaluate 0 = .ok r ∧ (ix tenthLine.rounded.cpts 0).x.val = 3 ∧ r.x.val = 3 + 1 / 2 ^ 51 := by
  have hv : ValidCurve tenthLine.rounded.exact :=
    ⟨by decide, by decide, by decide, by decide, by unfold SortedKnots; decide +kernel, by decide +kernel⟩
  have hw : PositiveWeights tenthLine.rounded.exact := by unfold PositiveWeights; decide +kernel
  have hc : Clamped tenthLine.rounded.exact := by
    refine ⟨by decide +kernel, fun i h1 h2 => ?_⟩
    change 2 ≤ i at h1
    change i ≤ 3 at h2
    obtain rfl | rfl : i = 2 ∨ i = 3 := by omega
    · rfl
    · decide +kernel
  exact ⟨hv, hw, hc, curvePoint 1 1 (ix tenthLine.rounded.knots) (ix tenthLine.rounded.cpts) 0, by decide +kernel, by decide +kernel, by decide +kernel⟩

/-- A curve with both control points at the same place and weights 0.1. -/
def tenthPoint : Curve ℚ := ⟨[⟨3, 0, 0, 1 / 10⟩, ⟨3, 0, 0, 1 / 10⟩], 1, [0, 0, 1, 1], false, 0, 1⟩

/-- C121. With rounding a computed point can lie outside the box of the control points (by less than the bound of `C121_curve_double`). -/
theorem C121_box_counterexample :
    ValidCurve tenthPoint.rounded.exact ∧ PositiveWeights tenthPoint.rounded.exact ∧ InDomain tenthPoint.rounded.exact (0 : Fp double).val ∧
    (∀ q ∈ tenthPoint.rounded.exact.cpts, InBox (Vec4.pos q) ⟨⟨3, 0, 0⟩, ⟨3, 0, 0⟩⟩) ∧
    ∃ r, tenthPoint.rounded.evaluate 0 = .ok r ∧ ¬ InBox ⟨r.x.val, r.y.val, r.z.val⟩ ⟨⟨3, 0, 0⟩, ⟨3, 0, 0⟩⟩ := by
  have hv : ValidCurve tenthPoint.rounded.exact :=
    ⟨by decide, by decide, by decide, by decide, by unfold SortedKnots; decide +kernel, by decide +kernel⟩
  refine ⟨hv, by unfold PositiveWeights; decide +kernel, by unfold InDomain; decide +kernel, by unfold InBox; decide +kernel,
    curvePoint 1 1 (ix tenthPoint.rounded.knots) (ix tenthPoint.rounded.cpts) 0, by decide +kernel, ?_⟩
  unfold InBox
  decide +kernel

end Cmm.Nurbs
