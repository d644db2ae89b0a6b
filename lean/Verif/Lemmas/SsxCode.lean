import Verif.Lemmas.Detect
import Verif.Lemmas.MonomialPatch
import Verif.Lemmas.CsxBezier
import Verif.Props.Detect
import Verif.Props.Curve
/-! The border curves of a Bézier surface with unit weights and its subdivision. -/
namespace Cmm.Gauss
open Cmm.Nurbs Cmm.Csx Cmm.Ccx
variable {K : Type} [Field K] [LinearOrder K] [IsStrictOrderedRing K]

theorem splitU_unit {s a b : Surface K} {t : K} (B : SurfBez s) (hw : SurfUnit s) (h : s.splitU t surfSplitTol = .ok (a, b)) :
    SurfUnit a ∧ SurfUnit b := by
  obtain ⟨-, ⟨g1, g2⟩, ⟨g3, g4⟩, -⟩ := B.splitU_full h
  obtain ⟨⟨dlo, dhi⟩, -⟩ := B.dom
  have kn := B.bezier.1
  exact splitU_closed lerpClosed_unit B.valid hw (by rw [dlo]; exact g1) (by rw [dhi]; exact g2)
    (by rw [kn]; exact clear_inner (lt_of_le_of_lt tol12 g3) (lt_of_le_of_lt tol12 g4)) (by rw [kn, count_inner g1 g2]; omega) h

theorem splitV_unit {s a b : Surface K} {t : K} (B : SurfBez s) (hw : SurfUnit s) (h : s.splitV t surfSplitTol = .ok (a, b)) :
    SurfUnit a ∧ SurfUnit b := by
  obtain ⟨-, ⟨g1, g2⟩, ⟨g3, g4⟩, -⟩ := B.splitV_full h
  obtain ⟨-, dlo, dhi⟩ := B.dom
  have kn := B.bezier.2.2.1
  exact splitV_closed lerpClosed_unit B.valid hw (by rw [dlo]; exact g1) (by rw [dhi]; exact g2)
    (by rw [kn]; exact clear_inner (lt_of_le_of_lt tol12 g3) (lt_of_le_of_lt tol12 g4)) (by rw [kn, count_inner g1 g2]; omega) h

theorem subdivide_unit {s q1 q2 q3 q4 : Surface K} {u v : K} (B : SurfBez s) (hw : SurfUnit s) (h : s.subdivideAt u v = .ok (q1, q2, q3, q4)) :
    ∀ x ∈ [q1, q2, q3, q4], SurfUnit x := by
  unfold Surface.subdivideAt at h
  obtain ⟨⟨a, b⟩, h1, h⟩ := ok_of_bind h
  obtain ⟨⟨a1, a2⟩, h2, h⟩ := ok_of_bind h
  obtain ⟨⟨b1, b2⟩, h3, h⟩ := ok_of_bind h
  cases h
  have A := B.splitU h1
  obtain ⟨wa, wb⟩ := splitU_unit B hw h1
  obtain ⟨w1, w2⟩ := splitV_unit (A a (by simp)).1 wa h2
  obtain ⟨w3, w4⟩ := splitV_unit (A b (by simp)).1 wb h3
  intro x hx
  simp only [List.mem_cons, List.not_mem_nil, or_false] at hx
  rcases hx with rfl | rfl | rfl | rfl <;> assumption

/-- A weighted sum of points with weight one over a span has weight one. -/
theorem acc4_unit {n p : Nat} {U : List K} (V : ValidKnots n p U) {x : K} (hx : ix U p ≤ x ∧ x ≤ ix U n) (P : Nat → Vec4 K)
    (hP : ∀ i, i < n → (P i).w = 1) :
    (acc4 P (basisFuns (findSpan (n - 1) p x (ix U)) x (ix U) p) (findSpan (n - 1) p x (ix U) - p) 0).w = 1 := by
  obtain ⟨i, hi, a1, a2, a3, a4, a5, _, a7⟩ := V.span hx.1 hx.2
  rw [acc4_comp Vec4.w cw, hi]
  change (0 : K) + splineVal (ix U) p (fun j => (P j).w) i x = 1
  rw [zero_add]
  exact splineVal_const a1 a7 (fun j hj _ => hP j (by omega)) x

theorem freeU_weights {s : Surface K} (S : ValidSurface s) (hw : SurfUnit s) {u : K} (hu : ix s.ku s.du ≤ u ∧ u ≤ ix s.ku s.su) {c : Curve K}
    (h : freeIsocurveU s u = .ok c) : c.cpts.length = s.sv ∧ ∀ q ∈ c.cpts, q.w = 1 := by
  obtain ⟨lo, hi, k, hk, hkl, hof⟩ := ofSize_ok (K := K) S.knots_v.enough
  unfold freeIsocurveU at h
  rw [hof] at h
  simp only [Res.ok_bind] at h
  split at h
  · exact absurd h (by simp)
  split at h
  · exact absurd h (by simp)
  split at h
  · exact absurd h (by simp)
  unfold Curve.updateInterval at h
  obtain ⟨a, -, h⟩ := ok_of_bind h
  obtain ⟨b, -, h⟩ := ok_of_bind h
  rw [← Res.ok.inj h]
  refine ⟨by simp, fun q hq => ?_⟩
  obtain ⟨i, hi, rfl⟩ := List.mem_map.1 hq
  refine acc4_unit S.knots_u hu _ fun j hj => ?_
  obtain ⟨r, h1, h2⟩ := S.cell_mem hj (List.mem_range.1 hi)
  exact hw r h1 _ h2

theorem freeV_weights {s : Surface K} (S : ValidSurface s) (hw : SurfUnit s) {v : K} (hv : ix s.kv s.dv ≤ v ∧ v ≤ ix s.kv s.sv) {c : Curve K}
    (h : freeIsocurveV s v = .ok c) : c.cpts.length = s.su ∧ ∀ q ∈ c.cpts, q.w = 1 := by
  obtain ⟨lo, hi, k, hk, hkl, hof⟩ := ofSize_ok (K := K) S.knots_u.enough
  unfold freeIsocurveV at h
  rw [hof] at h
  simp only [Res.ok_bind] at h
  split at h
  · exact absurd h (by simp)
  split at h
  · exact absurd h (by simp)
  rw [← Res.ok.inj h]
  refine ⟨by simp, fun q hq => ?_⟩
  obtain ⟨i, hi, rfl⟩ := List.mem_map.1 hq
  refine acc4_unit S.knots_v hv _ fun j hj => ?_
  obtain ⟨r, h1, h2⟩ := S.cell_mem (List.mem_range.1 hi) hj
  exact hw r h1 _ h2

theorem borderU {s : Surface K} (B : SurfBez s) (hw : SurfUnit s) {u : K} (hu : s.u0 ≤ u ∧ u ≤ s.u1) {c : Curve K} (h : freeIsocurveU s u = .ok c) :
    CurveBez c ∧ c.lo = s.v0 ∧ c.hi = s.v1 ∧ ∀ v, s.v0 ≤ v → v ≤ s.v1 → c.evaluate v = s.evaluate u v := by
  obtain ⟨⟨d1, d2⟩, d3, d4⟩ := B.dom
  have hu' : ix s.ku s.du ≤ u ∧ u ≤ ix s.ku s.su := by rw [d1, d2]; exact hu
  obtain ⟨hl, hq⟩ := freeU_weights B.valid hw hu' h
  obtain ⟨c', h', V, I, e1, e2, ev⟩ := C32_isocurve_u_partial s B.valid hw u hu.1 hu.2 hu'
  rw [C32_free_u_agrees s B.valid, h'] at h
  obtain rfl := Res.ok.inj h
  have hlt : s.v0 < s.v1 := by
    have := B.valid.knots_v.last_span
    have k := B.bezier.2.2.2
    rw [d4, show s.sv - 1 = s.dv by omega, d3] at this
    exact this
  have hk : c'.knots = List.replicate (c'.degree + 1) s.v0 ++ List.replicate (c'.degree + 1) s.v1 := by rw [e1, e2]; exact B.bezier.2.2.1
  obtain ⟨l1, l2⟩ := ends I hlt hk
  refine ⟨⟨V, ⟨1, one_pos, hq⟩, I, ?_⟩, l1, l2, fun v h1 h2 => (ev v).2 ?_⟩
  · unfold IsBezier
    rw [l1, l2]
    exact ⟨hk, by rw [hl, e1]; exact B.bezier.2.2.2⟩
  · unfold InDomain
    rw [e2, e1, hl, d3, d4]; exact ⟨h1, h2⟩

theorem borderV {s : Surface K} (B : SurfBez s) (hw : SurfUnit s) {v : K} (hv : s.v0 ≤ v ∧ v ≤ s.v1) {c : Curve K} (h : freeIsocurveV s v = .ok c) :
    CurveBez c ∧ c.lo = 0 ∧ c.hi = 1 ∧ ∀ t, 0 ≤ t → t ≤ 1 → c.evaluate t = s.evaluate (s.u0 + t * (s.u1 - s.u0)) v := by
  obtain ⟨⟨d1, d2⟩, d3, d4⟩ := B.dom
  have hv' : ix s.kv s.dv ≤ v ∧ v ≤ ix s.kv s.sv := by rw [d3, d4]; exact hv
  obtain ⟨hl, hq⟩ := freeV_weights B.valid hw hv' h
  have hkn := C32_free_v_drops_knots s B.valid v c h
  obtain ⟨c0, h0, V0, I0, e1, e2, ev⟩ := C32_isocurve_v_partial s B.valid hw v hv.1 hv.2 hv'
  have su := B.bezier.2.1
  have hlt : s.u0 < s.u1 := by
    have := B.valid.knots_u.last_span
    rw [d2, show s.su - 1 = s.du by omega, d1] at this
    exact this
  rw [show s.du = s.su - 1 by omega, Mono.generateKnots_bezier (by omega)] at hkn
  have hkn := (Res.ok.inj hkn).symm
  obtain ⟨hc, hd, I⟩ : c.cpts = c0.cpts ∧ c.degree = c0.degree ∧ IntervalOk c := by
    obtain ⟨lo, hi, k, hk, hkl, hof⟩ := ofSize_ok (K := K) B.valid.knots_u.enough
    have hup : IntervalOk (⟨List.replicate s.su 0, s.du, k, false, lo, hi⟩ : Curve K) := by
      unfold Curve.ofSize at hof
      obtain ⟨_, -, hof⟩ := ok_of_bind hof
      exact intervalOk_of hof
    unfold freeIsocurveV at h
    unfold Surface.isocurveV at h0
    rw [hof] at h h0
    simp only [Res.ok_bind] at h h0
    split at h
    · exact absurd h (by simp)
    rename_i n1
    rw [if_neg n1] at h0
    split at h
    · exact absurd h (by simp)
    rename_i n2
    rw [if_neg n2] at h0
    unfold Curve.updateInterval at h0
    obtain ⟨a, -, h0⟩ := ok_of_bind h0
    obtain ⟨b, -, h0⟩ := ok_of_bind h0
    rw [← Res.ok.inj h, ← Res.ok.inj h0]
    refine ⟨rfl, rfl, ?_⟩
    unfold IntervalOk Curve.updateInterval at hup ⊢
    obtain ⟨a, ea, hup⟩ := ok_of_bind hup
    obtain ⟨b, eb, hup⟩ := ok_of_bind hup
    simp only at ea eb ⊢
    rw [ea, eb]
    simp only [Res.ok_bind]
    have h := Res.ok.inj hup
    simp only [Curve.mk.injEq] at h
    rw [h.2.2.2.2.1, h.2.2.2.2.2]
  have hk : c.knots = List.replicate (c.degree + 1) 0 ++ List.replicate (c.degree + 1) 1 := by rw [hd, e1, ← su]; exact hkn
  obtain ⟨l1, l2⟩ := ends I zero_lt_one hk
  have hdeg : c.degree = s.du := hd.trans e1
  have V : ValidCurve c := by
    have := Mono.bez_valid (K := K) (n := s.su) (by have := B.valid.knots_u.deg_pos; omega) (by have := B.valid.knots_u.deg_le; omega)
    unfold ValidCurve
    rw [hl, hkn, hdeg, show s.du = s.su - 1 by omega]
    exact this
  have Bz : CurveBez c := ⟨V, ⟨1, one_pos, hq⟩, I, by unfold IsBezier; rw [l1, l2]; exact ⟨hk, by rw [hl, hdeg]; exact su⟩⟩
  refine ⟨Bz, l1, l2, fun t h1 h2 => ?_⟩
  have hw0 : 0 < s.u1 - s.u0 := sub_pos.2 hlt
  have hdc : InDomain c t := by unfold InDomain; rw [Bz.dom.1, Bz.dom.2, l1, l2]; exact ⟨h1, h2⟩
  have hl0 : c0.cpts.length = s.su := by rw [← hc]; exact hl
  have hd0 : InDomain c0 (s.u0 + t * (s.u1 - s.u0)) := by
    unfold InDomain
    rw [e2, e1, hl0, d1, d2]
    have := mul_nonneg h1 (le_of_lt hw0)
    have := mul_nonneg (sub_nonneg.2 h2) (le_of_lt hw0)
    constructor <;> linarith
  rw [← (ev _).2 hd0, curve_eval V hdc, curve_eval V0 hd0]
  have hdp : 0 < 1 / (s.u1 - s.u0) := one_div_pos.2 hw0
  have hix : ∀ x, x < 2 * s.du + 2 → ix c.knots x = (ix c0.knots x - s.u0) * (1 / (s.u1 - s.u0)) := by
    intro x hx
    rw [hk, e2, B.bezier.1, hdeg, ix_bezier _ (by omega), ix_bezier _ (by omega)]
    split
    · ring
    · rw [mul_one_div_cancel (ne_of_gt hw0)]
  have ht : t = (s.u0 + t * (s.u1 - s.u0) - s.u0) * (1 / (s.u1 - s.u0)) := by
    rw [add_sub_cancel_left, mul_assoc, mul_one_div_cancel (ne_of_gt hw0), mul_one]
  have hen := V0.enough
  have hlen := V0.len
  obtain ⟨i, hi', b1, b2, _⟩ := ValidKnots.span V0 hd0.1 hd0.2
  generalize hT : s.u0 + t * (s.u1 - s.u0) = T at *
  rw [ht, hd, hc]
  rw [findSpan_affine hdp (by omega) (fun x hx => hix x (by omega)) hd0.1, hi']
  unfold curvePointAt
  rw [basisFuns_affine (ne_of_gt hdp) _ b1 (fun x hx => hix x (by omega))]

theorem decompose_unit {s : Surface K} (S : ClampedSurface s) (hw : SurfUnit s) {l : List (Surface K)} (h : s.decompose [] = .ok l) : ∀ q ∈ l, SurfUnit q := by
  obtain ⟨a, ks, b, Ru⟩ := S.knots_u
  obtain ⟨c, ls, d, Rv⟩ := S.knots_v
  obtain ⟨grid, hg, hlen, hall⟩ := C86_surface s S.valid a b ks Ru c d ls Rv []
  rw [h, List.nil_append] at hg
  rw [Res.ok.inj hg]
  intro q hq
  obtain ⟨row, hrow, hq⟩ := List.mem_flatten.1 hq
  obtain ⟨i, hi, rfl⟩ := List.mem_iff_getElem.1 hrow
  obtain ⟨row, r1, r2, r3⟩ := hall i (by omega)
  rw [List.getElem?_eq_getElem hi] at r1
  rw [Option.some.inj r1] at hq
  obtain ⟨j, hj, rfl⟩ := List.mem_iff_getElem.1 hq
  obtain ⟨q, ulo, uhi, vlo, vhi, f1, n1, n2, B⟩ := r3 j (by omega)
  rw [List.getElem?_eq_getElem hj] at f1
  obtain rfl := Option.some.inj f1
  exact (B.net S.positive).2.2 hw

end Cmm.Gauss
