import Verif.Lemmas.SmoothReal
import Verif.Props.Surface
import Verif.Props.Join
/-!
C100: curves and surfaces are as smooth as their knots allow. Parameters and coordinates are real numbers here, and "r times
continuously differentiable on the domain" is Mathlib's `ContDiffOn ℝ r`.
-/
namespace Cmm.Nurbs
open Set

/-- The domain of a curve as a set of parameters. -/
def Curve.domain (c : Curve ℝ) : Set ℝ := Icc (ix c.knots c.degree) (ix c.knots c.cpts.length)

/-- The domain of a surface as a set of parameter pairs. -/
def Surface.domain (s : Surface ℝ) : Set (ℝ × ℝ) := Icc (ix s.ku s.du) (ix s.ku s.su) ×ˢ Icc (ix s.kv s.dv) (ix s.kv s.sv)

/-- Every knot strictly between the ends of the domain occurs at most `m` times among the knots. -/
def RepeatsAtMost (n p : Nat) (U : List ℝ) (m : Nat) : Prop := ∀ τ, ix U p < τ → τ < ix U n → U.count τ ≤ m

/-- On its domain the curve is given by three functions that are `r` times continuously differentiable. -/
def SmoothCurve (r : Nat) (c : Curve ℝ) : Prop :=
  ∃ X Y Z : ℝ → ℝ, (∀ t ∈ c.domain, c.evaluate t = .ok ⟨X t, Y t, Z t⟩) ∧ ContDiffOn ℝ r X c.domain ∧ ContDiffOn ℝ r Y c.domain ∧
    ContDiffOn ℝ r Z c.domain

/-- On its domain the surface is given by three functions of two variables that are `r` times continuously differentiable. -/
def SmoothSurface (r : Nat) (s : Surface ℝ) : Prop :=
  ∃ X Y Z : ℝ × ℝ → ℝ, (∀ w ∈ s.domain, s.evaluate w.1 w.2 = .ok ⟨X w, Y w, Z w⟩) ∧ ContDiffOn ℝ r X s.domain ∧
    ContDiffOn ℝ r Y s.domain ∧ ContDiffOn ℝ r Z s.domain

/-- **C100**: with positive weights, a valid curve whose inner knots are repeated at most `degree - r` times is `r` times continuously
differentiable on its whole domain. -/
theorem C100_curve (c : Curve ℝ) (V : ValidCurve c) (hw : PositiveWeights c) (r : Nat) (hr : r ≤ c.degree)
    (hm : RepeatsAtMost c.cpts.length c.degree c.knots (c.degree - r)) : SmoothCurve r c := by
  have hc : ∀ P, ContDiffOn ℝ r (splineFn c.cpts.length c.degree c.knots c.degree P) c.domain :=
    ValidKnots.contDiff V r c.degree le_rfl hr (ValidKnots.innerMult V hm)
  have hpos : ∀ t ∈ c.domain, splineFn c.cpts.length c.degree c.knots c.degree (fun r => (ix c.cpts r).w) t ≠ 0 := by
    intro t ht
    obtain ⟨i, hi, -, -, -, -, -, h, -⟩ := curve_eval_sum V hw ht
    rw [splineFn, hi]
    exact h.ne'
  refine ⟨_, _, _, fun t ht => ?_, (hc fun r => (ix c.cpts r).w * (ix c.cpts r).x).div (hc fun r => (ix c.cpts r).w) hpos,
    (hc fun r => (ix c.cpts r).w * (ix c.cpts r).y).div (hc fun r => (ix c.cpts r).w) hpos,
    (hc fun r => (ix c.cpts r).w * (ix c.cpts r).z).div (hc fun r => (ix c.cpts r).w) hpos⟩
  obtain ⟨i, hi, -, -, -, -, -, -, h⟩ := curve_eval_sum V hw ht
  rw [h, curvePointAt_eq]
  simp only [Pi.div_apply, splineFn, hi]

/-- **C100**: the constructor from control points gives a curve that is `degree - 1` times continuously differentiable. -/
theorem C100_constructed (pts : List (Vec4 ℝ)) (p : Nat) (h1 : 1 ≤ p) (h8 : p ≤ 8) (h : p < pts.length) (hw : ∀ q ∈ pts, 0 < q.w) :
    ∃ c, Curve.make pts p false = .ok c ∧ SmoothCurve (p - 1) c := by
  obtain ⟨k, hk, hm⟩ := C23_constructor pts p h
  obtain ⟨k', hk', g1, g2, g3, g4, g5⟩ := C23_generated_clamped (K := ℝ) pts.length p h
  rw [hk] at hk'
  obtain rfl := Res.ok.inj hk'
  have V : ValidCurve (⟨pts, p, k, false, 0, (pts.length : ℝ) - p⟩ : Curve ℝ) := by
    refine ⟨h1, h8, h, g1, g2, ?_⟩
    show ix k (pts.length - 1) < ix k pts.length
    rw [g5 _ (by omega) (by omega), g5 _ (by omega) le_rfl]
    have : (pts.length - 1 : Nat) + 1 = pts.length := by omega
    have : ((pts.length - 1 : Nat) : ℝ) + 1 = pts.length := by exact_mod_cast this
    linarith
  refine ⟨_, hm, C100_curve _ V hw (p - 1) (by show p - 1 ≤ p; omega) ?_⟩
  intro τ t1 t2
  show k.count τ ≤ p - (p - 1)
  rw [show p - (p - 1) = 1 by omega]
  by_contra hc
  have hsub : [τ, τ].Sublist k := (List.replicate_sublist_iff (n := 2)).mpr (by omega)
  obtain ⟨f, hf⟩ := List.sublist_iff_exists_orderEmbedding_getElem?_eq.mp hsub
  have e0 := hf 0
  have e1 := hf 1
  have hlt : f 0 < f 1 := f.strictMono (by decide)
  simp only [List.getElem?_cons_zero, List.getElem?_cons_succ] at e0 e1
  obtain ⟨l0, x0⟩ := List.getElem?_eq_some_iff.mp e0.symm
  obtain ⟨l1, x1⟩ := List.getElem?_eq_some_iff.mp e1.symm
  rw [← ix_eq_getElem] at x0 x1
  have t1 : ix k p < τ := t1
  have t2 : τ < ix k pts.length := t2
  have b0 : p < f 0 := by
    by_contra hb
    have := ix_mono g2 (show f 0 ≤ p by omega) (by omega)
    linarith
  have b1 : f 1 < pts.length := by
    by_contra hb
    have := ix_mono g2 (show pts.length ≤ f 1 by omega) (by omega)
    linarith
  rw [g5 _ (by omega) (by omega)] at x0 x1
  have : ((f 0 : Nat) : ℝ) < f 1 := by exact_mod_cast hlt
  linarith

/-- **C100**: with positive weights, a valid surface whose inner knots are repeated at most `degree - r` times, in each direction with
its degree, is `r` times continuously differentiable, as a function of both parameters, on its whole domain. -/
theorem C100_surface (s : Surface ℝ) (S : ValidSurface s) (hw : SurfPositive s) (r : Nat) (hu : r ≤ s.du) (hv : r ≤ s.dv)
    (hmu : RepeatsAtMost s.su s.du s.ku (s.du - r)) (hmv : RepeatsAtMost s.sv s.dv s.kv (s.dv - r)) : SmoothSurface r s := by
  have cu : ∀ P, ContDiffOn ℝ r (fun w : ℝ × ℝ => splineFn s.su s.du s.ku s.du P w.1) s.domain := fun P =>
    (S.knots_u.contDiff r s.du le_rfl hu (S.knots_u.innerMult hmu) P).comp contDiff_fst.contDiffOn fun w hw => hw.1
  have cv : ∀ P, ContDiffOn ℝ r (fun w : ℝ × ℝ => splineFn s.sv s.dv s.kv s.dv P w.2) s.domain := fun P =>
    (S.knots_v.contDiff r s.dv le_rfl hv (S.knots_v.innerMult hmv) P).comp contDiff_snd.contDiffOn fun w hw => hw.2
  let F : (Vec4 ℝ → ℝ) → ℝ × ℝ → ℝ := fun φ w => ∑ k ∈ Finset.range s.sv, splineFn s.sv s.dv s.kv s.dv (Pi.single k 1) w.2 *
    ∑ l ∈ Finset.range s.su, splineFn s.su s.du s.ku s.du (Pi.single l 1) w.1 * φ (cell s.cpts l k)
  have hF : ∀ φ, ContDiffOn ℝ r (F φ) s.domain := fun φ => ContDiffOn.sum fun k _ => (cv _).mul
    (ContDiffOn.sum fun l _ => (cu _).mul contDiffOn_const)
  have hspl : ∀ φ : Vec4 ℝ → ℝ, ∀ w ∈ s.domain, spline2 s.du s.dv (ix s.ku) (ix s.kv) (fun i j => φ (cell s.cpts i j))
      (findSpan (s.su - 1) s.du w.1 (ix s.ku)) (findSpan (s.sv - 1) s.dv w.2 (ix s.kv)) w.1 w.2 = F φ w := by
    intro φ w hw
    have h1 := splineFn_basis S.knots_v (fun j => splineVal (ix s.ku) s.du (fun i => φ (cell s.cpts i j))
      (findSpan (s.su - 1) s.du w.1 (ix s.ku)) w.1) hw.2.1 hw.2.2
    refine Eq.trans h1 (Finset.sum_congr rfl fun k _ => ?_)
    rw [← splineFn_basis S.knots_u (fun i => φ (cell s.cpts i k)) hw.1.1 hw.1.2]
    rfl
  have hne : ∀ w ∈ s.domain, F Vec4.w w ≠ 0 := by
    intro w hw'
    obtain ⟨i, j, q, -, -, h, -⟩ := C31_convex_combination s S hw w.1 w.2 hw'
    rw [surf_eval S hw', dehomog, surfaceSum_comp Vec4.w cw rfl, hspl _ w hw'] at h
    intro h0
    rw [if_pos h0] at h
    cases h
  refine ⟨_, _, _, fun w hw' => ?_, (hF Vec4.x).div (hF Vec4.w) hne, (hF Vec4.y).div (hF Vec4.w) hne, (hF Vec4.z).div (hF Vec4.w) hne⟩
  rw [surf_eval S hw', dehomog, surfaceSum_comp Vec4.w cw rfl, surfaceSum_comp Vec4.x cx rfl, surfaceSum_comp Vec4.y cy rfl,
    surfaceSum_comp Vec4.z cz rfl, hspl _ w hw', hspl _ w hw', hspl _ w hw', hspl _ w hw', if_neg (hne w hw')]
  rfl

/-! Concrete cases -/

/-- A rational curve of degree 2 with one simple inner knot. -/
def realCurve : Curve ℝ := ⟨[⟨0, 0, 0, 1⟩, ⟨1, 2, 0, 1⟩, ⟨2, 0, 1, 3⟩, ⟨3, 1, 0, 2⟩], 2, [0, 0, 0, 1, 2, 2, 2], false, 0, 2⟩

example : ValidCurve realCurve ∧ PositiveWeights realCurve ∧ 1 ≤ realCurve.degree ∧
    RepeatsAtMost realCurve.cpts.length realCurve.degree realCurve.knots (realCurve.degree - 1) := by
  refine ⟨⟨by decide, by decide, by decide, rfl, ?_, ?_⟩, ?_, by decide, ?_⟩
  · norm_num [SortedKnots, realCurve]
  · norm_num [realCurve, ix]
  · intro q hq
    simp only [realCurve, List.mem_cons, List.not_mem_nil, or_false] at hq
    rcases hq with rfl | rfl | rfl | rfl <;> norm_num
  · intro τ h1 h2
    have h1 : 0 < τ := h1
    have h2 : τ < 2 := h2
    simp only [realCurve, List.count_cons, List.count_nil, beq_iff_eq, h1.ne, h2.ne', if_false]
    split <;> omega

/-- A bilinear rational patch. -/
def realSurface : Surface ℝ :=
  ⟨[[⟨0, 0, 0, 1⟩, ⟨0, 1, 1, 1⟩], [⟨2, 0, 4, 2⟩, ⟨3, 3, 0, 3⟩]], 1, 1, 2, 2, [0, 0, 1, 1], [0, 0, 1, 1], 0, 1, 0, 1⟩

example : ValidSurface realSurface ∧ SurfPositive realSurface ∧ RepeatsAtMost realSurface.su realSurface.du realSurface.ku (1 - 1) := by
  have hk : ValidKnots 2 1 ([0, 0, 1, 1] : List ℝ) :=
    ⟨by decide, by decide, by decide, rfl, by norm_num [SortedKnots], by norm_num [ix]⟩
  refine ⟨⟨rfl, by simp [realSurface], hk, hk⟩, ?_, ?_⟩
  · intro r hr q hq
    simp only [realSurface, List.mem_cons, List.not_mem_nil, or_false] at hr
    rcases hr with rfl | rfl <;> simp only [List.mem_cons, List.not_mem_nil, or_false] at hq <;> rcases hq with rfl | rfl <;> norm_num
  · intro τ h1 h2
    have h1 : 0 < τ := h1
    have h2 : τ < 1 := h2
    simp [realSurface, List.count_cons, h1.ne, h2.ne']

/-- A polyline with the inner knot 1 twice, that is once too often. -/
def jumpCurve : Curve ℝ := ⟨[⟨0, 0, 0, 1⟩, ⟨1, 0, 0, 1⟩, ⟨5, 0, 0, 1⟩, ⟨6, 0, 0, 1⟩], 1, [0, 0, 1, 1, 2, 2], false, 0, 2⟩

/-- **C100**: the bound on the repetitions is sharp: with the inner knot 1 repeated `degree + 1` times the curve jumps from (1,0,0) to
(5,0,0) there and is not even continuous. -/
theorem C100_sharp : ValidCurve jumpCurve ∧ PositiveWeights jumpCurve ∧
    RepeatsAtMost jumpCurve.cpts.length jumpCurve.degree jumpCurve.knots (jumpCurve.degree + 1) ∧ ¬ SmoothCurve 0 jumpCurve := by
  have V : ValidCurve jumpCurve :=
    ⟨by decide, by decide, by decide, rfl, by norm_num [SortedKnots, jumpCurve], by norm_num [ix, jumpCurve]⟩
  have hw : ∀ q ∈ jumpCurve.cpts, q.w = 1 := by simp [jumpCurve]
  refine ⟨V, fun q hq => by rw [hw q hq]; exact one_pos, ?_, ?_⟩
  · intro τ h1 h2
    have h1 : 0 < τ := h1
    have h2 : τ < 2 := h2
    simp only [jumpCurve, List.count_cons, List.count_nil, beq_iff_eq, h1.ne, h2.ne', if_false]
    split <;> omega
  · rintro ⟨X, Y, Z, hX, cX, -, -⟩
    rw [Nat.cast_zero, contDiffOn_zero] at cX
    have hD : jumpCurve.domain = Icc 0 2 := rfl
    have e1 : ∀ t, 0 ≤ t → t < 1 → X t = t := by
      intro t h0 h1
      have h := eval_equal V ⟨1, one_pos, hw⟩ (i := 1) (t := t) ⟨by decide, by decide, by norm_num [ix, jumpCurve], .inl rfl, .inr h1⟩
      rw [hX t (by rw [hD]; exact ⟨h0, by linarith⟩)] at h
      have h := (Vec3.mk.inj (Res.ok.inj h)).1
      rw [h]
      simp [splineVal, basisFuns, basisInner, dotL, jumpCurve, ix]
    have e2 : X 1 = 5 := by
      have h := eval_equal V ⟨1, one_pos, hw⟩ (i := 3) (t := 1) ⟨by decide, by decide, by norm_num [ix, jumpCurve],
        .inr (by norm_num [ix, jumpCurve]), .inl rfl⟩
      rw [hX 1 (by rw [hD]; norm_num)] at h
      have h := (Vec3.mk.inj (Res.ok.inj h)).1
      rw [h]
      norm_num [splineVal, basisFuns, basisInner, dotL, jumpCurve, ix]
    have hc : ContinuousWithinAt X (Ico 0 1) 1 := (cX 1 (by rw [hD]; norm_num)).mono (by rw [hD]; exact fun x hx => ⟨hx.1, by linarith [hx.2]⟩)
    have hl : Filter.Tendsto X (nhdsWithin 1 (Ico 0 1)) (nhds 1) :=
      (Filter.tendsto_id.mono_left nhdsWithin_le_nhds).congr' (Filter.eventuallyEq_of_mem self_mem_nhdsWithin fun x hx => (e1 x hx.1 hx.2).symm)
    have hb : (nhdsWithin (1 : ℝ) (Ico 0 1)).NeBot := by
      rw [← mem_closure_iff_nhdsWithin_neBot, closure_Ico (by norm_num)]
      norm_num
    have := tendsto_nhds_unique hc hl
    rw [e2] at this
    norm_num at this

end Cmm.Nurbs
