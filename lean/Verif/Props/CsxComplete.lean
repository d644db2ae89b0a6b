import Verif.Props.Csx
import Verif.Props.Detect
import Verif.Spec.Derivative
/-!
C130: what an answer without reports of curve-surface intersection means.
-/
namespace Cmm.Csx
open Cmm.Nurbs Cmm.Ccx Cmm.Gauss Cmm.Geom
variable {K : Type} [Field K] [LinearOrder K] [IsStrictOrderedRing K]

/-- Every point of a curve with unit weights is in the convex hull of its projected control points. -/
theorem curve_hull {c : Curve K} (V : ValidCurve c) (U : UnitWeights c) {t : K} (hd : InDomain c t) :
    ∃ p, c.evaluate t = .ok p ∧ InHull (curvePoints c) p := by
  obtain ⟨i, r, -, -, -, -, he, hc⟩ := C27_convex_combination c V (fun q hq => by rw [U q hq]; exact one_pos) t hd
  refine ⟨r, he, hull_mono (fun q hq => hull_mem ?_) (ConvexCombination.inHull hc)⟩
  obtain ⟨q', hq', rfl⟩ := List.mem_map.1 hq
  have hm := List.mem_of_mem_drop (List.mem_of_mem_take hq')
  refine List.mem_map.2 ⟨q', hm, ?_⟩
  unfold Vec4.toVec3 Vec4.pos
  rw [U q' hm, div_one, div_one, div_one]

/-- A curve and a surface with a common point pass the separation tests: the boxes meet, and the distance query ends at the origin. -/
theorem meeting_near {c : Curve K} {s : Surface K} (V : ValidCurve c) (U : UnitWeights c) (S : ValidSurface s) (hw : SurfPositive s) {t u v : K}
    (ht' : InDomain c t) (huv : SurfInDomain s u v) {P : Vec3 K} (hP : c.evaluate t = .ok P) (hQ : s.evaluate u v = .ok P) :
    ∃ pts o, s.flat = .ok pts ∧ Sep.aabbTest (c.cpts.map Vec4.toVec3) (pts.map Vec4.toVec3) = .ok false ∧
      Gjk.gjk (c.cpts.map Vec4.toVec3) (pts.map Vec4.toVec3) [] (some 0) (1 / 10 ^ 5) 25 = .ok o ∧ o.closest = some 0 := by
  obtain ⟨l, hl, -⟩ := surfacePoints_ok S
  obtain ⟨pts, hpts, el⟩ := ok_of_bind hl
  obtain ⟨p, e1, i1⟩ := curve_hull V U ht'
  rw [hP] at e1
  obtain rfl := Res.ok.inj e1
  obtain ⟨q, e2, i2⟩ := evaluate_hull S hw hl huv
  rw [hQ] at e2
  obtain rfl := Res.ok.inj e2
  obtain rfl := Res.ok.inj el
  have n1 := hull_ne_nil i1
  have n2 := hull_ne_nil i2
  unfold curvePoints at i1 n1
  obtain ⟨a1, a2, a3, -⟩ := Sep.C51_aabbTest (c.cpts.map Vec4.toVec3) (pts.map Vec4.toVec3)
  obtain ⟨r, hr, -⟩ := Gjk.gjk_spec n1 n2 (1 / 10 ^ 5) (some 0) 25
  refine ⟨pts, r, hpts, ?_, hr, ?_⟩
  · match hb : Sep.aabbTest (c.cpts.map Vec4.toVec3) (pts.map Vec4.toVec3) with
    | .ub => exact absurd (a1.1 hb) (by rintro (h | h); exacts [n1 h, n2 h])
    | .throws => exact absurd hb a2
    | .ok true => exact absurd ⟨i1, i2⟩ (a3 hb P)
    | .ok false => rfl
  · have hcol : r.collide = true := by
      by_contra hf
      exact (Gjk.C49_separation_sound _ _ n1 n2 _ _ _ r hr (by simpa using hf)).2 P ⟨i1, i2⟩
    unfold Gjk.gjk at hr
    generalize c.cpts.map Vec4.toVec3 = A at hr n1
    generalize pts.map Vec4.toVec3 = B at hr n2
    match A, B, n1, n2 with
    | a0 :: A, b0 :: B, _, _ =>
      dsimp only at hr
      split at hr
      · cases hr
      · cases hr
      · rcases Sep.gjkLoop_closest _ _ _ _ _ _ _ hr hcol with h | h <;> exact h

/-- **C130**: a pair with a common point is not discarded by the separation tests, whatever the tolerance. -/
theorem C130_meeting_pair_kept (env : Env K) (h0 : env.sqrt 0 = 0) (tol : K) (ht : 0 ≤ tol) (c : Curve K) (s : Surface K) (V : ValidCurve c) (U : UnitWeights c)
    (S : ValidSurface s) (hw : SurfPositive s) (t u v : K) (ht' : InDomain c t) (huv : SurfInDomain s u v) (P : Vec3 K) (hP : c.evaluate t = .ok P)
    (hQ : s.evaluate u v = .ok P) : noNew env tol c s = .ok false := by
  obtain ⟨pts, r, e1, e2, e3, e4⟩ := meeting_near V U S hw ht' huv hP hQ
  unfold noNew surfacePoints curvePoints
  rw [e1, Res.ok_bind, Res.ok_bind, e2, Res.ok_bind, if_neg (by simp), e3, Res.ok_bind, e4]
  have : (0 : Vec3 K).sqLength = 0 := by simp [Vec3.sqLength]
  simp only [Res.ok.injEq, decide_eq_false_iff_not, not_lt, this, h0]
  exact ht

omit [IsStrictOrderedRing K] in
theorem allPairs_empty {env : Env K} {tol : K} {c : Curve K} {s : Surface K} {rec : Curve K → Surface K → List (Hit K) → Option (Res (List (Hit K)))} :
    ∀ (ps : List (Curve K × Surface K)), (∀ p ∈ ps, ∀ acc res, rec p.1 p.2 acc = some (.ok res) → Adds env tol c s acc res) →
      allPairs rec ps [] = some (.ok []) → ∀ p ∈ ps, rec p.1 p.2 [] = some (.ok []) := by
  intro ps
  induction ps with
  | nil => intro _ _ p hp; cases hp
  | cons q ps ih =>
    intro hrec h p hp
    obtain ⟨acc1, h1, h2⟩ := andThen_ok h
    obtain ⟨new, e, -⟩ := allPairs_adds ps acc1 [] (fun q hq => hrec q (List.mem_cons_of_mem _ hq)) h2
    obtain rfl : acc1 = [] := (List.append_eq_nil_iff.1 e.symm).1
    rcases List.mem_cons.1 hp with rfl | hp
    · exact h1
    · exact ih (fun q hq => hrec q (List.mem_cons_of_mem _ hq)) h2 p hp

/-- The parameters lie in the intervals of the curve and of the surface. -/
def Holds (c : Curve K) (s : Surface K) (t u v : K) : Prop := (c.lo ≤ t ∧ t ≤ c.hi) ∧ Inside s u v

theorem nearBorder_middle {ptol : K} {s : Surface K}
    (h : nearBorder ptol s ((s.u0 + s.u1) * (1 / 2)) ((s.v0 + s.v1) * (1 / 2)) = true) : s.u1 - s.u0 < 2 * ptol ∨ s.v1 - s.v0 < 2 * ptol := by
  unfold nearBorder at h
  simp only [Bool.or_eq_true, decide_eq_true_eq] at h
  rcases h with ((h | h) | h) | h <;> rw [abs_lt] at h
  · left; linarith [h.2]
  · left; linarith [h.1]
  · right; linarith [h.2]
  · right; linarith [h.1]

/-- **C130** (partial: unit weights on the curve): what an answer without reports means, whatever the Newton search, the degeneracy test and the separability test return: for every common
point of a Bézier curve with unit weights and a Bézier surface with positive weights, the search went on to a pair of pieces that holds it and that is as
small as the parameter tolerance (the curve piece shorter than it, or the surface piece narrower than twice it). No pair that holds a common point is
dropped for another reason. -/
theorem C130_empty_answer_partial (env : Env K) (h0 : env.sqrt 0 = 0) (length tol : K) (ht : 0 ≤ tol) (fuel : Nat) (c : Curve K) (s : Surface K) (V : ValidCurve c)
    (U : UnitWeights c) (Ic : IntervalOk c) (Bc : IsBezier c) (S : PositivePatch s) (h : csx env length fuel c s tol = some (.ok []))
    (t u v : K) (hin : Holds c s t u v) (P : Vec3 K) (hP : c.evaluate t = .ok P) (hQ : s.evaluate u v = .ok P) :
    ∃ c' s', Searched c s c' s' ∧ Holds c' s' t u v ∧ (c'.hi - c'.lo < tol * (c.hi - c.lo) / length ∨
      s'.u1 - s'.u0 < 2 * (tol * (c.hi - c.lo) / length) ∨ s'.v1 - s'.v0 < 2 * (tol * (c.hi - c.lo) / length)) := by
  unfold csx computePtol at h
  set ptol := tol * (c.hi - c.lo) / length
  have main : ∀ fuel c' s', Searched c s c' s' → CurvePiece c c' → UnitWeights c' → SurfPiece s s' → SurfPositive s' → Holds c' s' t u v →
      search env tol ptol fuel c' s' [] = some (.ok []) →
      ∃ c' s', Searched c s c' s' ∧ Holds c' s' t u v ∧ (c'.hi - c'.lo < ptol ∨ s'.u1 - s'.u0 < 2 * ptol ∨ s'.v1 - s'.v0 < 2 * ptol) := by
    intro fuel
    induction fuel with
    | zero => intro _ _ _ _ _ _ _ _ h; cases h
    | succ fuel ih =>
      intro c' s' hS Pc Uc Ps Ws hin h
      obtain ⟨⟨t0, t1⟩, ⟨u0, u1⟩, v0, v1⟩ := hin
      have hin : Holds c' s' t u v := ⟨⟨t0, t1⟩, ⟨u0, u1⟩, v0, v1⟩
      have hu := le_trans u0 u1
      have hv := le_trans v0 v1
      rw [search] at h
      split at h
      · rename_i hsm
        refine ⟨c', s', hS, hin, ?_⟩
        unfold tooSmall at hsm
        simp only [Bool.or_eq_true, decide_eq_true_eq] at hsm
        rcases hsm with (hsm | hsm) | hsm <;> have := lt_of_le_of_lt (le_abs_self _) hsm
        · exact Or.inl this
        · rw [abs_of_nonneg (by linarith)] at hsm; right; left; linarith
        · rw [abs_of_nonneg (by linarith)] at hsm; right; right; linarith
      · have hk : noNew env tol c' s' = .ok false := by
          refine C130_meeting_pair_kept env h0 tol ht c' s' Pc.1.valid Uc Ps.1.valid Ws t u v ?_ ((inside_dom Ps.1).1 hin.2) P
            ((Pc.2.2.2 t t0 t1).trans hP) ((Ps.2.2.2 u v u0 u1 v0 v1).trans hQ)
          unfold InDomain; rw [Pc.1.dom.1, Pc.1.dom.2]; exact hin.1
        obtain ⟨done, hd, h⟩ := andThen_ok h
        rw [hk] at hd
        cases hd
        simp only [Bool.false_eq_true, if_false] at h
        obtain ⟨found, hf, h⟩ := andThen_ok h
        split at h
        · rename_i hb
          exact ⟨c', s', hS, hin, Or.inr (nearBorder_middle hb)⟩
        · match found, hf, h with
          | none, hf, h =>
            obtain ⟨⟨a, b⟩, h1, h⟩ := andThen_ok h
            obtain ⟨⟨q1, q2, q3, q4⟩, h2, h⟩ := andThen_ok h
            have h1 := Option.some.inj h1
            have h2 := Option.some.inj h2
            obtain ⟨sp, ⟨l1, l2, l3, l4⟩, sw⟩ := Pc.1.split_full h1
            obtain ⟨y, hy, iy⟩ := subdivide_covers Ps.1 h2 hin.2
            have hx : ∃ x ∈ [a, b], x.lo ≤ t ∧ t ≤ x.hi := by
              rcases le_total t (1 / 2 * (c'.lo + c'.hi)) with hh | hh
              · exact ⟨a, by simp, by rw [l1]; exact t0, by rw [l2]; exact hh⟩
              · exact ⟨b, by simp, by rw [l3]; exact hh, by rw [l4]; exact t1⟩
            obtain ⟨x, hx, ix⟩ := hx
            have hsr : ∀ x ∈ [a, b], ∀ y ∈ [q1, q2, q3, q4], Searched c s x y := fun x hx y hy => hS.part h1 h2 hx hy
            refine ih x y (hsr x hx y hy) (Pc.trans (sp x hx)) (sw 1 Uc x hx) (Ps.trans (Ps.1.subdivide h2 y hy))
              (subdivide_pos Ps.1 Ws h2 y hy) ⟨ix, iy⟩ ?_
            refine allPairs_empty (env := env) (tol := tol) (c := c) (s := s) _ (fun p hp acc res hr => sound fuel p.1 p.2 acc res ?_ hr) h (x, y) ?_
            · apply hsr <;>
              · simp only [List.mem_cons, List.not_mem_nil, or_false] at hp ⊢
                rcases hp with rfl | rfl | rfl | rfl | rfl | rfl | rfl | rfl <;> simp
            · simp only [List.mem_cons, List.not_mem_nil, or_false] at hx hy ⊢
              rcases hx with rfl | rfl <;> rcases hy with rfl | rfl | rfl | rfl <;> simp
          | some (P', t', u', v'), hf, h =>
            exfalso
            simp only at h
            obtain ⟨deg, hd, h⟩ := andThen_ok h
            split at h
            · cases h
            · obtain ⟨⟨a, b⟩, h1, h⟩ := andThen_ok h
              obtain ⟨⟨q1, q2, q3, q4⟩, h2, h⟩ := andThen_ok h
              obtain ⟨new, e, -⟩ := descend_adds (env := env) (tol := tol) (c := c) (s := s) _ _ _
                (fun x hx y hy acc res hr => sound fuel x y acc res (hS.part (Option.some.inj h1) (Option.some.inj h2) hx hy) hr) h
              simp at e
  exact main fuel c s Searched.self ⟨⟨V, ⟨1, one_pos, U⟩, Ic, Bc⟩, le_refl _, le_refl _, fun _ _ _ => rfl⟩ U (SurfPiece.refl S.bez) S.positive hin h

/-- A vertical line through (5/2, 5/2, 0) with weights 2. -/
def heavyLine : Curve ℚ := ⟨[⟨5 / 2, 5 / 2, -1, 2⟩, ⟨5 / 2, 5 / 2, 1, 2⟩], 1, [0, 0, 1, 1], false, 0, 1⟩

/-- The square [2, 3] x [2, 3] in the plane z = 0. -/
def farSquare : Surface ℚ := bilinear ⟨2, 2, 0, 1⟩ ⟨2, 3, 0, 1⟩ ⟨3, 2, 0, 1⟩ ⟨3, 3, 0, 1⟩

/-- C130 (counterexample): with weights other than one a pair that meets is dropped. The line with weights 2 passes through the middle of the square, but
the tests divide its control points by the weights, which does not give points of the line. -/
theorem C130_weights_counterexample : ∃ (c : Curve ℚ) (s : Surface ℚ), ValidCurve c ∧ EqualWeights c ∧ IntervalOk c ∧ IsBezier c ∧ PositivePatch s ∧
    (∃ t u v P, Holds c s t u v ∧ c.evaluate t = .ok P ∧ s.evaluate u v = .ok P) ∧
    ∀ env length tol fuel, csx env length (fuel + 1) c s tol = some (.ok []) := by
  refine ⟨heavyLine, farSquare, ⟨by decide, by decide, by decide, by decide, by unfold SortedKnots; decide +kernel, by decide +kernel⟩,
    ⟨2, by decide +kernel, by decide +kernel⟩, by unfold IntervalOk; decide +kernel, by unfold IsBezier; decide +kernel,
    bilinear_patch _ _ _ _ (by decide +kernel), ⟨1 / 2, 1 / 2, 1 / 2, ⟨5 / 2, 5 / 2, 0⟩, by unfold Holds Inside; decide +kernel, by decide +kernel,
      by decide +kernel⟩, fun env length tol fuel => ?_⟩
  exact C55_apart_reports_nothing env tol _ fuel heavyLine farSquare [] [⟨2, 2, 0, 1⟩, ⟨2, 3, 0, 1⟩, ⟨3, 2, 0, 1⟩, ⟨3, 3, 0, 1⟩] (by decide +kernel)
    (Or.inl (by decide +kernel))

/-- The hypotheses of `C130_empty_answer_partial`: the line through the middle of the square, with a Newton search that finds nothing. -/
example : csx (demoEnv none true) 2 20 demoLine demoSquare (1 / 2) = some (.ok []) ∧ Holds demoLine demoSquare (1 / 2) (1 / 2) (1 / 2) ∧
    demoLine.evaluate (1 / 2) = .ok ⟨1 / 2, 1 / 2, 0⟩ ∧ demoSquare.evaluate (1 / 2) (1 / 2) = .ok ⟨1 / 2, 1 / 2, 0⟩ ∧ UnitWeights demoLine ∧
    PositivePatch demoSquare :=
  ⟨by decide +kernel, by unfold Holds Inside; decide +kernel, by decide +kernel, by decide +kernel, by unfold UnitWeights; decide +kernel,
    bilinear_patch ⟨0, 0, 0, 1⟩ ⟨0, 1, 0, 1⟩ ⟨1, 0, 0, 1⟩ ⟨1, 1, 0, 1⟩ (by decide +kernel)⟩

end Cmm.Csx
