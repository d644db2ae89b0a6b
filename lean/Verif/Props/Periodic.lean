import Verif.Lemmas.Periodic
import Verif.Props.Join
/-!
C102: periodic curves are closed.
-/
namespace Cmm.Nurbs
open Polynomial
variable {K : Type} [Field K] [LinearOrder K] [IsStrictOrderedRing K]

/-- A curve with the uniform knots of `generate_knots_periodic` whose first `degree` control points are its last ones. -/
structure Wrapped (c : Curve K) : Prop where
  valid : ValidCurve c
  knots_eq : c.knots = generateKnotsPeriodic c.cpts.length c.degree
  repeats : ∀ j < c.degree, ix c.cpts (j + (c.cpts.length - c.degree)) = ix c.cpts j

theorem Wrapped.ix_knots {c : Curve K} (h : Wrapped c) {i : Nat} (hi : i ≤ c.cpts.length + c.degree) : ix c.knots i = uni c.degree i := by
  rw [h.knots_eq, (C23_periodic_uniform c.cpts.length c.degree).2 i hi, uni]

theorem wrapped_of {c : Curve K} (h1 : 1 ≤ c.degree) (h8 : c.degree ≤ 8) (h : c.degree < c.cpts.length)
    (hk : c.knots = generateKnotsPeriodic c.cpts.length c.degree) (hp : c.isPeriodic = .ok true) : Wrapped c := by
  obtain ⟨k1, k2⟩ := C23_periodic_uniform (K := K) c.cpts.length c.degree
  refine ⟨⟨h1, h8, h, by rw [hk, k1], ?_, ?_⟩, hk, fun j hj => ?_⟩
  · rw [hk, SortedKnots, generateKnotsPeriodic, List.pairwise_map]
    refine List.pairwise_lt_range.imp fun {a b} hab => ?_
    have : (a : K) ≤ b := by exact_mod_cast hab.le
    linarith
  · rw [hk, k2 _ (by omega), k2 _ (by omega)]
    have : c.cpts.length - 1 + 1 = c.cpts.length := by omega
    have : ((c.cpts.length - 1 : Nat) : K) + 1 = c.cpts.length := by exact_mod_cast this
    linarith
  · obtain ⟨b, hb, hiff⟩ := C34_is_periodic_iff c h.le
    rw [hp] at hb
    have := congrArg (fun l => ix l j) (hiff.mp (Res.ok.inj hb).symm)
    simp only [ix_drop] at this
    rw [ix_take (by omega)] at this
    rw [this, Nat.add_comm]

theorem make_wrapped {pts : List (Vec4 K)} {d : Nat} (h1 : 1 ≤ d) (h8 : d ≤ 8) (h : d < pts.length) :
    ∃ c, Curve.make pts d true = .ok c ∧ c.degree = d ∧ Wrapped c ∧ (∀ q ∈ c.cpts, q ∈ pts) := by
  have hne : (generateKnotsPeriodic pts.length d : List K) ≠ [] := by simp [generateKnotsPeriodic]
  obtain ⟨lo, hi, e, -, -⟩ := updateInterval_ok (c := (⟨pts, d, generateKnotsPeriodic pts.length d, true, 0, 1⟩ : Curve K)) hne
  obtain ⟨r, m1, m2, -, m3⟩ := C34_make_periodic (⟨pts, d, generateKnotsPeriodic pts.length d, true, lo, hi⟩ : Curve K) h.le
  have hpts : pts.isEmpty = false := by
    cases pts with
    | nil => simp at h
    | cons a l => rfl
  have hm : Curve.make pts d true = .ok r := by
    unfold Curve.make Curve.generateKnotsPeriodic
    simp only [if_true]
    rw [e]
    simp only [Res.ok_bind]
    rw [m1]
    simp [hpts]
  refine ⟨r, hm, ?_⟩
  rcases m3 with ⟨-, rfl⟩ | ⟨-, g1, -, g3, g4⟩
  · exact ⟨rfl, wrapped_of h1 h8 h rfl m2, fun q hq => hq⟩
  · have g1 : r.cpts = pts ++ pts.take d := g1
    have g3 : r.degree = d := g3
    have hlen : r.cpts.length = pts.length + d := by rw [g1, List.length_append, List.length_take]; omega
    have g4 : r.knots = generateKnotsPeriodic (pts.length + d) d := g4
    refine ⟨g3, wrapped_of (by omega) (by omega) (by omega) (by rw [g4, hlen, g3]) m2, fun q hq => ?_⟩
    rw [g1, List.mem_append] at hq
    exact hq.elim id List.mem_of_mem_take

theorem makePeriodic_wrapped {c : Curve K} (h1 : 1 ≤ c.degree) (h8 : c.degree ≤ 8) (h : c.degree ≤ c.cpts.length) (h0 : c.isPeriodic = .ok false) :
    ∃ c', c.makePeriodic = .ok c' ∧ c'.degree = c.degree ∧ Wrapped c' ∧ (∀ q ∈ c'.cpts, q ∈ c.cpts) := by
  obtain ⟨r, m1, m2, -, m3⟩ := C34_make_periodic c h
  rcases m3 with ⟨g, -⟩ | ⟨-, g1, -, g3, g4⟩
  · rw [h0] at g; cases g
  · have hlen : r.cpts.length = c.cpts.length + c.degree := by rw [g1, List.length_append, List.length_take]; omega
    refine ⟨r, m1, g3, wrapped_of (by omega) (by omega) (by omega) (by rw [g4, hlen, g3]) m2, fun q hq => ?_⟩
    rw [g1, List.mem_append] at hq
    exact hq.elim id List.mem_of_mem_take

theorem Wrapped.first {c : Curve K} (h : Wrapped c) : SpanOf c c.degree 0 ∧ ix c.knots c.degree = 0 := by
  have h1 := h.valid.enough
  have e : ix c.knots c.degree = 0 := by rw [h.ix_knots (by omega), uni, sub_self]
  have e' : ix c.knots (c.degree + 1) = 1 := by rw [h.ix_knots (by omega), uni]; push_cast; ring
  exact ⟨⟨le_rfl, h1, by rw [e, e']; exact one_pos, .inl rfl, .inr (by rw [e']; exact one_pos)⟩, e⟩

theorem Wrapped.last {c : Curve K} (h : Wrapped c) : SpanOf c (c.cpts.length - 1) ((c.cpts.length : K) - c.degree) ∧
    ix c.knots c.cpts.length = (c.cpts.length : K) - c.degree := by
  have h1 := h.valid.enough
  have hs := h.valid.last_span
  have hn : c.cpts.length - 1 + 1 = c.cpts.length := by omega
  have e : ix c.knots c.cpts.length = (c.cpts.length : K) - c.degree := by rw [h.ix_knots (by omega), uni]
  refine ⟨⟨by omega, by omega, by rw [hn]; exact hs, .inr ?_, .inl hn⟩, e⟩
  rw [← e]
  exact hs.le

/-- The spline values at both ends of the domain agree. -/
theorem Wrapped.value {c : Curve K} (h : Wrapped c) (φ : Vec4 K → K) (k : Nat) (hk : k < c.degree) :
    splineVal (ix c.knots) (c.degree - k) (hodoIter (ix c.knots) c.degree (fun r => φ (ix c.cpts r)) k) (c.cpts.length - 1)
      ((c.cpts.length : K) - c.degree) =
    splineVal (ix c.knots) (c.degree - k) (hodoIter (ix c.knots) c.degree (fun r => φ (ix c.cpts r)) k) c.degree 0 := by
  have h1 := h.valid.enough
  have key : ∀ i t, c.degree ≤ i → i < c.cpts.length →
      splineVal (ix c.knots) (c.degree - k) (hodoIter (ix c.knots) c.degree (fun r => φ (ix c.cpts r)) k) i t =
      splineVal (uni c.degree) (c.degree - k) (hodoIter (uni c.degree) c.degree (fun r => φ (ix c.cpts r)) k) i t := by
    intro i t hi hi'
    refine splineVal_shift (d := 0) t (by omega) (fun x _ _ => h.ix_knots (by omega)) (fun x hx _ => ?_)
    exact hodoIter_congr (N := c.cpts.length) (fun x hx => h.ix_knots hx) _ k x (by omega)
  rw [key _ _ (by omega) (by omega), key _ _ le_rfl h1]
  exact splineVal_wrap h1 (by omega) (by omega) _ fun x hx hx' =>
    hodoIter_wrap _ (fun y hy => by rw [h.repeats y hy]) k x (by omega) hx'

theorem Wrapped.closed {c : Curve K} (w : Wrapped c) : c.evaluate 0 = c.evaluate ((c.cpts.length : K) - c.degree) := by
  have hpos := w.valid.deg_pos
  have hle := ValidKnots.mono w.valid c.degree c.cpts.length w.valid.enough.le (by omega)
  rw [curve_eval w.valid (t := 0) ⟨by rw [w.first.2], by rwa [w.first.2] at hle⟩,
    curve_eval w.valid (t := (c.cpts.length : K) - c.degree) ⟨by rwa [w.last.2] at hle, by rw [w.last.2]⟩,
    w.first.1.findSpan w.valid, w.last.1.findSpan w.valid, curvePointAt_eq, curvePointAt_eq]
  have key : ∀ φ : Vec4 K → K, splineVal (ix c.knots) c.degree (fun r => φ (ix c.cpts r)) (c.cpts.length - 1) ((c.cpts.length : K) - c.degree) =
      splineVal (ix c.knots) c.degree (fun r => φ (ix c.cpts r)) c.degree 0 := fun φ => w.value φ 0 hpos
  rw [key fun q => q.w * q.x, key fun q => q.w * q.y, key fun q => q.w * q.z, key Vec4.w]

/-- The `k`-th derivatives at both ends of the domain agree: `X`, `Y`, `Z` are the polynomials of the curve on its first knot span and
`X'`, `Y'`, `Z'` those on its last one. -/
def DerivativesMeet (c : Curve K) (k : Nat) : Prop :=
  ∀ X Y Z X' Y' Z' : K[X], PolyOn c c.degree X Y Z → PolyOn c (c.cpts.length - 1) X' Y' Z' →
    (derivative^[k] X).eval (ix c.knots c.degree) = (derivative^[k] X').eval (ix c.knots c.cpts.length) ∧
    (derivative^[k] Y).eval (ix c.knots c.degree) = (derivative^[k] Y').eval (ix c.knots c.cpts.length) ∧
    (derivative^[k] Z).eval (ix c.knots c.degree) = (derivative^[k] Z').eval (ix c.knots c.cpts.length)

theorem Wrapped.meet {c : Curve K} (w : Wrapped c) (hw : EqualWeights c) {k : Nat} (hk : k < c.degree) : DerivativesMeet c k := by
  intro X Y Z X' Y' Z' h h'
  obtain ⟨a1, a2, a3⟩ := h.iterate w.valid hw w.first.1 k hk.le
  obtain ⟨b1, b2, b3⟩ := h'.iterate w.valid hw w.last.1 k hk.le
  rw [w.first.2, w.last.2]
  exact ⟨by rw [a1, b1, w.value _ k hk], by rw [a2, b2, w.value _ k hk], by rw [a3, b3, w.value _ k hk]⟩

/-- **C102** (part): the curve that the constructor builds with the periodic flag from more points than the degree starts and ends at the
same point: its domain `[U_degree, U_n]` runs from 0 to `n - degree`, where `n` counts the stored control points, and the points at both
ends are equal, for all weights; with equal weights the derivatives up to the order `degree - 1` meet as well. Missing: `interval()` is
not this domain (`C102_interval_counterexample`). -/
theorem C102_constructor_partial (pts : List (Vec4 K)) (d : Nat) (h1 : 1 ≤ d) (h8 : d ≤ 8) (h : d < pts.length) :
    ∃ c, Curve.make pts d true = .ok c ∧ ValidCurve c ∧ ix c.knots c.degree = 0 ∧ ix c.knots c.cpts.length = (c.cpts.length : K) - c.degree ∧
      c.evaluate (ix c.knots c.degree) = c.evaluate (ix c.knots c.cpts.length) ∧
      ((∃ w, 0 < w ∧ ∀ q ∈ pts, q.w = w) → ∀ k < d, DerivativesMeet c k) := by
  obtain ⟨c, hc, hd, w, hm⟩ := make_wrapped (K := K) h1 h8 h
  refine ⟨c, hc, w.valid, w.first.2, w.last.2, by rw [w.first.2, w.last.2]; exact w.closed, ?_⟩
  rintro ⟨x, hx, hq⟩ k hk
  exact w.meet ⟨x, hx, fun q h => hq q (hm q h)⟩ (by omega)

/-- **C102** (part): the same for `make_periodic` on a curve whose control points do not repeat yet. Missing: `is_periodic` is true of
open curves too, which are then left open (`C102_open_counterexample`). -/
theorem C102_make_periodic_partial (c : Curve K) (h1 : 1 ≤ c.degree) (h8 : c.degree ≤ 8) (h : c.degree ≤ c.cpts.length)
    (h0 : c.isPeriodic = .ok false) :
    ∃ c', c.makePeriodic = .ok c' ∧ ValidCurve c' ∧ c'.evaluate (ix c'.knots c'.degree) = c'.evaluate (ix c'.knots c'.cpts.length) ∧
      (EqualWeights c → ∀ k < c.degree, DerivativesMeet c' k) := by
  obtain ⟨c', hc, hd, w, hm⟩ := makePeriodic_wrapped h1 h8 h h0
  refine ⟨c', hc, w.valid, by rw [w.first.2, w.last.2]; exact w.closed, ?_⟩
  rintro ⟨x, hx, hq⟩ k hk
  exact w.meet ⟨x, hx, fun q h => hq q (hm q h)⟩ (by omega)

/-- The corners of a triangle, one with another weight. -/
def triangle : List (Vec4 ℚ) := [⟨0, 0, 0, 1⟩, ⟨6, 0, 0, 2⟩, ⟨0, 6, 0, 1⟩]

/-- The closed curve of degree 2 for the triangle. -/
def closedCurve : Curve ℚ :=
  ⟨triangle ++ triangle.take 2, 2, [-2, -1, 0, 1, 2, 3, 4, 5], true, -2, 5⟩

example : Curve.make triangle 2 true = .ok closedCurve ∧ closedCurve.evaluate 0 = .ok ⟨4, 0, 0⟩ ∧ closedCurve.evaluate 3 = .ok ⟨4, 0, 0⟩ ∧
    closedCurve.evaluate 1 ≠ closedCurve.evaluate 0 := by decide +kernel

example : (⟨triangle, 2, [0, 0, 0, 1, 1, 1], false, 0, 1⟩ : Curve ℚ).isPeriodic = .ok false ∧
    (⟨triangle, 2, [0, 0, 0, 1, 1, 1], false, 0, 1⟩ : Curve ℚ).makePeriodic = .ok closedCurve := by decide +kernel

/-- **C102** is false for the interval that the curve reports: it runs from the first to the last knot, here from -2 to 5 instead of from 0
to 3, and the points that `evaluate` answers at its two ends differ. -/
theorem C102_interval_counterexample :
    Curve.make triangle 2 true = .ok closedCurve ∧ closedCurve.lo = -2 ∧ closedCurve.hi = 5 ∧
      closedCurve.evaluate closedCurve.lo ≠ closedCurve.evaluate closedCurve.hi := by decide +kernel

/-- An open curve of degree 2 from (0,0,0) to (6,0,0) whose first two points are its last two. -/
def openCurve : Curve ℚ := ⟨triangle ++ triangle.take 2, 2, [0, 0, 0, 1, 2, 3, 3, 3], false, 0, 3⟩

/-- **C102** is false for open curves whose first `degree` points are the last ones: they report to be periodic and `make_periodic` leaves
them open. -/
theorem C102_open_counterexample :
    Curve.make (triangle ++ triangle.take 2) 2 false = .ok openCurve ∧ openCurve.isPeriodic = .ok true ∧ openCurve.makePeriodic = .ok openCurve ∧
      openCurve.evaluate openCurve.lo = .ok ⟨0, 0, 0⟩ ∧ openCurve.evaluate openCurve.hi = .ok ⟨6, 0, 0⟩ := by decide +kernel

end Cmm.Nurbs
