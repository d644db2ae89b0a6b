import Verif.Lemmas.CcxEnds
import Verif.Props.RoundingCcx
/-! C145: which crossings curve-curve intersection (cmmcore/ccx.h) reports when every arithmetic operation rounds. -/
namespace Cmm.Ccx
open Cmm.Nurbs

section any
variable {K : Type} [Arith K] [LinearOrder K]

/-- C145 (partial: a common end of the two curves; crossings inside may be missed, `C145_missed_counterexample`). In any arithmetic whatever: two curves with a common end point, be it the
start or the end of either. If the call returns normally, one of the pairs in the list is, up to the tolerance, the middle of two small parts, one of each curve, cut
off at these ends. -/
theorem C145_shared_end_partial (sqrt : K → K) (tol : K) (fuel : Nat) (c1 c2 : Curve K) (f g : Bool) (P : Vec3 K) (h1 : endPoint f c1 = some P) (h2 : endPoint g c2 = some P)
    (acc res : List (K × K)) (h : ccx sqrt tol fuel c1 c2 acc = some (.ok res)) :
    ∃ p ∈ res, ∃ q1 q2, EndPart f c1 q1 ∧ EndPart g c2 q2 ∧ SmallPart sqrt tol q1 ∧ SmallPart sqrt tol q2 ∧ AtMiddle tol q1 q2 p :=
  shared_end sqrt tol f g P fuel c1 c2 acc res h1 h2 h

/-- C145 (partial, as above). A part cut off at an end of the curve still has this end, exactly. -/
theorem C145_parts_keep_end_partial (f : Bool) (c q : Curve K) (h : EndPart f c q) : endPoint f q = endPoint f c := by
  induction h with
  | whole => rfl
  | half s _ ih => rw [ih, split_endPoint f s]

/-- The search in which no part is ever small enough to be reported comes back empty-handed. -/
def blind : Nat → Curve K → Curve K → Bool
  | 0, _, _ => false
  | fuel + 1, c1, c2 =>
    match c1.bbox, c2.bbox with
    | .ok b1, .ok b2 =>
      if b1.intersects b2 then
        decide (1 ≤ (b1.max - b1.min).sqLength) &&
        match c1.split ((c1.hi - c1.lo) * (1 / 2) + c1.lo) false, c2.split ((c2.hi - c2.lo) * (1 / 2) + c2.lo) false with
        | .ok s1, .ok s2 => blind fuel s1.1 s2.1 && blind fuel s1.2 s2.2 && blind fuel s1.1 s2.2 && blind fuel s1.2 s2.1
        | _, _ => false
      else true
    | _, _ => false
theorem blind_ccx (sqrt : K → K) (tol : K) (hs : ∀ x, 1 ≤ x → tol ≤ sqrt x) : ∀ (fuel : Nat) (c1 c2 : Curve K) (acc : List (K × K)), blind fuel c1 c2 = true →
    ccx sqrt tol fuel c1 c2 acc = some (.ok acc)
  | 0, _, _, _, h => by simp [blind] at h
  | fuel + 1, c1, c2, acc, h => by
    unfold blind at h
    unfold ccx
    split at h
    · rename_i b1 b2 e1 e2
      simp only [e1, e2]
      split at h
      · rename_i hi
        rw [if_pos hi]
        rw [Bool.and_eq_true] at h
        obtain ⟨h1, h2⟩ := h
        have : small sqrt tol b1 = false := by
          unfold small
          exact decide_eq_false (not_lt.2 (hs _ (of_decide_eq_true h1)))
        rw [this]
        split at h2
        · rename_i s1 s2 f1 f2
          simp only [Bool.and_eq_true] at h2
          obtain ⟨⟨⟨g1, g2⟩, g3⟩, g4⟩ := h2
          simp [f1, f2, andThen, blind_ccx sqrt tol hs fuel _ _ _ g1, blind_ccx sqrt tol hs fuel _ _ _ g2, blind_ccx sqrt tol hs fuel _ _ _ g3, blind_ccx sqrt tol hs fuel _ _ _ g4]
        · cases h2
      · rename_i hi
        rw [if_neg hi]
    · cases h

end any

/-- C145 (partial, as above) for `double`: two Bézier curves over [0, 1] that meet the assumptions of `C144_double` and have a common end. The call returns normally with at least one pair, and the
curves are near each other at every pair returned. -/
theorem C145_double_partial (c1 c2 : Curve (Fp (Rounding.float (K := ℝ) 53 (by norm_num)))) (M d : ℝ) (B1 : FloatBezier 1 M c1) (B2 : FloatBezier 1 M c2)
    (i1 : c1.lo.val = 0 ∧ c1.hi.val = 1) (i2 : c2.lo.val = 0 ∧ c2.hi.val = 1) (N : Nat) (hN : N ≤ 37) (hd : 0 ≤ d) (hdM : d ≤ 2 * M) (S1 : StepsLe d c1.exact) (S2 : StepsLe d c2.exact)
    (tol : Fp _) (ht : 0 < tol.val) (hm : 14 * (d / 2 ^ N + M / 2 ^ 39) ≤ tol.val) (f g : Bool) (P : Vec3 _) (h1 : endPoint f c1 = some P) (h2 : endPoint g c2 = some P) :
    ∃ res, ccx Num.doubleLib.sqrt tol (N + 1) c1 c2 [] = some (.ok res) ∧ res ≠ [] ∧ ∀ q ∈ res, MeetsWithin (2 * (1 + 1 / 2 ^ 50) * tol.val + M / 2 ^ 39) c1 c2 q := by
  obtain ⟨res, hr, g'⟩ := C144_double c1 c2 M d B1 B2 i1 i2 N hN hd hdM S1 S2 tol ht hm
  obtain ⟨p, hp, -⟩ := C145_shared_end_partial _ _ _ _ _ f g P h1 h2 _ _ hr
  exact ⟨res, hr, List.ne_nil_of_mem hp, g'⟩

/-- Two sides of a triangle, with a common start: the search reports it. -/
example : ∃ res, ccx Num.doubleLib.sqrt 1 6 (diagonalF 0 1) (diagonalF 0 0) [] = some (.ok res) ∧ res ≠ [] ∧
    ∀ q ∈ res, MeetsWithin (2 * (1 + 1 / 2 ^ 50) * (1 : Fp (Rounding.float (K := ℝ) 53 (by norm_num))).val + 1 / 2 ^ 39) (diagonalF 0 1) (diagonalF 0 0) q := by
  obtain ⟨B1, S1⟩ := diagonalF_ok 0 1 (Or.inl zero_val) (Or.inr one_val)
  obtain ⟨B2, S2⟩ := diagonalF_ok 0 0 (Or.inl zero_val) (Or.inl zero_val)
  exact C145_double_partial _ _ 1 1 B1 B2 ⟨zero_val, one_val⟩ ⟨zero_val, one_val⟩ 5 (by norm_num) (by norm_num) (by norm_num) S1 S2 1 (by rw [one_val]; norm_num) (by rw [one_val]; norm_num)
    false false _ rfl rfl

section counterexample

/-- Rational numbers with a 53-digit rounding: `double` without overflow and underflow. -/
abbrev Double : Type := Fp (Rounding.float (K := ℚ) 53 (by norm_num))

/-- 0.9, rounded. -/
def nine : Double := Fp.round _ (9 / 10)

/-- A straight line of degree 3 with seven control points, in the plane z = 0.9, with the knots the constructor makes. -/
def bentless : Curve Double :=
  ⟨[⟨0, 0, nine, 1⟩, ⟨1, 0, nine, 1⟩, ⟨3, 0, nine, 1⟩, ⟨6, 0, nine, 1⟩, ⟨9, 0, nine, 1⟩, ⟨11, 0, nine, 1⟩, ⟨12, 0, nine, 1⟩], 3, [0, 0, 0, 0, 1, 2, 3, 4, 4, 4, 4], false, 0, 4⟩

/-- A segment across it, in the same plane. -/
def across : Curve Double := ⟨[⟨15 / 2, -1, nine, 1⟩, ⟨15 / 2, 1, nine, 1⟩], 1, [0, 0, 1, 1], false, 0, 1⟩

theorem bentless_valid : ValidCurve bentless.exact := ⟨by decide, by decide, by decide, by decide, by unfold SortedKnots; decide +kernel, by decide +kernel⟩
theorem across_valid : ValidCurve across.exact := ⟨by decide, by decide, by decide, by decide, by unfold SortedKnots; decide +kernel, by decide +kernel⟩

/-- C145. Crossings are missed in `double`: two straight lines in a common plane, with weights one and the knots the constructor makes, cross at the parameters 5/2 and 1/2, and the search returns an empty
list, whatever the tolerance up to one. (Inserting a knot moves the coordinate 0.9 of some control points by a rounding unit, and the boxes no longer touch.) -/
theorem C145_missed_counterexample : ∃ (c1 c2 : Curve Double) (P : Vec3 ℚ), (ValidCurve c1.exact ∧ ValidCurve c2.exact) ∧
    (Curve.make c1.exact.cpts c1.degree false = .ok c1.exact ∧ Curve.make c2.exact.cpts c2.degree false = .ok c2.exact) ∧
    ((∀ q ∈ c1.exact.cpts, q.w = 1 ∧ Bounded 12 (Vec4.pos q)) ∧ ∀ q ∈ c2.exact.cpts, q.w = 1 ∧ Bounded 12 (Vec4.pos q)) ∧
    c1.exact.evaluate (5 / 2) = .ok P ∧ c2.exact.evaluate (1 / 2) = .ok P ∧
    ∀ (sqrt : Double → Double) (tol : Double), (∀ x, 1 ≤ x → tol ≤ sqrt x) → ccx sqrt tol 3 c1 c2 [] = some (.ok []) :=
  ⟨bentless, across, ⟨15 / 2, 0, nine.val⟩, ⟨bentless_valid, across_valid⟩, ⟨by decide +kernel, by decide +kernel⟩, ⟨by unfold Bounded; decide +kernel, by unfold Bounded; decide +kernel⟩,
    by decide +kernel, by decide +kernel, fun sqrt tol hs => blind_ccx sqrt tol hs 3 _ _ [] (by decide +kernel)⟩

/-- The assumption on the square root: with the identity from one on and tolerance one. -/
example : ∃ (sqrt : Double → Double) (tol : Double), 0 < tol ∧ ∀ x, 1 ≤ x → tol ≤ sqrt x := ⟨id, 1, by decide +kernel, fun _ h => h⟩

end counterexample
end Cmm.Ccx
