import Verif.Lemmas.CsxBezier
import Verif.Props.Separability
/-!
C55: curve-surface intersection.
-/
namespace Cmm.Csx
open Cmm.Nurbs Cmm.Ccx
variable {K : Type} [Field K] [LinearOrder K]

/-- **C55**: whatever the Newton search, the degeneracy test and the separability test return: every report of a finished search carries parameters inside
the intervals of some piece pair of the recursive subdivision, its point is the point of that curve piece, the surface piece has a point within the
tolerance at the parameters, the type is the outcome of the degeneracy test there, and the parameters are those of the Newton search for this pair. -/
theorem C55_reports_genuine (env : Env K) (length tol : K) (fuel : Nat) (c : Curve K) (s : Surface K) (res : List (Hit K))
    (h : csx env length fuel c s tol = some (.ok res)) :
    ∀ r ∈ res, ∃ c' s', Searched c s c' s' ∧ Genuine env.sqrt tol c' s' r ∧ env.isDegenerate (r.t, r.u, r.v) c' s' = .ok r.degenerate ∧
      env.newton c' s' = .ok (some (r.t, r.u, r.v)) := by
  obtain ⟨new, e, g⟩ := sound fuel c s [] res Searched.self h
  rw [List.nil_append] at e
  rw [e]; exact g

/-- **C55**: the search ends. If the parameter tolerance is positive the depth of the recursion is at most the width of the surface in u divided by it, plus
one; otherwise the split tolerance 1e-7 bounds it. The depth bound never cuts the search off. -/
theorem C55_terminates [IsStrictOrderedRing K] (env : Env K) (length tol δ : K) (c : Curve K) (s : Surface K) (hs : SurfIntervalOk s)
    (hδ : δ ≤ tol * (c.hi - c.lo) / length ∨ δ ≤ 1 / 10 ^ 7) (n : Nat) (hn : s.u1 - s.u0 < n * δ) : csx env length (n + 1) c s tol ≠ none :=
  terminates hδ n c s [] hs hn

/-- **C55** for Bézier curves with equal weights and Bézier surfaces: every report is genuine for the curve and the surface themselves. -/
theorem C55_bezier_genuine [IsStrictOrderedRing K] (env : Env K) (length tol : K) (fuel : Nat) (c : Curve K) (s : Surface K) (res : List (Hit K))
    (h : csx env length fuel c s tol = some (.ok res)) (Vc : ValidCurve c) (hw : EqualWeights c) (Ic : IntervalOk c) (Bc : IsBezier c)
    (Vs : ValidSurface s) (Is : SurfIntervalOk s) (Bs : IsBezierSurf s) : ∀ r ∈ res, Genuine env.sqrt tol c s r := by
  intro r hr
  obtain ⟨c', s', hS, g, _⟩ := C55_reports_genuine env length tol fuel c s res h r hr
  obtain ⟨Pc, Ps⟩ := searched_pieces ⟨Vc, hw, Ic, Bc⟩ ⟨Vs, Is, Bs⟩ hS
  exact genuine_of_piece Pc Ps g

/-- C55: a pair with an interval shorter than the parameter tolerance reports nothing. -/
theorem C55_too_small (env : Env K) (tol ptol : K) (fuel : Nat) (c : Curve K) (s : Surface K) (acc : List (Hit K))
    (h : |c.hi - c.lo| < ptol ∨ |s.u1 - s.u0| < ptol ∨ |s.v1 - s.v0| < ptol) : search env tol ptol (fuel + 1) c s acc = some (.ok acc) := by
  rw [search, if_pos]
  unfold tooSmall
  simp only [Bool.or_eq_true, decide_eq_true_eq]
  tauto

/-- C55: a pair whose control point boxes are apart reports nothing, and so does one whose boxes meet but for which the distance query finds a closest
point farther than the tolerance. -/
theorem C55_apart_reports_nothing (env : Env K) (tol ptol : K) (fuel : Nat) (c : Curve K) (s : Surface K) (acc : List (Hit K)) (pts : List (Vec4 K))
    (hp : s.flat = .ok pts)
    (h : Sep.aabbTest (c.cpts.map Vec4.toVec3) (pts.map Vec4.toVec3) = .ok true ∨
      (Sep.aabbTest (c.cpts.map Vec4.toVec3) (pts.map Vec4.toVec3) = .ok false ∧
        ∃ o p, Gjk.gjk (c.cpts.map Vec4.toVec3) (pts.map Vec4.toVec3) [] (some 0) (1 / 10 ^ 5) 25 = .ok o ∧ o.closest = some p ∧
          tol < env.sqrt p.sqLength)) :
    search env tol ptol (fuel + 1) c s acc = some (.ok acc) := by
  have e : noNew env tol c s = .ok true := by
    unfold noNew surfacePoints curvePoints
    rw [hp, Res.ok_bind, Res.ok_bind]
    rcases h with h | ⟨h, o, p, ho, hc, hd⟩
    · rw [h, Res.ok_bind, if_pos rfl]
    · rw [h, Res.ok_bind, if_neg (by simp), ho, Res.ok_bind]
      simp only [hc]
      rw [decide_eq_true hd]
  rw [search]
  split
  · rfl
  · rw [e]; rfl

/-- The first pair is looked at: no interval is shorter than the parameter tolerance, the boxes meet, the distance query finds no point farther than the
tolerance, and the middle of the surface is not within the parameter tolerance of its border. -/
structure LookedAt (env : Env K) (tol ptol : K) (c : Curve K) (s : Surface K) : Prop where
  wide : ptol ≤ |c.hi - c.lo| ∧ ptol ≤ |s.u1 - s.u0| ∧ ptol ≤ |s.v1 - s.v0|
  near : ∃ pts o, s.flat = .ok pts ∧ Sep.aabbTest (c.cpts.map Vec4.toVec3) (pts.map Vec4.toVec3) = .ok false ∧
    Gjk.gjk (c.cpts.map Vec4.toVec3) (pts.map Vec4.toVec3) [] (some 0) (1 / 10 ^ 5) 25 = .ok o ∧ ∀ p, o.closest = some p → env.sqrt p.sqLength ≤ tol
  middle : ptol ≤ |(s.u0 + s.u1) / 2 - s.u0| ∧ ptol ≤ |(s.u0 + s.u1) / 2 - s.u1| ∧ ptol ≤ |(s.v0 + s.v1) / 2 - s.v0| ∧ ptol ≤ |(s.v0 + s.v1) / 2 - s.v1|

theorem lookedAt_search {env : Env K} {tol ptol : K} {c : Curve K} {s : Surface K} (L : LookedAt env tol ptol c s) (fuel : Nat) (acc : List (Hit K)) :
    search env tol ptol (fuel + 1) c s acc = andThen (some (findNew env tol c s)) fun found =>
      match found with
      | none =>
        andThen (some (c.split (1 / 2 * (c.lo + c.hi)) false)) fun c =>
        andThen (some (s.subdivideAt ((s.u0 + s.u1) * (1 / 2)) ((s.v0 + s.v1) * (1 / 2)))) fun s =>
        allPairs (search env tol ptol fuel)
          [(c.1, s.1), (c.1, s.2.1), (c.1, s.2.2.1), (c.1, s.2.2.2), (c.2, s.1), (c.2, s.2.1), (c.2, s.2.2.1), (c.2, s.2.2.2)] acc
      | some (point, t, u, v) =>
        andThen (some (env.isDegenerate (t, u, v) c s)) fun deg =>
        if nearBorder ptol s u v then some (.ok (acc ++ [⟨deg, point, t, u, v⟩]))
        else
          andThen (some (c.split t false)) fun c =>
          andThen (some (s.subdivideAt u v)) fun s =>
          descend env (search env tol ptol fuel) point c.1 c.2 [s.1, s.2.1, s.2.2.1, s.2.2.2] (acc ++ [⟨deg, point, t, u, v⟩]) := by
  obtain ⟨⟨w1, w2, w3⟩, ⟨pts, o, hp, hb, ho, hc⟩, m1, m2, m3, m4⟩ := L
  have e1 : tooSmall ptol c s = false := by
    unfold tooSmall
    rw [decide_eq_false (not_lt.2 w1), decide_eq_false (not_lt.2 w2), decide_eq_false (not_lt.2 w3)]; rfl
  have e2 : noNew env tol c s = .ok false := by
    unfold noNew surfacePoints curvePoints
    rw [hp, Res.ok_bind, Res.ok_bind, hb, Res.ok_bind, if_neg (by simp), ho, Res.ok_bind]
    match h : o.closest with
    | none => rfl
    | some p => simp only; rw [decide_eq_false (not_lt.2 (hc p h))]
  have e3 : nearBorder ptol s ((s.u0 + s.u1) * (1 / 2)) ((s.v0 + s.v1) * (1 / 2)) = false := by
    unfold nearBorder
    rw [mul_one_div, mul_one_div, decide_eq_false (not_lt.2 m1), decide_eq_false (not_lt.2 m2), decide_eq_false (not_lt.2 m3), decide_eq_false (not_lt.2 m4)]; rfl
  rw [search, e1, if_neg (by simp), e2]
  simp only [andThen, Bool.false_eq_true, if_false, e3]
  rfl

theorem findNew_of {env : Env K} {tol t u v : K} {c : Curve K} {s : Surface K} {P Q : Vec3 K} (hn : env.newton c s = .ok (some (t, u, v)))
    (ht : c.lo ≤ t ∧ t ≤ c.hi) (hu : s.u0 ≤ u ∧ u ≤ s.u1) (hv : s.v0 ≤ v ∧ v ≤ s.v1) (hP : c.evaluate t = .ok P) (hQ : s.evaluate u v = .ok Q)
    (hd : env.sqrt (P - Q).sqLength ≤ tol) : findNew env tol c s = .ok (some (P, t, u, v)) := by
  unfold findNew
  rw [hn, Res.ok_bind]
  have : validParameter (t, u, v) c s = true := by
    unfold validParameter
    rw [decide_eq_true ht.1, decide_eq_true ht.2, decide_eq_true hu.1, decide_eq_true hu.2, decide_eq_true hv.1, decide_eq_true hv.2]; rfl
  simp only [this, if_true]
  rw [hP, Res.ok_bind, hQ, Res.ok_bind, if_pos hd]

/-- **C55**: a genuine pair of parameters that the Newton search returns for a pair that is looked at is the first report, and every finished search keeps
it. -/
theorem C55_found_is_reported (env : Env K) (tol ptol : K) (fuel : Nat) (c : Curve K) (s : Surface K) (L : LookedAt env tol ptol c s) (t u v : K)
    (P Q : Vec3 K) (hn : env.newton c s = .ok (some (t, u, v))) (ht : c.lo ≤ t ∧ t ≤ c.hi) (hu : s.u0 ≤ u ∧ u ≤ s.u1) (hv : s.v0 ≤ v ∧ v ≤ s.v1)
    (hP : c.evaluate t = .ok P) (hQ : s.evaluate u v = .ok Q) (hd : env.sqrt (P - Q).sqLength ≤ tol) (deg : Bool)
    (hdeg : env.isDegenerate (t, u, v) c s = .ok deg) (res : List (Hit K)) (h : search env tol ptol (fuel + 1) c s [] = some (.ok res)) :
    res.head? = some ⟨deg, P, t, u, v⟩ := by
  rw [lookedAt_search L, findNew_of hn ht hu hv hP hQ hd] at h
  simp only [andThen, hdeg, List.nil_append] at h
  split at h
  · cases h; rfl
  · obtain ⟨⟨a, b⟩, h1, h⟩ := andThen_ok (x := some (c.split t false)) h
    obtain ⟨⟨q1, q2, q3, q4⟩, h2, h⟩ := andThen_ok (x := some (s.subdivideAt u v)) h
    have h1 := Option.some.inj h1
    have h2 := Option.some.inj h2
    obtain ⟨new, e, _⟩ := descend_adds (env := env) (tol := tol) (c := c) (s := s) _ _ _
      (fun x hx y hy acc res hr => sound fuel x y acc res (Searched.part Searched.self h1 h2 hx hy) hr) h
    rw [e]; rfl

/-- C55: nothing is reported for a pair where the Newton search ends outside of the intervals or farther than the tolerance, and the eight combinations of
parts are searched instead, all of them. -/
theorem C55_not_found_searches_parts (env : Env K) (tol ptol : K) (fuel : Nat) (c : Curve K) (s : Surface K) (L : LookedAt env tol ptol c s)
    (hf : env.newton c s = .ok none ∨ (∃ t u v, env.newton c s = .ok (some (t, u, v)) ∧
      (¬ ((c.lo ≤ t ∧ t ≤ c.hi) ∧ (s.u0 ≤ u ∧ u ≤ s.u1) ∧ (s.v0 ≤ v ∧ v ≤ s.v1)) ∨
        ∃ P Q, c.evaluate t = .ok P ∧ s.evaluate u v = .ok Q ∧ tol < env.sqrt (P - Q).sqLength)))
    (a b : Curve K) (q1 q2 q3 q4 : Surface K) (h1 : c.split (1 / 2 * (c.lo + c.hi)) false = .ok (a, b))
    (h2 : s.subdivideAt ((s.u0 + s.u1) / 2) ((s.v0 + s.v1) / 2) = .ok (q1, q2, q3, q4)) (acc : List (Hit K)) :
    search env tol ptol (fuel + 1) c s acc = allPairs (search env tol ptol fuel)
      [(a, q1), (a, q2), (a, q3), (a, q4), (b, q1), (b, q2), (b, q3), (b, q4)] acc := by
  have hf' : findNew env tol c s = .ok none := by
    unfold findNew
    rcases hf with hf | ⟨t, u, v, hf, h⟩
    · rw [hf]; rfl
    · rw [hf, Res.ok_bind]
      by_cases hv : validParameter (t, u, v) c s = true
      · simp only [hv, if_true]
        rcases h with h | ⟨P, Q, hP, hQ, hd⟩
        · simp only [validParameter, Bool.and_eq_true, decide_eq_true_eq] at hv
          exact absurd ⟨hv.1.1, hv.1.2, hv.2⟩ h
        · rw [hP, Res.ok_bind, hQ, Res.ok_bind, if_neg (not_le.2 hd)]
      · simp only [hv]; rfl
  rw [lookedAt_search L, hf']
  simp only [andThen, h1, mul_one_div, h2]

/-- C55: an intersection found at an end of the curve, with the surface parameters away from the border, ends the search with an exception: the
curve cannot be split there. -/
theorem C55_found_at_end_throws (env : Env K) (tol ptol : K) (fuel : Nat) (c : Curve K) (s : Surface K) (L : LookedAt env tol ptol c s) (t u v : K)
    (P Q : Vec3 K) (hn : env.newton c s = .ok (some (t, u, v))) (ht : c.lo ≤ t ∧ t ≤ c.hi) (hu : s.u0 ≤ u ∧ u ≤ s.u1) (hv : s.v0 ≤ v ∧ v ≤ s.v1)
    (hP : c.evaluate t = .ok P) (hQ : s.evaluate u v = .ok Q) (hd : env.sqrt (P - Q).sqLength ≤ tol) (deg : Bool)
    (hdeg : env.isDegenerate (t, u, v) c s = .ok deg) (acc : List (Hit K)) (hend : t = c.lo ∨ t = c.hi)
    (hin : ptol ≤ |u - s.u0| ∧ ptol ≤ |u - s.u1| ∧ ptol ≤ |v - s.v0| ∧ ptol ≤ |v - s.v1|) :
    search env tol ptol (fuel + 1) c s acc = some .throws := by
  rw [lookedAt_search L, findNew_of hn ht hu hv hP hQ hd]
  have e3 : nearBorder ptol s u v = false := by
    unfold nearBorder
    rw [decide_eq_false (not_lt.2 hin.1), decide_eq_false (not_lt.2 hin.2.1), decide_eq_false (not_lt.2 hin.2.2.1), decide_eq_false (not_lt.2 hin.2.2.2)]; rfl
  have e4 : c.split t false = .throws := by
    unfold Curve.split
    rw [if_pos]
    rcases hend with h | h
    · exact Or.inl (le_of_eq h)
    · exact Or.inr (Or.inl (le_of_eq h.symm))
  simp only [andThen, hdeg, e3, Bool.false_eq_true, if_false, e4]

/-- C55: an intersection found within the parameter tolerance of the border of the surface piece is the only report of that piece. -/
theorem C55_found_at_border_stops (env : Env K) (tol ptol : K) (fuel : Nat) (c : Curve K) (s : Surface K) (L : LookedAt env tol ptol c s) (t u v : K)
    (P Q : Vec3 K) (hn : env.newton c s = .ok (some (t, u, v))) (ht : c.lo ≤ t ∧ t ≤ c.hi) (hu : s.u0 ≤ u ∧ u ≤ s.u1) (hv : s.v0 ≤ v ∧ v ≤ s.v1)
    (hP : c.evaluate t = .ok P) (hQ : s.evaluate u v = .ok Q) (hd : env.sqrt (P - Q).sqLength ≤ tol) (deg : Bool)
    (hdeg : env.isDegenerate (t, u, v) c s = .ok deg) (acc : List (Hit K))
    (hb : |u - s.u0| < ptol ∨ |u - s.u1| < ptol ∨ |v - s.v0| < ptol ∨ |v - s.v1| < ptol) :
    search env tol ptol (fuel + 1) c s acc = some (.ok (acc ++ [⟨deg, P, t, u, v⟩])) := by
  rw [lookedAt_search L, findNew_of hn ht hu hv hP hQ hd]
  have e3 : nearBorder ptol s u v = true := by
    unfold nearBorder
    simp only [Bool.or_eq_true, decide_eq_true_eq]
    tauto
  simp only [andThen, hdeg, e3, if_true]

/-- C55: after a report inside, each of the four surface parts is searched with the first part of the curve, then with the second; but a positive
separability test of the first part of the curve skips that surface part for the second part of the curve as well. -/
theorem C55_first_part_decides (env : Env K) (tol ptol : K) (fuel : Nat) (c : Curve K) (s : Surface K) (L : LookedAt env tol ptol c s) (t u v : K)
    (P Q : Vec3 K) (hn : env.newton c s = .ok (some (t, u, v))) (ht : c.lo ≤ t ∧ t ≤ c.hi) (hu : s.u0 ≤ u ∧ u ≤ s.u1) (hv : s.v0 ≤ v ∧ v ≤ s.v1)
    (hP : c.evaluate t = .ok P) (hQ : s.evaluate u v = .ok Q) (hd : env.sqrt (P - Q).sqLength ≤ tol) (deg : Bool)
    (hdeg : env.isDegenerate (t, u, v) c s = .ok deg) (acc : List (Hit K))
    (hin : ptol ≤ |u - s.u0| ∧ ptol ≤ |u - s.u1| ∧ ptol ≤ |v - s.v0| ∧ ptol ≤ |v - s.v1|)
    (a b : Curve K) (q1 q2 q3 q4 : Surface K) (h1 : c.split t false = .ok (a, b)) (h2 : s.subdivideAt u v = .ok (q1, q2, q3, q4)) :
    (∀ o : Curve K → Surface K → Bool, (∀ x ∈ [a, b], ∀ q ∈ [q1, q2, q3, q4], ∃ f, q.flat = .ok f ∧
        env.onlyThere P (x.cpts.map Vec4.toVec3) (f.map Vec4.toVec3) = .ok (o x q)) →
      search env tol ptol (fuel + 1) c s acc = allPairs (search env tol ptol fuel)
        ([q1, q2, q3, q4].flatMap fun q => if o a q then [] else if o b q then [(a, q)] else [(a, q), (b, q)]) (acc ++ [⟨deg, P, t, u, v⟩])) := by
  intro o ho
  rw [lookedAt_search L, findNew_of hn ht hu hv hP hQ hd]
  have e3 : nearBorder ptol s u v = false := by
    unfold nearBorder
    rw [decide_eq_false (not_lt.2 hin.1), decide_eq_false (not_lt.2 hin.2.1), decide_eq_false (not_lt.2 hin.2.2.1), decide_eq_false (not_lt.2 hin.2.2.2)]; rfl
  simp only [andThen, hdeg, e3, Bool.false_eq_true, if_false, h1, h2]
  have key : ∀ (qs : List (Surface K)) acc, (∀ q ∈ qs, q ∈ [q1, q2, q3, q4]) → descend env (search env tol ptol fuel) P a b qs acc =
      allPairs (search env tol ptol fuel) (qs.flatMap fun q => if o a q then [] else if o b q then [(a, q)] else [(a, q), (b, q)]) acc := by
    intro qs
    induction qs with
    | nil => intro acc _; rfl
    | cons q qs ih =>
      intro acc hq
      have hq' := fun x hx => hq x (List.mem_cons_of_mem _ hx)
      obtain ⟨f, hf, ha⟩ := ho a (by simp) q (hq q List.mem_cons_self)
      obtain ⟨f', hf', hb⟩ := ho b (by simp) q (hq q List.mem_cons_self)
      rw [hf] at hf'
      cases hf'
      rw [descend, List.flatMap_cons]
      unfold surfacePoints curvePoints
      rw [hf, Res.ok_bind]
      simp only [andThen, ha, hb]
      cases ea : o a q
      · cases eb : o b q
        · simp only [Bool.false_eq_true, if_false, List.cons_append, List.nil_append, allPairs, andThen]
          rcases search env tol ptol fuel a q acc with _ | _ | _ | _ <;> simp only
          rename_i acc1
          rcases search env tol ptol fuel b q acc1 with _ | _ | _ | _ <;> simp only
          exact ih _ hq'
        · simp only [Bool.false_eq_true, if_false, if_true, List.cons_append, List.nil_append, allPairs, andThen]
          rcases search env tol ptol fuel a q acc with _ | _ | _ | _ <;> simp only
          exact ih _ hq'
      · simp only [if_true, List.nil_append]
        exact ih _ hq'
  exact key _ _ (fun _ h => h)

/-! ### A line through a square -/

/-- The line from (1/2, 1/2, -1) to (1/2, 1/2, 1) over [0, 1]. -/
def demoLine : Curve ℚ := ⟨[⟨1 / 2, 1 / 2, -1, 1⟩, ⟨1 / 2, 1 / 2, 1, 1⟩], 1, [0, 0, 1, 1], false, 0, 1⟩

/-- The unit square in the plane z = 0. -/
def demoSquare : Surface ℚ := ⟨[[⟨0, 0, 0, 1⟩, ⟨0, 1, 0, 1⟩], [⟨1, 0, 0, 1⟩, ⟨1, 1, 0, 1⟩]], 1, 1, 2, 2, [0, 0, 1, 1], [0, 0, 1, 1], 0, 1, 0, 1⟩

/-- A Newton search that returns the given parameters, whatever the pieces; no degenerate intersections; the separability test answers as told. -/
def demoEnv (p : Option (ℚ × ℚ × ℚ)) (only : Bool) : Env ℚ := ⟨id, fun _ _ => .ok p, fun _ _ _ => .ok false, fun _ _ _ => .ok only⟩

example : csx (demoEnv (some (1 / 2, 1 / 2, 1 / 2)) true) 2 20 demoLine demoSquare (1 / 1000) = some (.ok [⟨false, ⟨1 / 2, 1 / 2, 0⟩, 1 / 2, 1 / 2, 1 / 2⟩]) := by
  decide +kernel

example : ValidCurve demoLine ∧ EqualWeights demoLine ∧ IntervalOk demoLine ∧ IsBezier demoLine ∧ ValidSurface demoSquare ∧ SurfIntervalOk demoSquare ∧
    IsBezierSurf demoSquare := by
  refine ⟨⟨by decide, by decide, by decide, by decide, ?_, by decide +kernel⟩, ⟨1, by decide +kernel, by decide +kernel⟩, by unfold IntervalOk; decide +kernel,
    by unfold IsBezier; decide +kernel, ⟨by decide, by decide +kernel, ⟨by decide, by decide, by decide, by decide, ?_, by decide +kernel⟩,
      ⟨by decide, by decide, by decide, by decide, ?_, by decide +kernel⟩⟩, by unfold SurfIntervalOk; decide +kernel, by unfold IsBezierSurf; decide +kernel⟩ <;>
    (unfold SortedKnots; decide +kernel)

example : (1 / 2000 : ℚ) ≤ 1 / 1000 * (demoLine.hi - demoLine.lo) / 2 ∧ demoSquare.u1 - demoSquare.u0 < (2001 : Nat) * (1 / 2000 : ℚ) := by decide +kernel

example : LookedAt (demoEnv (some (1 / 2, 1 / 2, 1 / 2)) true) (1 / 1000) (1 / 2000) demoLine demoSquare ∧
    demoLine.evaluate (1 / 2) = .ok ⟨1 / 2, 1 / 2, 0⟩ ∧ demoSquare.evaluate (1 / 2) (1 / 2) = .ok ⟨1 / 2, 1 / 2, 0⟩ := by
  refine ⟨⟨by decide +kernel, ⟨[⟨0, 0, 0, 1⟩, ⟨0, 1, 0, 1⟩, ⟨1, 0, 0, 1⟩, ⟨1, 1, 0, 1⟩], ?_⟩, by decide +kernel⟩, by decide +kernel, by decide +kernel⟩
  have key : (match Gjk.gjk (demoLine.cpts.map Vec4.toVec3) ([(⟨0, 0, 0, 1⟩ : Vec4 ℚ), ⟨0, 1, 0, 1⟩, ⟨1, 0, 0, 1⟩, ⟨1, 1, 0, 1⟩].map Vec4.toVec3) [] (some 0)
      (1 / 10 ^ 5) 25 with
    | .ok o => decide (o.closest = some 0)
    | _ => false) = true := by decide +kernel
  match h : Gjk.gjk (demoLine.cpts.map Vec4.toVec3) ([(⟨0, 0, 0, 1⟩ : Vec4 ℚ), ⟨0, 1, 0, 1⟩, ⟨1, 0, 0, 1⟩, ⟨1, 1, 0, 1⟩].map Vec4.toVec3) [] (some 0)
      (1 / 10 ^ 5) 25 with
  | .ok o =>
    rw [h] at key
    refine ⟨o, by decide +kernel, by decide +kernel, rfl, fun p hp => ?_⟩
    rw [of_decide_eq_true key] at hp
    cases hp
    decide +kernel
  | .throws => rw [h] at key; cases key
  | .ub => rw [h] at key; cases key

/-- The line from the centre of the square upwards: the Newton search finds the end. -/
example : csx (demoEnv (some (0, 1 / 2, 1 / 2)) true) 1 20 ⟨[⟨1 / 2, 1 / 2, 0, 1⟩, ⟨1 / 2, 1 / 2, 1, 1⟩], 1, [0, 0, 1, 1], false, 0, 1⟩ demoSquare (1 / 1000) = some .throws := by
  decide +kernel

example : csx (demoEnv none true) 2 20 demoLine demoSquare (1 / 2) = some (.ok []) := by decide +kernel

end Cmm.Csx
