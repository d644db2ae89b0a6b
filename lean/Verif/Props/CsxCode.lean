import Verif.Model.CsxCode
import Verif.Props.CsxComplete
import Verif.Props.Newton
import Verif.Props.NewtonQuadratic
import Verif.Props.CurveLength
import Verif.Props.FiniteDiff
/-!
C131: curve-surface intersection with its own Newton search, degeneracy test and separability test.
-/
namespace Cmm.Csx
open Cmm.Nurbs Cmm.Ccx Cmm.Gauss Cmm.Geom
variable {K : Type} [Field K] [LinearOrder K]

/-- The middle of the intervals: t, u and v. -/
def Centre (c : Curve K) (s : Surface K) (t u v : K) : Prop := t = (c.lo + c.hi) / 2 ∧ u = (s.u0 + s.u1) / 2 ∧ v = (s.v0 + s.v1) / 2

theorem csxCode_ok {env : Gauss.Env K} {tiny tol : K} {rounds fuel : Nat} {c : Curve K} {s : Surface K} {res : List (Hit K)}
    (h : csxCode env tiny rounds fuel c s tol = some (.ok res)) : ∃ l, c.fullLength env.sqrt = .ok l ∧
      csx (codeEnv env tiny rounds tol (tol * (c.hi - c.lo) / l)) l fuel c s tol = some (.ok res) := by
  obtain ⟨l, h1, h⟩ := andThen_ok h
  exact ⟨l, Option.some.inj h1, h⟩

/-- **C131**: every report of the program comes from a pair of pieces for which it is genuine. It is marked as degenerate exactly if the tangent of the
curve and the normal of the surface at the parameters have a dot product below the tolerance. It is the middle of the pieces, or the points at the
parameters are at most as far apart as the points in the middle of the pieces. -/
theorem C131_reports [IsStrictOrderedRing K] (env : Gauss.Env K) (hs : Newton.IsSqrt env.sqrt) (tiny : K) (ht : 0 < tiny) (rounds fuel : Nat) (c : Curve K)
    (s : Surface K) (tol : K) (res : List (Hit K)) (h : csxCode env tiny rounds fuel c s tol = some (.ok res)) :
    ∀ r ∈ res, ∃ c' s', Searched c s c' s' ∧ Genuine env.sqrt tol c' s' r ∧
      (∃ d n, c'.derivative r.t = .ok d ∧ s'.normal env.sqrt r.u r.v = .ok n ∧ (r.degenerate = true ↔ |d.dot n| < tol)) ∧
      (Centre c' s' r.t r.u r.v ∨ ∀ t u v P Q, Centre c' s' t u v → c'.evaluate t = .ok P → s'.evaluate u v = .ok Q →
        ∃ q, s'.evaluate r.u r.v = .ok q ∧ (r.point - q).sqLength ≤ (P - Q).sqLength) := by
  intro r hr
  obtain ⟨l, -, h⟩ := csxCode_ok h
  obtain ⟨c', s', hS, hg, hd, hn⟩ := C55_reports_genuine _ _ _ _ _ _ _ h r hr
  refine ⟨c', s', hS, hg, ?_, ?_⟩
  · obtain ⟨d, e1, hd⟩ := ok_of_bind hd
    obtain ⟨n, e2, hd⟩ := ok_of_bind hd
    refine ⟨d, n, e1, e2, ?_⟩
    rw [← Res.ok.inj hd, decide_eq_true_eq]
  · obtain ⟨-, -, -, hp, q, hq, -⟩ := hg
    change newtonCode _ _ _ _ _ _ = _ at hn
    unfold newtonCode at hn
    match hN : Newton.newtonsMethod env.sqrt tiny (equation c' s') (tol * (c.hi - c.lo) / l) rounds 15 (guess c' s') with
    | none => rw [hN] at hn; cases hn
    | some (x, n) =>
      rw [hN] at hn
      simp only [Res.ok.injEq, Option.some.injEq, Prod.mk.injEq] at hn
      obtain ⟨e0, e1, e2⟩ := hn
      obtain ⟨hu, -, -⟩ := Newton.C38_never_uphill env.sqrt hs tiny ht _ _ _ _ _ _ _ hN
      rcases hu with hu | hu
      · left
        subst hu
        unfold guess at e0 e1 e2
        simp only [Matrix.cons_val_zero, Matrix.cons_val_one, Matrix.cons_val] at e0 e1 e2
        unfold Centre
        rw [← e0, ← e1, ← e2]
        refine ⟨?_, ?_, ?_⟩ <;> ring
      · right
        rintro t u v P Q ⟨rfl, rfl, rfl⟩ hP hQ
        refine ⟨q, hq, ?_⟩
        have f1 : equation c' s' x = .fin (r.point - q).sqLength := by
          unfold equation
          rw [e0, e1, e2, hp, hq]
        have f2 : equation c' s' (guess c' s') = .fin (P - Q).sqLength := by
          unfold equation guess
          simp only [Matrix.cons_val_zero, Matrix.cons_val_one, Matrix.cons_val, mul_one_div]
          rw [hP, hQ]
        rw [f1, f2] at hu
        exact hu

variable [IsStrictOrderedRing K]

/-- **C131**: the Newton search of the program returns for every pair of pieces it can come to, for Bézier curves with equal weights and Bézier surfaces
with positive weights: there is no endless line search. `tiny` is the smallest number that is not rounded to zero and `n` the number of halvings of 1 that
reach it. -/
theorem C131_newton_returns (env : Gauss.Env K) (hs : Newton.IsSqrt env.sqrt) (tiny : K) (ht : 0 < tiny) (n : Nat) (hn : 1 ≤ tiny * 2 ^ n) (ptol : K)
    (c : Curve K) (s : Surface K) (V : ValidCurve c) (hw : EqualWeights c) (Ic : IntervalOk c) (Bc : IsBezier c) (S : PositivePatch s)
    (c' : Curve K) (s' : Surface K) (h : Searched c s c' s') : ∃ p, newtonCode env.sqrt tiny ptol (n + 2) c' s' = .ok (some p) := by
  have key : ∀ {c' : Curve K} {s' : Surface K}, Searched c s c' s' → CurvePiece c c' ∧ SurfPiece s s' ∧ SurfPositive s' := by
    intro c' s' h
    induction h with
    | self => exact ⟨⟨⟨V, hw, Ic, Bc⟩, le_refl _, le_refl _, fun _ _ _ => rfl⟩, SurfPiece.refl S.bez, S.positive⟩
    | part _ h1 h2 hx hy ih => exact ⟨ih.1.trans (ih.1.1.split h1 _ hx), ih.2.1.trans (ih.2.1.1.subdivide h2 _ hy), subdivide_pos ih.2.1.1 ih.2.2 h2 _ hy⟩
  obtain ⟨Pc, Ps, Ws⟩ := key h
  have hd : InDomain c' ((c'.lo + c'.hi) * (1 / 2)) := by
    have : c'.lo ≤ c'.hi := by
      rw [← Pc.1.dom.1, ← Pc.1.dom.2]
      exact ValidKnots.mono Pc.1.valid _ _ (by have := Pc.1.bezier.2; omega) (by have : c'.knots.length = c'.cpts.length + c'.degree + 1 := Pc.1.valid.len; omega)
    unfold InDomain
    rw [Pc.1.dom.1, Pc.1.dom.2]; constructor <;> linarith
  obtain ⟨w, hw0, hww⟩ := Pc.1.weights
  obtain ⟨i, r, -, -, -, -, he, -⟩ := C27_convex_combination c' Pc.1.valid (fun q hq => by rw [hww q hq]; exact hw0) _ hd
  obtain ⟨j, k, q, -, -, hq, -⟩ := C31_convex_combination s' Ps.1.valid Ws _ _ ((inside_dom Ps.1).1 (mid_inside Ps.1))
  have hf : equation c' s' (guess c' s') ≠ .nan := by
    unfold equation guess
    simp only [Matrix.cons_val_zero, Matrix.cons_val_one, Matrix.cons_val]
    rw [he, show (s'.u0 + s'.u1) * (1 / 2) = 1 / 2 * (s'.u1 + s'.u0) by ring, show (s'.v0 + s'.v1) * (1 / 2) = 1 / 2 * (s'.v1 + s'.v0) by ring, hq]
    simp
  have hR := Newton.C38_returns env.sqrt hs tiny ht (equation c' s') ptol n hn 15 (guess c' s') hf
  unfold newtonCode
  match hN : Newton.newtonsMethod env.sqrt tiny (equation c' s') ptol (n + 2) 15 (guess c' s') with
  | none => rw [hN] at hR; cases hR
  | some x => exact ⟨_, rfl⟩

/-! ### A straight segment through a parallelogram -/

/-- The segment from `A` to `A + D` over [0, 1]. -/
def segment (A D : Vec3 K) : Curve K := segmentCurve A (A + D) 1 0 1

/-- The parallelogram with the corner `B` and the sides `E` (along u) and `F` (along v), over the unit square. -/
def parallelogram (B E F : Vec3 K) : Surface K :=
  ⟨[[⟨B.x, B.y, B.z, 1⟩, ⟨B.x + F.x, B.y + F.y, B.z + F.z, 1⟩],
    [⟨B.x + E.x, B.y + E.y, B.z + E.z, 1⟩, ⟨B.x + E.x + F.x, B.y + E.y + F.y, B.z + E.z + F.z, 1⟩]], 1, 1, 2, 2, [0, 0, 1, 1], [0, 0, 1, 1], 0, 1, 0, 1⟩

theorem segment_eval (A D : Vec3 K) (t : K) : (segment A D).evaluate t = .ok (A + D.smul t) := by
  unfold segment
  rw [eval_equal (segmentCurve_valid A (A + D) 1 one_pos) (segmentCurve_equal A (A + D) one_pos 0 1) (segmentCurve_span A (A + D) 1 one_pos t)]
  simp only [segmentCurve, splineVal, basisFuns, basisInner, dotL, ix]
  simp
  ext <;> simp [Vec3.smul] <;> ring

theorem segment_deriv (A D : Vec3 K) (t : K) : (segment A D).derivative t = .ok D := by
  unfold segment
  rw [C74_derivative_partial _ (segmentCurve_valid A (A + D) 1 one_pos) (segmentCurve_equal A (A + D) one_pos 0 1) (by simp [segmentCurve]) 1 t
    (segmentCurve_span A (A + D) 1 one_pos t) _ _ _ (segmentCurve_poly A (A + D) one_pos one_pos)]
  congr 1
  ext <;> simp

theorem parallelogram_valid (B E F : Vec3 K) : ValidSurface (parallelogram B E F) := by
  have hk : ValidKnots 2 1 ([0, 0, 1, 1] : List K) :=
    ⟨by decide, by decide, by decide, rfl, by unfold SortedKnots; simp, by simp [ix]⟩
  exact ⟨rfl, by simp [parallelogram], hk, hk⟩

omit [IsStrictOrderedRing K] in
theorem parallelogram_unit (B E F : Vec3 K) : SurfUnit (parallelogram B E F) := by
  intro r hr q hq
  simp only [parallelogram, List.mem_cons, List.not_mem_nil, or_false] at hr
  rcases hr with rfl | rfl <;> (simp only [List.mem_cons, List.not_mem_nil, or_false] at hq; rcases hq with rfl | rfl <;> rfl)

theorem parallelogram_eval (B E F : Vec3 K) (u v : K) : (parallelogram B E F).evaluate u v = .ok (B + E.smul u + F.smul v) := by
  rw [surf_eval_span (parallelogram_valid B E F) (parallelogram_unit B E F) (flatPatch_span u) (flatPatch_span v)]
  simp [parallelogram, spline2, splineVal, basisFuns, basisInner, dotL, cell, ix]
  ext <;> simp [Vec3.smul] <;> ring

theorem parallelogram_normal (sqrt : K → K) (B E F : Vec3 K) (u v : K) :
    (parallelogram B E F).normal sqrt u v = .ok (Geom.unitize3 sqrt (E.cross F)) := by
  have h := fdStep_ne (K := K)
  have e1 : (parallelogram B E F).derivativeU u v = .ok E := by
    unfold Surface.derivativeU
    rw [parallelogram_eval, parallelogram_eval]
    simp only [Res.ok_bind, Res.ok.injEq]
    ext <;> simp [Vec3.sdiv, Vec3.smul] <;> field_simp <;> ring
  have e2 : (parallelogram B E F).derivativeV u v = .ok F := by
    unfold Surface.derivativeV
    rw [parallelogram_eval, parallelogram_eval]
    simp only [Res.ok_bind, Res.ok.injEq]
    ext <;> simp [Vec3.sdiv, Vec3.smul] <;> field_simp <;> ring
  unfold Surface.normal
  rw [e1, e2]
  rfl

/-- The columns of the linear part of the difference of the two points. -/
def columns (D E F : Vec3 K) : Fin 3 → Vec3 K := ![D, -E, -F]

theorem flat_equation (A D B E F : Vec3 K) : equation (segment A D) (parallelogram B E F) = fun x =>
    .fin (Newton.quadratic (fun i j => (columns D E F i).dot (columns D E F j)) (fun i => 2 * (A - B).dot (columns D E F i)) (A - B).sqLength x) := by
  funext x
  unfold equation
  rw [segment_eval, parallelogram_eval]
  simp only [Newton.Val.fin.injEq]
  simp [Newton.quadratic, Fin.sum_univ_three, columns, Vec3.sqLength, Vec3.dot, Vec3.smul]
  ring

theorem flat_rest {A D B E F : Vec3 K} {t u v : K} (h : A + D.smul t = B + E.smul u + F.smul v) (x : Newton.Vec 3 K) :
    (A + D.smul (x 0) - (B + E.smul (x 1) + F.smul (x 2))) = D.smul (x 0 - t) - E.smul (x 1 - u) - F.smul (x 2 - v) := by
  have hx := congrArg Vec3.x h
  have hy := congrArg Vec3.y h
  have hz := congrArg Vec3.z h
  simp [Vec3.smul] at hx hy hz
  ext <;> simp [Vec3.smul]
  · linear_combination hx
  · linear_combination hy
  · linear_combination hz

theorem sq_comb (a b c x y z : K) : (a * x - b * y - c * z) ^ 2 ≤ (a ^ 2 + b ^ 2 + c ^ 2) * (x ^ 2 + y ^ 2 + z ^ 2) := by
  nlinarith [sq_nonneg (a * y + b * x), sq_nonneg (a * z + c * x), sq_nonneg (b * z - c * y)]

theorem flat_dist (D E F : Vec3 K) (x y z : K) :
    (D.smul x - E.smul y - F.smul z).sqLength ≤ (D.sqLength + E.sqLength + F.sqLength) * (x ^ 2 + y ^ 2 + z ^ 2) := by
  have h1 := sq_comb D.x E.x F.x x y z
  have h2 := sq_comb D.y E.y F.y x y z
  have h3 := sq_comb D.z E.z F.z x y z
  simp only [Vec3.sqLength, Vec3.smul, Vec3.sub_x, Vec3.sub_y, Vec3.sub_z]
  nlinarith

theorem sqLength_pos (w : Vec3 K) : 0 ≤ w.sqLength := by
  simp only [Vec3.sqLength]
  nlinarith [sq_nonneg w.x, sq_nonneg w.y, sq_nonneg w.z]

theorem flat_curvature {D E F : Vec3 K} {lam : K} (hc : ∀ x y z : K, lam * (x ^ 2 + y ^ 2 + z ^ 2) ≤ 2 * (D.smul x - E.smul y - F.smul z).sqLength) :
    Newton.CurvatureAtLeast (fun i j => (columns D E F i).dot (columns D E F j)) lam := by
  intro x
  have := hc (x 0) (x 1) (x 2)
  simp [Fin.sum_univ_three, columns, Vec3.dot]
  simp [Vec3.sqLength, Vec3.smul] at this
  linarith

theorem flat_rest_point {A D B E F : Vec3 K} {t u v : K} (hx : A + D.smul t = B + E.smul u + F.smul v) (i : Fin 3) :
    Newton.gradAt (fun i j => (columns D E F i).dot (columns D E F j)) (fun i => 2 * (A - B).dot (columns D E F i)) ![t, u, v] i = 0 := by
  have e1 := congrArg Vec3.x hx
  have e2 := congrArg Vec3.y hx
  have e3 := congrArg Vec3.z hx
  simp [Vec3.smul] at e1 e2 e3
  fin_cases i
  · simp [Newton.gradAt, Fin.sum_univ_three, columns, Vec3.dot]
    linear_combination 2 * D.x * e1 + 2 * D.y * e2 + 2 * D.z * e3
  · simp [Newton.gradAt, Fin.sum_univ_three, columns, Vec3.dot]
    linear_combination - 2 * E.x * e1 - 2 * E.y * e2 - 2 * E.z * e3
  · simp [Newton.gradAt, Fin.sum_univ_three, columns, Vec3.dot]
    linear_combination - 2 * F.x * e1 - 2 * F.y * e2 - 2 * F.z * e3

theorem guess_near (A D B E F : Vec3 K) {t u v ρ : K} (h0 : 0 ≤ ρ) (ht : ρ ≤ t ∧ t ≤ 1 - ρ) (hu : ρ ≤ u ∧ u ≤ 1 - ρ) (hv : ρ ≤ v ∧ v ≤ 1 - ρ) :
    ∑ i, (guess (segment A D) (parallelogram B E F) i - (![t, u, v] : Newton.Vec 3 K) i) ^ 2 ≤ 1 := by
  have hsq : ∀ y : K, ρ ≤ y ∧ y ≤ 1 - ρ → ((0 + 1) * (1 / 2) - y) ^ 2 ≤ 1 / 4 := by
    rintro y ⟨h1, h2⟩
    nlinarith
  have a1 := hsq t ht
  have a2 := hsq u hu
  have a3 := hsq v hv
  rw [Fin.sum_univ_three]
  simp only [guess, Matrix.cons_val_zero, Matrix.cons_val_one, Matrix.cons_val]
  change ((0 + 1) * (1 / 2) - t) ^ 2 + ((0 + 1) * (1 / 2) - u) ^ 2 + ((0 + 1) * (1 / 2) - v) ^ 2 ≤ 1
  linarith

theorem sqrt_le {sqrt : K → K} (hs : Newton.IsSqrt sqrt) (h0 : sqrt 0 = 0) {x tol : K} (hx : 0 ≤ x) (ht : 0 ≤ tol) (h : x ≤ tol ^ 2) : sqrt x ≤ tol := by
  rcases hx.eq_or_lt with e | hx
  · rw [← e, h0]; exact ht
  · obtain ⟨h1, h2⟩ := hs x hx
    by_contra hc
    have := not_le.1 hc
    nlinarith

/-- The segment from `A` to `A + D` and the parallelogram at `B` with the sides `E` and `F` cross at the parameters `t`, `u`, `v`. The square of the
distance grows at least like `lam / 2` times the square of the parameters; with `ρ = 1e-6 / (lam + 1e-6)` the parameters are at least `ρ` from the ends and
`ρ` times the size of the pair is within the tolerance, which is at most half the length of the segment. -/
structure CleanCrossing (sqrt : K → K) (A D B E F : Vec3 K) (t u v lam ρ tol : K) : Prop where
  meets : A + D.smul t = B + E.smul u + F.smul v
  lam_nonneg : 0 ≤ lam
  parts : ∀ x y z : K, lam * (x ^ 2 + y ^ 2 + z ^ 2) ≤ 2 * (D.smul x - E.smul y - F.smul z).sqLength
  radius : ρ = (1 / 10 ^ 6) / (lam + 1 / 10 ^ 6)
  t_in : ρ ≤ t ∧ t ≤ 1 - ρ
  u_in : ρ ≤ u ∧ u ≤ 1 - ρ
  v_in : ρ ≤ v ∧ v ≤ 1 - ρ
  tol_nonneg : 0 ≤ tol
  close : (D.sqLength + E.sqLength + F.sqLength) * ρ ^ 2 ≤ tol ^ 2
  long : 2 * tol ≤ sqrt D.sqLength
  pos : 0 < D.sqLength

/-- **C131** (partial: a segment and a parallelogram): a clean crossing is found. There is a report `r` with parameters within `ρ` of the crossing and a
point within the tolerance of the parallelogram, marked as degenerate exactly if the dot product of `D` and the normal is below the tolerance; the answer of
every finished search begins with `r`. If `r` is within the parameter tolerance of the border of the parallelogram, the search finishes, and `r` is the whole
answer. -/
theorem C131_crossing_found_partial (env : Gauss.Env K) (hs : Newton.IsSqrt env.sqrt) (h0 : env.sqrt 0 = 0) (tiny : K) (rounds fuel : Nat)
    (A D B E F : Vec3 K) (t u v lam ρ tol : K) (H : CleanCrossing env.sqrt A D B E F t u v lam ρ tol) :
    ∃ r : Hit K, (r.t - t) ^ 2 + (r.u - u) ^ 2 + (r.v - v) ^ 2 ≤ ρ ^ 2 ∧ r.point = A + D.smul r.t ∧
      env.sqrt (r.point - (B + E.smul r.u + F.smul r.v)).sqLength ≤ tol ∧
      (r.degenerate = true ↔ |D.dot (Geom.unitize3 env.sqrt (E.cross F))| < tol) ∧
      (∀ res, csxCode env tiny (rounds + 1) (fuel + 1) (segment A D) (parallelogram B E F) tol = some (.ok res) → res.head? = some r) ∧
      (|r.u| < tol / env.sqrt D.sqLength ∨ |r.u - 1| < tol / env.sqrt D.sqLength ∨ |r.v| < tol / env.sqrt D.sqLength ∨
          |r.v - 1| < tol / env.sqrt D.sqLength →
        csxCode env tiny (rounds + 1) (fuel + 1) (segment A D) (parallelogram B E F) tol = some (.ok [r])) := by
  obtain ⟨hx, hl, hc, hρ, ht, hu, hv, htol, hd, hlen, hD⟩ := H
  obtain ⟨hL, hLL⟩ := hs _ hD
  have eL : (segment A D).fullLength env.sqrt = .ok (env.sqrt D.sqLength) :=
    (C76_segment hs h0 A (A + D) 1 one_pos 0 1 one_pos (env.sqrt D.sqLength) hL.le (by
      rw [hLL]; simp only [Vec3.sqLength, Vec3.add_x, Vec3.add_y, Vec3.add_z]; ring) 0 1 0 ⟨le_refl _, zero_le_one⟩ ⟨zero_le_one, le_refl _⟩).2.1
  have hr0 : 0 ≤ ρ := by rw [hρ]; positivity
  set L := env.sqrt D.sqLength
  have hlo : (segment A D).lo = 0 := rfl
  have hhi : (segment A D).hi = 1 := rfl
  have hp : tol * ((segment A D).hi - (segment A D).lo) / L ≤ 1 / 2 := by
    rw [hlo, hhi, div_le_iff₀ hL]; linarith
  have hptl : tol * ((segment A D).hi - (segment A D).lo) / L = tol / L := by rw [hlo, hhi, sub_zero, mul_one]
  have hcode : csxCode env tiny (rounds + 1) (fuel + 1) (segment A D) (parallelogram B E F) tol =
      search (codeEnv env tiny (rounds + 1) tol (tol / L)) tol (tol / L) (fuel + 1) (segment A D) (parallelogram B E F) [] := by
    unfold csxCode
    rw [eL]
    simp only [andThen]
    unfold csx computePtol
    rw [hptl]
  rw [hptl] at hp
  rw [hcode]
  set ptol := tol / L
  have V := segmentCurve_valid A (A + D) 1 (one_pos (α := K))
  have U : UnitWeights (segment A D) := by intro q hq; simp [segment, segmentCurve] at hq; rcases hq with rfl | rfl <;> rfl
  have S := parallelogram_valid B E F
  have W : SurfPositive (parallelogram B E F) := fun r hr q hq => by rw [parallelogram_unit B E F r hr q hq]; exact one_pos
  obtain ⟨pts, o, n1, n2, n3, n4⟩ := meeting_near (c := segment A D) V U S W (t := t) (u := u) (v := v)
    (by unfold InDomain; simp [segment, segmentCurve, ix]; constructor <;> linarith)
    (by unfold SurfInDomain; simp [parallelogram, ix]; refine ⟨⟨?_, ?_⟩, ?_, ?_⟩ <;> linarith)
    (segment_eval A D t) (by rw [parallelogram_eval, hx])
  have LA : LookedAt (codeEnv env tiny (rounds + 1) tol ptol) tol ptol (segment A D) (parallelogram B E F) := by
    refine ⟨?_, ⟨pts, o, n1, n2, n3, fun p hp => ?_⟩, ?_⟩
    · rw [hlo, hhi]
      have : (1 : K) / 2 ≤ |1 - 0| := by norm_num
      exact ⟨hp.trans this, hp.trans this, hp.trans this⟩
    · rw [n4] at hp
      cases hp
      have : (0 : Vec3 K).sqLength = 0 := by simp [Vec3.sqLength]
      rw [this]
      change env.sqrt 0 ≤ tol
      rw [h0]; exact htol
    · have a1 : (1 : K) / 2 ≤ |(0 + 1) / 2 - 0| := by rw [abs_of_nonneg] <;> norm_num
      have a2 : (1 : K) / 2 ≤ |(0 + 1) / 2 - 1| := by rw [abs_of_nonpos] <;> norm_num
      exact ⟨hp.trans a1, hp.trans a2, hp.trans a1, hp.trans a2⟩
  obtain ⟨x, n, hN, -, hn1, herr⟩ := Newton.C79_error_bound env.sqrt hs tiny _ _ (A - B).sqLength lam hl (flat_curvature hc) _ (flat_rest_point hx) ptol rounds 15
    (guess (segment A D) (parallelogram B E F))
  have hn1 := hn1 (by norm_num)
  rw [← hρ] at herr
  have hr1 : ρ ≤ 1 / 2 := by linarith [ht.1, ht.2]
  have hstart := guess_near A D B E F hr0 ht hu hv
  have hpow : ρ ^ (2 * n) ≤ ρ ^ 2 := pow_le_pow_of_le_one hr0 (by linarith) (by omega)
  have herr' : (x 0 - t) ^ 2 + (x 1 - u) ^ 2 + (x 2 - v) ^ 2 ≤ ρ ^ 2 := by
    rw [Fin.sum_univ_three (f := fun i => (x i - _) ^ 2)] at herr
    simp only [Matrix.cons_val_zero, Matrix.cons_val_one, Matrix.cons_val] at herr
    refine herr.trans ?_
    calc _ ≤ ρ ^ (2 * n) * 1 := mul_le_mul_of_nonneg_left hstart (by positivity)
      _ ≤ ρ ^ 2 := by rw [mul_one]; exact hpow
  have hin : ∀ y z : K, (y - z) ^ 2 ≤ ρ ^ 2 → ρ ≤ z ∧ z ≤ 1 - ρ → 0 ≤ y ∧ y ≤ 1 := by
    rintro y z h1 ⟨h2, h3⟩
    have := abs_le_of_sq_le_sq' h1 hr0
    constructor <;> linarith [this.1, this.2]
  have q0 := sq_nonneg (x 0 - t)
  have q1 := sq_nonneg (x 1 - u)
  have q2 := sq_nonneg (x 2 - v)
  have hnew : (codeEnv env tiny (rounds + 1) tol ptol).newton (segment A D) (parallelogram B E F) = .ok (some (x 0, x 1, x 2)) := by
    change newtonCode env.sqrt tiny ptol (rounds + 1) _ _ = _
    unfold newtonCode
    rw [flat_equation]
    rw [hN]
  have hdist : env.sqrt (A + D.smul (x 0) - (B + E.smul (x 1) + F.smul (x 2))).sqLength ≤ tol := by
    rw [flat_rest hx]
    have h1 := flat_dist D E F (x 0 - t) (x 1 - u) (x 2 - v)
    exact sqrt_le hs h0 (sqLength_pos _) htol (h1.trans ((mul_le_mul_of_nonneg_left herr'
      (add_nonneg (add_nonneg (sqLength_pos D) (sqLength_pos E)) (sqLength_pos F))).trans hd))
  have hdeg : (codeEnv env tiny (rounds + 1) tol ptol).isDegenerate (x 0, x 1, x 2) (segment A D) (parallelogram B E F) =
      .ok (decide (|D.dot (Geom.unitize3 env.sqrt (E.cross F))| < tol)) := by
    change degenerateCode env.sqrt tol _ _ _ = _
    unfold degenerateCode
    rw [segment_deriv, parallelogram_normal]
    rfl
  have b0 := hin (x 0) t (by linarith) ht
  have b1 := hin (x 1) u (by linarith) hu
  have b2 := hin (x 2) v (by linarith) hv
  refine ⟨⟨decide (|D.dot (Geom.unitize3 env.sqrt (E.cross F))| < tol), A + D.smul (x 0), x 0, x 1, x 2⟩, herr', rfl, hdist, by simp, fun res h => ?_,
    fun h => ?_⟩
  · exact C55_found_is_reported _ tol ptol fuel _ _ LA (x 0) (x 1) (x 2) _ _ hnew b0 b1 b2 (segment_eval A D _) (parallelogram_eval B E F _ _) hdist _ hdeg
      res h
  · refine C55_found_at_border_stops _ tol ptol fuel _ _ LA (x 0) (x 1) (x 2) _ _ hnew b0 b1 b2 (segment_eval A D _) (parallelogram_eval B E F _ _) hdist _
      hdeg [] ?_
    rw [show (parallelogram B E F).u0 = 0 from rfl, show (parallelogram B E F).v0 = 0 from rfl, sub_zero, sub_zero]
    exact h

/-- The hypotheses can be met: the upright segment through the unit square at (1/4, 1/2) with a coarse tolerance gives exactly one report, which is close to
the crossing and not degenerate. -/
example (env : Gauss.Env ℝ) (he : env.sqrt = Real.sqrt) (tiny : ℝ) : ∃ r : Hit ℝ,
    csxCode env tiny 1 1 (segment ⟨1 / 4, 1 / 2, -(1 / 2)⟩ ⟨0, 0, 1⟩) (parallelogram ⟨0, 0, 0⟩ ⟨1, 0, 0⟩ ⟨0, 1, 0⟩) (1 / 2) = some (.ok [r]) ∧
      (r.t - 1 / 2) ^ 2 + (r.u - 1 / 4) ^ 2 + (r.v - 1 / 2) ^ 2 ≤ (1 / 1000000) ^ 2 ∧ r.degenerate = false := by
  have hs : Newton.IsSqrt env.sqrt := by rw [he]; exact Geom.real_isSqrt
  have h1 : env.sqrt (⟨0, 0, 1⟩ : Vec3 ℝ).sqLength = 1 := by rw [he]; simp [Vec3.sqLength]
  have H : CleanCrossing env.sqrt (⟨1 / 4, 1 / 2, -(1 / 2)⟩ : Vec3 ℝ) ⟨0, 0, 1⟩ ⟨0, 0, 0⟩ ⟨1, 0, 0⟩ ⟨0, 1, 0⟩ (1 / 2) (1 / 4) (1 / 2) 2
      ((1 / 10 ^ 6) / (2 + 1 / 10 ^ 6)) (1 / 2) := by
    refine ⟨?_, by norm_num, fun x y z => ?_, rfl, ?_, ?_, ?_, by norm_num, ?_, ?_, ?_⟩
    · ext <;> simp [Vec3.smul]
    · simp [Vec3.sqLength, Vec3.smul]; nlinarith
    · norm_num
    · norm_num
    · norm_num
    · simp only [Vec3.sqLength]; norm_num
    · rw [h1]; norm_num
    · simp [Vec3.sqLength]
  obtain ⟨r, e1, -, -, e4, -, e6⟩ := C131_crossing_found_partial env hs (by rw [he]; exact Real.sqrt_zero) tiny 0 0 _ _ _ _ _ _ _ _ _ _ _ H
  have hsmall : (1 / 10 ^ 6 / (2 + 1 / 10 ^ 6) : ℝ) ≤ 1 / 1000000 := by norm_num
  have hpos : (0 : ℝ) ≤ 1 / 10 ^ 6 / (2 + 1 / 10 ^ 6) := by norm_num
  have e1' : (r.t - 1 / 2) ^ 2 + (r.u - 1 / 4) ^ 2 + (r.v - 1 / 2) ^ 2 ≤ (1 / 1000000 : ℝ) ^ 2 := e1.trans (pow_le_pow_left₀ hpos hsmall 2)
  refine ⟨r, e6 (Or.inl ?_), e1', ?_⟩
  · rw [h1]
    have : (r.u - 1 / 4) ^ 2 ≤ (1 / 1000000 : ℝ) ^ 2 := by nlinarith [sq_nonneg (r.t - 1 / 2), sq_nonneg (r.v - 1 / 2)]
    have := abs_le_of_sq_le_sq' this (by norm_num)
    rw [abs_lt]
    constructor <;> linarith [this.1, this.2]
  · rw [Bool.eq_false_iff]
    intro h
    have := e4.1 h
    rw [he] at this
    simp [Geom.unitize3, Vec3.cross, Vec3.dot, Vec3.sqLength] at this
    norm_num at this

/-- The hypotheses of `C131_newton_returns` for every segment and parallelogram, with the smallest number of the type `double`. -/
example (env : Gauss.Env ℝ) (he : env.sqrt = Real.sqrt) (A D B E F : Vec3 ℝ) (ptol : ℝ) :
    ∃ p, newtonCode env.sqrt (1 / 2 ^ 1074) ptol 1076 (segment A D) (parallelogram B E F) = .ok (some p) := by
  refine C131_newton_returns env (by rw [he]; exact Geom.real_isSqrt) _ (by positivity) 1074 (by rw [one_div, inv_mul_cancel₀ (by positivity)]) ptol _ _
    (segmentCurve_valid A (A + D) 1 one_pos) (segmentCurve_equal A (A + D) one_pos 0 1) ?_ ?_ ⟨parallelogram_valid B E F, ?_, ?_, ?_⟩ _ _ Searched.self
  · unfold IntervalOk Curve.updateInterval
    simp [segmentCurve, minElement, maxElement, bind, Res.bind, not_lt.2 (zero_le_one (α := ℝ))]
  · exact ⟨rfl, rfl⟩
  · unfold SurfIntervalOk; rfl
  · exact ⟨rfl, rfl, rfl, rfl⟩
  · intro r hr q hq
    rw [parallelogram_unit B E F r hr q hq]; exact one_pos

/-! ### The tolerance for parameters of the curve is also used for those of the surface -/

omit [IsStrictOrderedRing K] in
/-- **C131**: nothing is reported if one of the parameter intervals of the surface is shorter than the tolerance for parameters, which is computed from the curve alone: tolerance times interval of the
curve divided by length of the curve. -/
theorem C131_short_domain (env : Gauss.Env K) (tiny : K) (rounds fuel : Nat) (c : Curve K) (s : Surface K) (tol l : K) (hl : c.fullLength env.sqrt = .ok l)
    (h : |s.u1 - s.u0| < tol * (c.hi - c.lo) / l ∨ |s.v1 - s.v0| < tol * (c.hi - c.lo) / l) : csxCode env tiny rounds (fuel + 1) c s tol = some (.ok []) := by
  unfold csxCode
  rw [hl]
  simp only [andThen]
  unfold csx computePtol search
  rw [if_pos]
  unfold tooSmall
  rcases h with h | h <;> simp [h]

/-- The unit square over the parameters [0, w] × [0, w]. -/
def smallSquare (w : K) : Surface K := ⟨[[⟨0, 0, 0, 1⟩, ⟨0, 1, 0, 1⟩], [⟨1, 0, 0, 1⟩, ⟨1, 1, 0, 1⟩]], 1, 1, 2, 2, [0, 0, w, w], [0, 0, w, w], 0, w, 0, w⟩

theorem smallSquare_valid {w : K} (hw : 0 < w) : ValidSurface (smallSquare w) := by
  have hk : ValidKnots 2 1 ([0, 0, w, w] : List K) :=
    ⟨by decide, by decide, by decide, rfl, by unfold SortedKnots; simp [hw.le], by simpa [ix] using hw⟩
  exact ⟨rfl, by simp [smallSquare], hk, hk⟩

omit [IsStrictOrderedRing K] in
theorem smallSquare_unit (w : K) : SurfUnit (smallSquare w) := by
  intro r hr q hq
  simp only [smallSquare, List.mem_cons, List.not_mem_nil, or_false] at hr
  rcases hr with rfl | rfl <;> (simp only [List.mem_cons, List.not_mem_nil, or_false] at hq; rcases hq with rfl | rfl <;> rfl)

theorem smallSquare_eval {w : K} (hw : 0 < w) (u v : K) : (smallSquare w).evaluate u v = .ok ⟨u / w, v / w, 0⟩ := by
  have hs : ∀ t : K, SpanIn 2 1 ([0, 0, w, w] : List K) 1 t := fun t => ⟨by omega, by omega, by simpa [ix] using hw, .inl rfl, .inl rfl⟩
  have h0 := hw.ne'
  rw [surf_eval_span (smallSquare_valid hw) (smallSquare_unit w) (hs u) (hs v)]
  simp [smallSquare, spline2, splineVal, basisFuns, basisInner, dotL, cell, ix]
  constructor <;> field_simp <;> ring

/-- **C131**: a clean crossing is missed, for every tolerance: an upright segment of length one through the unit square, which is parametrised over [0, tol / 2]. The points at the
parameters (1/2, tol / 8, tol / 4) agree, the segment is perpendicular to the square, and the answer is empty. -/
theorem C131_short_domain_counterexample (env : Gauss.Env K) (hs : Newton.IsSqrt env.sqrt) (h0 : env.sqrt 0 = 0) (tiny : K) (rounds fuel : Nat) (tol : K) (ht : 0 < tol) :
    ∃ (c : Curve K) (s : Surface K) (t u v : K) (P : Vec3 K), (ValidCurve c ∧ UnitWeights c) ∧ (ValidSurface s ∧ SurfUnit s) ∧
      (∀ t, c.evaluate t = .ok ⟨1 / 4, 1 / 2, t - 1 / 2⟩) ∧ (∀ x y, s.evaluate (s.u1 * x) (s.v1 * y) = .ok ⟨x, y, 0⟩) ∧
      InDomain c t ∧ SurfInDomain s u v ∧ c.evaluate t = .ok P ∧ s.evaluate u v = .ok P ∧ csxCode env tiny rounds (fuel + 1) c s tol = some (.ok []) := by
  have hw : 0 < tol / 2 := by linarith
  have ec : ∀ t, (segment (⟨1 / 4, 1 / 2, -(1 / 2)⟩ : Vec3 K) ⟨0, 0, 1⟩).evaluate t = .ok ⟨1 / 4, 1 / 2, t - 1 / 2⟩ := by
    intro t
    rw [segment_eval]
    congr 1
    ext <;> simp [Vec3.smul]
    ring
  refine ⟨segment ⟨1 / 4, 1 / 2, -(1 / 2)⟩ ⟨0, 0, 1⟩, smallSquare (tol / 2), 1 / 2, tol / 8, tol / 4, ⟨1 / 4, 1 / 2, 0⟩,
    ⟨segmentCurve_valid _ _ 1 one_pos, ?_⟩, ⟨smallSquare_valid hw, smallSquare_unit _⟩, ec, fun x y => ?_, ?_, ?_, ?_, ?_, ?_⟩
  · intro q hq; simp [segment, segmentCurve] at hq; rcases hq with rfl | rfl <;> rfl
  · rw [smallSquare_eval hw]
    have : tol ≠ 0 := ht.ne'
    simp only [smallSquare]
    congr 2 <;> field_simp
  · unfold InDomain; simp [segment, segmentCurve, ix]; norm_num
  · unfold SurfInDomain; simp [smallSquare, ix]; refine ⟨⟨?_, ?_⟩, ?_, ?_⟩ <;> linarith
  · rw [ec]; norm_num
  · rw [smallSquare_eval hw]
    have : tol ≠ 0 := ht.ne'
    congr 2 <;> field_simp <;> norm_num
  · have eL : (segment (⟨1 / 4, 1 / 2, -(1 / 2)⟩ : Vec3 K) ⟨0, 0, 1⟩).fullLength env.sqrt = .ok 1 :=
      (C76_segment hs h0 _ _ 1 one_pos 0 1 one_pos 1 zero_le_one (by simp) 0 1 0 ⟨le_refl _, zero_le_one⟩ ⟨zero_le_one, le_refl _⟩).2.1
    refine C131_short_domain env tiny rounds fuel _ _ tol 1 eL (.inl ?_)
    rw [show (segment (⟨1 / 4, 1 / 2, -(1 / 2)⟩ : Vec3 K) ⟨0, 0, 1⟩).hi = 1 from rfl, show (segment (⟨1 / 4, 1 / 2, -(1 / 2)⟩ : Vec3 K) ⟨0, 0, 1⟩).lo = 0 from rfl,
      show (smallSquare (tol / 2)).u1 = tol / 2 from rfl, show (smallSquare (tol / 2)).u0 = 0 from rfl, abs_of_pos (by linarith)]
    linarith

end Cmm.Csx
