import Verif.Spec.Ssx
import Verif.Spec.Newton
import Verif.Props.Matrix
import Verif.Props.Plane
import Mathlib.Tactic.Linarith
import Mathlib.Tactic.LinearCombination
/-!
Properties of cmmcore/ssx.h `improve_uv` (C59) and cmmcore/point_inversion.h (C73).
-/
namespace Cmm.Ssx
open Cmm.Mat
variable {K : Type} [Field K] [LinearOrder K] [IsStrictOrderedRing K]

/-! ### C59 -/

omit [IsStrictOrderedRing K] in
/-- **C59 is violated**: `improve_uv` returns false for all tangents and displacements. -/
theorem C59_always_false (tiny eps : K) (h : 0 ≤ tiny) (du dv delta : Vec3 K) : improveUv tiny eps du dv delta = none := by
  have h0 : ¬ tiny < (M2.zero : M2 K).det := by simp [M2.zero, M2.det, h]
  simp [improveUv, chooseAndSolve, M2.ofBraces, List.zipIdx, pick, h0]

/-- C59, the violation spelled out: independent tangents with a solvable system for which the answer is false. -/
theorem C59_counterexample : ∃ (du dv delta : Vec3 ℚ) (tiny eps : ℚ) (x : ℚ × ℚ), 0 < tiny ∧ 0 < eps ∧ du.x * dv.y - dv.x * du.y = 1 ∧
    delta = du.smul x.1 + dv.smul x.2 ∧ improveUv tiny eps du dv delta = none :=
  ⟨⟨1, 0, 0⟩, ⟨0, 1, 0⟩, ⟨2, 3, 0⟩, 1 / 1000, 1 / 1000, (2, 3), by decide +kernel, by decide +kernel, by decide +kernel, by decide +kernel,
    by decide +kernel⟩

omit [IsStrictOrderedRing K] in
theorem foldl_pick (l : List (M2 K × Nat)) : ∀ b : K × Option Nat,
    let r := l.foldl pick b
    b.1 ≤ r.1 ∧ (∀ m ∈ l, m.1.det ≤ r.1) ∧ (r = b ∨ b.1 < r.1 ∧ ∃ m ∈ l, r = (m.1.det, some m.2)) := by
  induction l with
  | nil => intro b; exact ⟨le_refl _, by simp, Or.inl rfl⟩
  | cons m l ih =>
    intro b
    obtain ⟨h1, h2, h3⟩ := ih (pick b m)
    simp only [List.foldl_cons]
    have hp : b.1 ≤ (pick b m).1 ∧ m.1.det ≤ (pick b m).1 := by
      unfold pick; split
      · exact ⟨le_of_lt (by assumption), le_refl _⟩
      · exact ⟨le_refl _, not_lt.1 (by assumption)⟩
    refine ⟨le_trans hp.1 h1, ?_, ?_⟩
    · intro x hx
      rcases List.mem_cons.1 hx with rfl | hx
      · exact le_trans hp.2 h1
      · exact h2 x hx
    · rcases h3 with h3 | ⟨h3, x, hx, e⟩
      · rw [h3]
        unfold pick
        split
        · rename_i hlt
          exact Or.inr ⟨hlt, m, List.mem_cons_self, rfl⟩
        · exact Or.inl rfl
      · exact Or.inr ⟨lt_of_le_of_lt hp.1 h3, x, List.mem_cons_of_mem _ hx, e⟩

omit [IsStrictOrderedRing K] in
/-- **C59, partial** (the selection and solution alone, for matrices that do hold the tangents): a returned pair solves the system of a largest
determinant, which exceeds `tiny` and `eps`; the answer is false exactly if no determinant exceeds `tiny` or the largest is within `eps` of zero.
Missing: `improve_uv` itself never gets such matrices. -/
theorem C59_choose_partial (tiny eps : K) (mats : List (M2 K)) (ys : List (K × K)) (hl : mats.length = ys.length) (h0 : 0 ≤ tiny) :
    (∀ x, chooseAndSolve tiny eps mats ys = some x → ∃ (n : Nat) (m : M2 K) (y : K × K), mats[n]? = some m ∧ ys[n]? = some y ∧ m.a * x.1 + m.b * x.2 = y.1 ∧
      m.c * x.1 + m.d * x.2 = y.2 ∧ tiny < m.det ∧ eps < |m.det| ∧ ∀ m' ∈ mats, m'.det ≤ m.det) ∧
    (chooseAndSolve tiny eps mats ys = none ↔ ∀ m ∈ mats, m.det ≤ tiny ∨ ∃ m' ∈ mats, m.det ≤ m'.det ∧ |m'.det| ≤ eps ∧ ∀ m'' ∈ mats, m''.det ≤ m'.det) := by
  obtain ⟨h1, h2, h3⟩ := foldl_pick mats.zipIdx (tiny, none)
  have h2' : ∀ m ∈ mats, m.det ≤ (mats.zipIdx.foldl pick (tiny, none)).1 := by
    intro m hm
    obtain ⟨i, hi, rfl⟩ := List.mem_iff_getElem.1 hm
    exact h2 (mats[i], i) (by rw [List.mem_zipIdx_iff_getElem?]; simp [hi])
  unfold chooseAndSolve
  rcases h3 with h3 | ⟨h3, ⟨m, n⟩, hm, e⟩
  · rw [h3] at h2' ⊢
    exact ⟨fun x hx => by simp at hx, ⟨fun _ m hm => Or.inl (h2' m hm), fun _ => rfl⟩⟩
  · rw [List.mem_zipIdx_iff_getElem?] at hm
    simp only at hm
    have hnl : n < ys.length := by rw [← hl]; exact (List.getElem?_eq_some_iff.1 hm).1
    have hy : ys[n]? = some ys[n] := by simp [hnl]
    rw [e] at h1 h2' h3 ⊢
    simp only [hm, hy] at h1 h2' h3 ⊢
    have hmem : m ∈ mats := List.mem_of_getElem? hm
    have hne : m.det ≠ 0 := ne_of_gt (lt_of_le_of_lt h0 h3)
    by_cases hq : |m.det| ≤ eps
    · rw [if_pos hq]
      refine ⟨fun x hx => by simp at hx, ⟨fun _ m' hm' => Or.inr ⟨m, hmem, h2' _ hm', hq, h2'⟩, fun _ => rfl⟩⟩
    · rw [if_neg hq]
      refine ⟨?_, ?_⟩
      · intro x hx
        rw [← Option.some.inj hx]
        refine ⟨n, m, _, hm, hy, ?_, ?_, h3, not_le.1 hq, h2'⟩
        · have : m.det = m.a * m.d - m.b * m.c := rfl
          rw [mul_div_assoc', mul_div_assoc', ← add_div, div_eq_iff hne, this]; ring
        · have : m.det = m.a * m.d - m.b * m.c := rfl
          rw [mul_div_assoc', mul_div_assoc', ← add_div, div_eq_iff hne, this]; ring
      · constructor
        · intro h; simp at h
        · intro h
          exfalso
          rcases h m hmem with h | ⟨m', hm', a, b, c⟩
          · exact absurd h3 (not_lt.2 h)
          · exact hq (by rw [le_antisymm a (h2' m' hm')]; exact b)

omit [IsStrictOrderedRing K] in
/-- **C59, partial**: with the tangent systems the pair is the combination of the tangents that gives the displacement, if there is one. Missing: as
`C59_choose_partial`. -/
theorem C59_tangent_partial (tiny eps : K) (h0 : 0 ≤ tiny) (du dv : Vec3 K) (a b : K) (x : K × K)
    (h : chooseAndSolve tiny eps (tangentMats du dv) (rhs (du.smul a + dv.smul b)) = some x) : x = (a, b) := by
  obtain ⟨n, m, y, hm, hy, e1, e2, hd, -, -⟩ := (C59_choose_partial tiny eps (tangentMats du dv) (rhs (du.smul a + dv.smul b)) rfl h0).1 x h
  have hne : m.a * m.d - m.b * m.c ≠ 0 := ne_of_gt (lt_of_le_of_lt h0 hd)
  have key : m.a * a + m.b * b = y.1 ∧ m.c * a + m.d * b = y.2 := by
    match n, hm, hy with
    | 0, hm, hy =>
      rw [← Option.some.inj hm, ← Option.some.inj hy]; simp [mul_comm]
    | 1, hm, hy =>
      rw [← Option.some.inj hm, ← Option.some.inj hy]; simp [mul_comm]
    | 2, hm, hy =>
      rw [← Option.some.inj hm, ← Option.some.inj hy]; simp [mul_comm]
    | n + 3, hm, hy => simp [tangentMats] at hm
  have s1 := (C35_solve_unique m y hne x).2 ⟨e1, e2⟩
  have s2 := (C35_solve_unique m y hne (a, b)).2 key
  rw [s1] at s2
  exact Option.some.inj s2

example : chooseAndSolve (1 / 1000 : ℚ) (1 / 1000) (tangentMats ⟨1, 1, 0⟩ ⟨0, 1, 2⟩) (rhs ((⟨1, 1, 0⟩ : Vec3 ℚ).smul 3 + (⟨0, 1, 2⟩ : Vec3 ℚ).smul 5)) =
    some (3, 5) := by decide +kernel
example : chooseAndSolve (1 / 1000 : ℚ) (1 / 1000) (tangentMats ⟨1, 0, 0⟩ ⟨1, 0, 0⟩) (rhs ⟨1, 1, 1⟩) = none := by decide +kernel

/-- **C59 would fail even with the matrices in place**: the determinants are compared without absolute value, so tangents in negative
orientation are refused. -/
theorem C59_orientation_counterexample : ∃ (du dv : Vec3 ℚ) (tiny eps : ℚ), 0 < tiny ∧ 0 < eps ∧ du.x * dv.y - dv.x * du.y = -1 ∧
    ∀ delta, chooseAndSolve tiny eps (tangentMats du dv) (rhs delta) = none := by
  refine ⟨⟨0, 1, 0⟩, ⟨1, 0, 0⟩, 1 / 1000, 1 / 1000, by decide +kernel, by decide +kernel, by decide +kernel, fun delta => ?_⟩
  rw [(C59_choose_partial _ _ _ _ rfl (by norm_num)).2]
  intro m hm
  left
  simp only [tangentMats, List.mem_cons, List.not_mem_nil, or_false] at hm
  rcases hm with rfl | rfl | rfl <;> norm_num [M2.det]

omit [IsStrictOrderedRing K] in
/-- C59, consequence: `improve_uv_robust` is the point inversion from the old parameters; the tangents and the old point have no effect. -/
theorem C59_robust_ignores_tangents (sqrt : K → K) (tiny eps : K) (F : SurfFns K) (uvOld : K × K) (du dv du' dv' x x' xyzNew : Vec3 K) (tol : K)
    (maxIter : Nat) :
    improveUvRobust sqrt tiny eps F uvOld du dv x xyzNew tol maxIter = improveUvRobust sqrt tiny eps F uvOld du' dv' x' xyzNew tol maxIter ∧
    improveUvRobust sqrt tiny eps F uvOld du dv x xyzNew tol maxIter = invertSurf sqrt eps F xyzNew tol tol maxIter uvOld := ⟨rfl, rfl⟩

/-! ### C73 -/

theorem solveArr_some {eps : K} (he : 0 < eps) {m : M2 K} {y x : K × K} (h : solveArr eps m y = some x) :
    eps ≤ |m.a * m.d - m.b * m.c| ∧ m.a * x.1 + m.b * x.2 = y.1 ∧ m.c * x.1 + m.d * x.2 = y.2 := by
  unfold solveArr at h
  dsimp only at h
  split at h
  · cases h
  · rename_i hd
    have hd := not_lt.1 hd
    have hne : m.a * m.d - m.b * m.c ≠ 0 := fun e => by rw [e, abs_zero] at hd; exact absurd he (not_lt.2 hd)
    refine ⟨hd, ?_, ?_⟩
    · rw [← Option.some.inj h]
      simp only
      rw [mul_div_assoc', mul_div_assoc', ← add_div, div_eq_iff hne]; ring
    · rw [← Option.some.inj h]
      simp only
      rw [mul_div_assoc', mul_div_assoc', ← add_div, div_eq_iff hne]; ring

theorem gaussStep_of {eps : K} (he : 0 < eps) {F : SurfFns K} {P s du dv : Vec3 K} {uv d : K × K} (h1 : F.pt uv.1 uv.2 = .ok s)
    (h2 : F.du uv.1 uv.2 = .ok du) (h3 : F.dv uv.1 uv.2 = .ok dv)
    (h : solveArr eps ⟨du.dot du, du.dot dv, dv.dot du, dv.dot dv⟩ (du.dot (s - P), dv.dot (s - P)) = some d) :
    GaussStep F P uv (uv.1 - d.1, uv.2 - d.2) := by
  obtain ⟨-, e1, e2⟩ := solveArr_some he h
  refine ⟨s, du, dv, h1, h2, h3, ?_, ?_⟩
  · simp only [Vec3.dot, Vec3.sub_x, Vec3.sub_y, Vec3.sub_z, Vec3.add_x, Vec3.add_y, Vec3.add_z, Vec3.smul] at e1 ⊢
    linear_combination -e1
  · simp only [Vec3.dot, Vec3.sub_x, Vec3.sub_y, Vec3.sub_z, Vec3.add_x, Vec3.add_y, Vec3.add_z, Vec3.smul] at e2 ⊢
    linear_combination -e2

/-- The tests that end `point_inversion_surface` at `uv`, with the next iterate `uv'`. -/
def SurfStops (sqrt : K → K) (F : SurfFns K) (P : Vec3 K) (tol1 tol2 : K) (uv uv' : K × K) : Prop :=
  (∃ du dv, F.du uv.1 uv.2 = .ok du ∧ F.dv uv.1 uv.2 = .ok dv ∧
    (uv'.1 - uv.1) * sqrt (du.dot du) + (uv'.2 - uv.2) * sqrt (dv.dot dv) ≤ tol1) ∨
  (∃ s, F.pt uv'.1 uv'.2 = .ok s ∧ (sqrt ((s - P).dot (s - P)) ≤ tol1 ∨ ∃ du, F.du uv'.1 uv'.2 = .ok du ∧
    sqrt (du.dot du) * sqrt ((s - P).dot (s - P)) ≠ 0 ∧ |du.dot (s - P)| / (sqrt (du.dot du) * sqrt ((s - P).dot (s - P))) ≤ tol2))

omit [LinearOrder K] [IsStrictOrderedRing K] in
theorem bind_ok {A B : Type} {x : Res A} {f : A → Res B} {b : B} (h : (x >>= f) = .ok b) : ∃ a, x = .ok a ∧ f a = .ok b := by
  cases x with
  | ok a => exact ⟨a, rfl, h⟩
  | throws => cases h
  | ub => cases h

/-- **C73, partial**: a result of `point_inversion_surface` is reached from the start by Gauss-Newton steps, at most `maxIter`; if it is fewer, the
step after it meets a stopping test. Missing: the result is the iterate BEFORE the one that passed the test, and the first test has no absolute
value (`C73_plane_never_moves`). -/
theorem C73_surface_partial (sqrt : K → K) (eps : K) (he : 0 < eps) (F : SurfFns K) (P : Vec3 K) (tol1 tol2 : K) (n : Nat) (uv r : K × K)
    (h : invertSurf sqrt eps F P tol1 tol2 n uv = .ok r) :
    ∃ k ≤ n, Chain (GaussStep F P) k uv r ∧ (k = n ∨ ∃ r', GaussStep F P r r' ∧ SurfStops sqrt F P tol1 tol2 r r') := by
  induction n generalizing uv with
  | zero => rw [← Res.ok.inj h]; exact ⟨0, le_refl _, .zero _, Or.inl rfl⟩
  | succ n ih =>
    unfold invertSurf at h
    obtain ⟨s, h1, h⟩ := bind_ok h
    obtain ⟨du, h2, h⟩ := bind_ok h
    obtain ⟨dv, h3, h⟩ := bind_ok h
    split at h
    · cases h
    · rename_i d hd
      have hg := gaussStep_of he h1 h2 h3 hd
      dsimp only at h
      split at h
      · rename_i ht
        rw [← Res.ok.inj h]
        exact ⟨0, Nat.zero_le _, .zero _, Or.inr ⟨_, hg, Or.inl ⟨du, dv, h2, h3, ht⟩⟩⟩
      · obtain ⟨s1, h4, h⟩ := bind_ok h
        split at h
        · rename_i ht
          rw [← Res.ok.inj h]
          exact ⟨0, Nat.zero_le _, .zero _, Or.inr ⟨_, hg, Or.inr ⟨s1, h4, Or.inl ht⟩⟩⟩
        · obtain ⟨du1, h5, h⟩ := bind_ok h
          split at h
          · rename_i ht
            rw [← Res.ok.inj h]
            unfold divLe at ht
            split at ht
            · cases ht
            · rename_i hz
              exact ⟨0, Nat.zero_le _, .zero _, Or.inr ⟨_, hg, Or.inr ⟨s1, h4, Or.inr ⟨du1, h5, hz, of_decide_eq_true ht⟩⟩⟩⟩
          · obtain ⟨k, hk, hc, hs⟩ := ih _ h
            refine ⟨k + 1, by omega, .succ hg hc, ?_⟩
            rcases hs with hs | hs
            · exact Or.inl (by omega)
            · exact Or.inr hs

omit [IsStrictOrderedRing K] in
/-- C73: `point_inversion_surface` throws when the Gram determinant of the tangents at the start is below `eps` in absolute value. -/
theorem C73_singular_throws (sqrt : K → K) (eps : K) (F : SurfFns K) (P s du dv : Vec3 K) (tol1 tol2 : K) (n : Nat) (uv : K × K)
    (h1 : F.pt uv.1 uv.2 = .ok s) (h2 : F.du uv.1 uv.2 = .ok du) (h3 : F.dv uv.1 uv.2 = .ok dv)
    (hd : |du.dot du * dv.dot dv - du.dot dv * dv.dot du| < eps) : invertSurf sqrt eps F P tol1 tol2 (n + 1) uv = .throws := by
  unfold invertSurf
  rw [h1, Res.ok_bind, h2, Res.ok_bind, h3, Res.ok_bind]
  simp only [solveArr, if_pos hd]

theorem sqLength_pos {a : Vec3 K} (h : a.dot a ≠ 0) : 0 < a.dot a :=
  lt_of_le_of_ne (by simp only [Vec3.dot]; nlinarith [mul_self_nonneg a.x, mul_self_nonneg a.y, mul_self_nonneg a.z]) (Ne.symm h)

/-- **C73 is violated on every plane**: wherever the point is, `point_inversion_surface` returns the start parameters. (The first step lands on
the foot point, which passes the perpendicularity or the distance test, and the function then returns the parameters it came from.) -/
theorem C73_plane_never_moves (sqrt : K → K) (hs : Newton.IsSqrt sqrt) (hs0 : sqrt 0 = 0) (eps : K) (he : 0 < eps) (o a b P : Vec3 K)
    (tol1 tol2 : K) (h1 : 0 ≤ tol1) (h2 : 0 ≤ tol2) (hd : eps ≤ |a.dot a * b.dot b - a.dot b * b.dot a|) (n : Nat) (uv : K × K) :
    invertSurf sqrt eps (plane o a b) P tol1 tol2 n uv = .ok uv := by
  cases n with
  | zero => rfl
  | succ n =>
    unfold invertSurf
    simp only [plane, Res.ok_bind]
    have ha : a.dot a ≠ 0 := by
      intro e
      have : a.x = 0 ∧ a.y = 0 ∧ a.z = 0 := by
        simp only [Vec3.dot] at e
        refine ⟨?_, ?_, ?_⟩ <;> nlinarith [sq_nonneg a.x, sq_nonneg a.y, sq_nonneg a.z]
      rw [e] at hd
      simp only [Vec3.dot, this.1, this.2.1, this.2.2] at hd
      simp at hd
      exact absurd he (not_lt.2 hd)
    have hap : 0 < sqrt a.sqLength := (hs _ (sqLength_pos ha)).1
    cases hd' : solveArr eps ⟨a.dot a, a.dot b, b.dot a, b.dot b⟩ (a.dot (o + a.smul uv.1 + b.smul uv.2 - P), b.dot (o + a.smul uv.1 + b.smul uv.2 - P)) with
    | none =>
      simp only [solveArr, if_neg (not_lt.2 hd)] at hd'
      cases hd'
    | some d =>
      dsimp only
      obtain ⟨-, e1, e2⟩ := solveArr_some he hd'
      split
      · rfl
      · split
        · rfl
        · rename_i hdist
          rw [if_pos]
          have hperp : a.dot (o + a.smul (uv.1 - d.1) + b.smul (uv.2 - d.2) - P) = 0 := by
            simp only [Vec3.dot, Vec3.sub_x, Vec3.sub_y, Vec3.sub_z, Vec3.add_x, Vec3.add_y, Vec3.add_z, Vec3.smul] at e1 ⊢
            linear_combination -e1
          rw [hperp, abs_zero]
          unfold divLe
          have hp : (o + a.smul (uv.1 - d.1) + b.smul (uv.2 - d.2) - P).sqLength ≠ 0 := by
            intro e; rw [e, hs0] at hdist; exact hdist h1
          have hp' : 0 < sqrt (_ : Vec3 K).sqLength := (hs _ (sqLength_pos hp)).1
          rw [if_neg (ne_of_gt (mul_pos hap hp')), zero_div]
          exact decide_eq_true h2

/-- C73, witness of the violation: the point lies on the plane at parameters (3, 4), the answer is the start (0, 0). -/
theorem C73_surface_counterexample : ∃ (F : SurfFns ℝ) (P : Vec3 ℝ), F.pt 3 4 = .ok P ∧ F.pt 0 0 ≠ .ok P ∧
    invertSurf Real.sqrt (1 / 1000) F P (1 / 1000) (1 / 1000) 100 (0, 0) = .ok (0, 0) := by
  refine ⟨plane ⟨0, 0, 0⟩ ⟨1, 0, 0⟩ ⟨0, 1, 0⟩, ⟨3, 4, 0⟩, ?_, ?_, ?_⟩
  · simp [plane, Vec3.smul, Vec3.ext_iff]
  · simp [plane, Vec3.smul, Vec3.ext_iff]
  · exact C73_plane_never_moves _ Geom.real_isSqrt Real.sqrt_zero _ (by norm_num) _ _ _ _ _ _ (by norm_num) (by norm_num) (by norm_num [Vec3.dot]) _ _

/-- The tests that end `point_inversion_curve` at `u`. -/
def CurveStops (sqrt : K → K) (eps : K) (F : CurveFns K) (P : Vec3 K) (tol1 tol2 : K) (u : K) : Prop :=
  (∃ c c1 c2, F.pt u = .ok c ∧ F.d1 u = .ok c1 ∧ F.d2 u = .ok c2 ∧ |c2.dot (c - P) + c1.dot c1| < eps) ∨
  ∃ u', NewtonStep eps F P u u' ∧ ((∃ c1, F.d1 u = .ok c1 ∧ |u' - u| * sqrt (c1.dot c1) ≤ tol1) ∨
    ∃ c, F.pt u' = .ok c ∧ (sqrt ((c - P).dot (c - P)) ≤ tol1 ∨ ∃ d, F.d1 u' = .ok d ∧
      sqrt (d.dot d) * sqrt ((c - P).dot (c - P)) ≠ 0 ∧ |d.dot (c - P)| / (sqrt (d.dot d) * sqrt ((c - P).dot (c - P))) ≤ tol2))

omit [IsStrictOrderedRing K] in
theorem curveLoop_partial (sqrt : K → K) (eps : K) (F : CurveFns K) (P : Vec3 K) (tol1 tol2 : K) (n : Nat) (u r : K) (c c1 c2 : Vec3 K)
    (h1 : F.pt u = .ok c) (h2 : F.d1 u = .ok c1) (h3 : F.d2 u = .ok c2)
    (h : invertCurveLoop sqrt eps F P tol1 tol2 n u c c1 c2 = .ok r) :
    ∃ k ≤ n, Chain (NewtonStep eps F P) k u r ∧ (k = n ∨ CurveStops sqrt eps F P tol1 tol2 r) := by
  induction n generalizing u c c1 c2 with
  | zero => rw [← Res.ok.inj h]; exact ⟨0, le_refl _, .zero _, Or.inl rfl⟩
  | succ n ih =>
    unfold invertCurveLoop at h
    dsimp only at h
    split at h
    · rename_i ht
      rw [← Res.ok.inj h]
      exact ⟨0, Nat.zero_le _, .zero _, Or.inr (Or.inl ⟨c, c1, c2, h1, h2, h3, ht⟩)⟩
    · rename_i hf
      have hg : NewtonStep eps F P u (u - c1.dot (c - P) / (c2.dot (c - P) + c1.dot c1)) := ⟨c, c1, c2, h1, h2, h3, not_lt.1 hf, rfl⟩
      split at h
      · rename_i ht
        rw [← Res.ok.inj h]
        exact ⟨0, Nat.zero_le _, .zero _, Or.inr (Or.inr ⟨_, hg, Or.inl ⟨c1, h2, ht⟩⟩)⟩
      · obtain ⟨p, h4, h⟩ := bind_ok h
        split at h
        · rename_i ht
          rw [← Res.ok.inj h]
          exact ⟨0, Nat.zero_le _, .zero _, Or.inr (Or.inr ⟨_, hg, Or.inr ⟨p, h4, Or.inl ht⟩⟩)⟩
        · obtain ⟨d, h5, h⟩ := bind_ok h
          split at h
          · rename_i ht
            rw [← Res.ok.inj h]
            unfold divLe at ht
            split at ht
            · cases ht
            · rename_i hz
              exact ⟨0, Nat.zero_le _, .zero _, Or.inr (Or.inr ⟨_, hg, Or.inr ⟨p, h4, Or.inr ⟨d, h5, hz, of_decide_eq_true ht⟩⟩⟩)⟩
          · obtain ⟨d', h6, h⟩ := bind_ok h
            obtain ⟨k, hk, hc, hs⟩ := ih _ _ _ _ h4 h5 h6 h
            exact ⟨k + 1, by omega, .succ hg hc, hs.imp (fun e => by omega) id⟩

omit [IsStrictOrderedRing K] in
/-- **C73, partial**: a result of `point_inversion_curve` is reached from the start by Newton steps on `C'·(C - P)`, at most `maxIter`; if it is fewer,
a stopping test holds there or at the step after it. Missing: when the step after it passed the test, the result is still the step before. -/
theorem C73_curve_partial (sqrt : K → K) (eps : K) (F : CurveFns K) (P : Vec3 K) (u0 tol1 tol2 : K) (n : Nat) (r : K)
    (h : invertCurve sqrt eps F P u0 tol1 tol2 n = .ok r) :
    ∃ k ≤ n, Chain (NewtonStep eps F P) k u0 r ∧ (k = n ∨ CurveStops sqrt eps F P tol1 tol2 r) := by
  obtain ⟨c, h1, h⟩ := bind_ok h
  obtain ⟨c1, h2, h⟩ := bind_ok h
  obtain ⟨c2, h3, h⟩ := bind_ok h
  exact curveLoop_partial sqrt eps F P tol1 tol2 n u0 r c c1 c2 h1 h2 h3 h

/-- **C73 is violated on every straight line**: `point_inversion_curve` returns the start parameter, wherever the point is. -/
theorem C73_line_never_moves (sqrt : K → K) (hs : Newton.IsSqrt sqrt) (hs0 : sqrt 0 = 0) (eps : K) (o a P : Vec3 K) (ha : a.dot a ≠ 0)
    (u0 tol1 tol2 : K) (h1 : 0 ≤ tol1) (h2 : 0 ≤ tol2) (n : Nat) : invertCurve sqrt eps (line o a) P u0 tol1 tol2 n = .ok u0 := by
  unfold invertCurve
  simp only [line, Res.ok_bind]
  cases n with
  | zero => rfl
  | succ n =>
    unfold invertCurveLoop
    have hap : 0 < sqrt a.sqLength := (hs _ (sqLength_pos ha)).1
    have hz : ∀ w : Vec3 K, (⟨0, 0, 0⟩ : Vec3 K).dot w = 0 := by intro w; simp [Vec3.dot]
    simp only [hz, zero_add, Res.ok_bind]
    split
    · rfl
    · split
      · rfl
      · split
        · rfl
        · rename_i hdist
          rw [if_pos]
          have hperp : a.dot (o + a.smul (u0 - a.dot (o + a.smul u0 - P) / a.dot a) - P) = 0 := by
            have h := div_mul_cancel₀ (a.dot (o + a.smul u0 - P)) ha
            generalize a.dot (o + a.smul u0 - P) / a.dot a = q at h ⊢
            simp only [Vec3.dot, Vec3.sub_x, Vec3.sub_y, Vec3.sub_z, Vec3.add_x, Vec3.add_y, Vec3.add_z, Vec3.smul] at h ⊢
            linear_combination -h
          rw [hperp, abs_zero]
          unfold divLe
          have hp : (o + a.smul (u0 - a.dot (o + a.smul u0 - P) / a.dot a) - P).sqLength ≠ 0 := by
            intro e; rw [e, hs0] at hdist; exact hdist h1
          have hp' : 0 < sqrt (_ : Vec3 K).sqLength := (hs _ (sqLength_pos hp)).1
          rw [if_neg (ne_of_gt (mul_pos hap hp')), zero_div]
          exact decide_eq_true h2

/-- C73, witness of the violation: the point is on the line at parameter 5, the answer is 1. -/
theorem C73_curve_counterexample : ∃ (F : CurveFns ℝ) (P : Vec3 ℝ), F.pt 5 = .ok P ∧ F.pt 1 ≠ .ok P ∧
    invertCurve Real.sqrt (1 / 1000) F P 1 (1 / 1000) (1 / 1000) 100 = .ok 1 := by
  refine ⟨line ⟨0, 0, 0⟩ ⟨1, 0, 0⟩, ⟨5, 0, 0⟩, ?_, ?_, ?_⟩
  · simp [line, Vec3.smul, Vec3.ext_iff]
  · simp [line, Vec3.smul, Vec3.ext_iff]
  · exact C73_line_never_moves _ Geom.real_isSqrt Real.sqrt_zero _ _ _ _ (by norm_num [Vec3.dot]) _ _ _ (by norm_num) (by norm_num) _

end Cmm.Ssx
