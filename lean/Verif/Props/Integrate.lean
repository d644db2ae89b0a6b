import Verif.Lemmas.Integrate
import Mathlib.Tactic.LinearCombination
/-!
Properties of cmmcore/integrate.h: C43 (adaptive Simpson integration), C68 (inverse of an integral).
-/
namespace Cmm.Num
variable {K : Type} [Field K] [LinearOrder K] [IsStrictOrderedRing K]

/-! ### C43 -/

/-- **C43**: the integrand is called at most `2^(max_depth+2) + 1` times (and at least 5 times), only at points of the
interval, for every integrand, interval, tolerance and depth. -/
theorem C43_terminates (f : K → K) (t0 t1 tol : K) (d : Nat) :
    5 ≤ (integrate f t0 t1 tol d).calls.length ∧ (integrate f t0 t1 tol d).calls.length ≤ 2 ^ (d + 2) + 1 ∧
    ∀ x ∈ (integrate f t0 t1 tol d).calls, min t0 t1 ≤ x ∧ x ≤ max t0 t1 := by
  obtain ⟨l, c, h, _, h2, h3, h4, _⟩ := integrate_spec f t0 t1 tol d
  rw [h]
  refine ⟨by simp; omega, by simp; omega, ?_⟩
  intro x hx
  rw [List.mem_append] at hx
  rcases hx with hx | hx
  · simp only [List.mem_cons, List.not_mem_nil, or_false] at hx
    rcases le_total t0 t1 with h | h
    · rw [min_eq_left h, max_eq_right h]; rcases hx with rfl | rfl | rfl <;> constructor <;> linarith
    · rw [min_eq_right h, max_eq_left h]; rcases hx with rfl | rfl | rfl <;> constructor <;> linarith
  · exact h4 x hx

/-- **C43**: the reported error is not negative. -/
theorem C43_error_nonneg (f : K → K) (t0 t1 tol : K) (d : Nat) : 0 ≤ (integrate f t0 t1 tol d).error := by
  obtain ⟨l, c, h, _⟩ := integrate_spec f t0 t1 tol d
  rw [h]
  unfold estimateSum
  refine List.sum_nonneg fun x hx => ?_
  rw [List.mem_map] at hx
  obtain ⟨p, _, rfl⟩ := hx
  positivity

/-- **C43**: the result is the composite Simpson rule on a subdivision of the interval into dyadic pieces, and the error is the
sum of the estimates of the pieces: each piece is either of the deepest level or has an estimate below its share of the
tolerance. -/
theorem C43_composite (f : K → K) (t0 t1 tol : K) (d : Nat) :
    let q := integrate f t0 t1 tol d
    Tiles t0 t1 q.leaves ∧ q.result = composite f q.leaves ∧
    q.error = (q.leaves.map fun p => |twoPanel f p.1 p.2 - onePanel f p.1 p.2| / 15).sum ∧
    ∀ p ∈ q.leaves, ∃ k, k ≤ d ∧ p.2 - p.1 = (t1 - t0) / 2 ^ k ∧
      (k = d ∨ |twoPanel f p.1 p.2 - onePanel f p.1 p.2| / 15 < tol / 2 ^ k) := by
  obtain ⟨l, c, h, h1, _, _, _, h5⟩ := integrate_spec f t0 t1 tol d
  rw [h]
  exact ⟨h1, rfl, rfl, h5⟩

/-- C43: an interval whose estimate is already below the tolerance, or a depth of zero, is not subdivided. -/
theorem C43_no_refinement (f : K → K) (t0 t1 tol : K) (d : Nat)
    (h : d = 0 ∨ |twoPanel f t0 t1 - onePanel f t0 t1| / 15 < tol) :
    (integrate f t0 t1 tol d).leaves = [(t0, t1)] ∧ (integrate f t0 t1 tol d).calls.length = 5 := by
  unfold integrate
  simp only
  rw [adaptiveSimpson_eq]
  simp only
  rw [dif_pos]
  · exact ⟨rfl, rfl⟩
  · rcases h with h | h
    · exact Or.inl (by omega)
    · right
      rw [abs_div15]
      have e : twoPanel f t0 t1 = (t1 - t0) / 12 * (f t0 + 4 * f (1 / 2 * (t0 + 1 / 2 * (t0 + t1))) + f (1 / 2 * (t0 + t1))) +
          (t1 - t0) / 12 * (f (1 / 2 * (t0 + t1)) + 4 * f (1 / 2 * (1 / 2 * (t0 + t1) + t1)) + f t1) := by
        unfold twoPanel
        rw [show 1 / 2 * (t0 + 1 / 2 * (t0 + t1)) = (3 * t0 + t1) / 4 by ring,
          show 1 / 2 * (1 / 2 * (t0 + t1) + t1) = (t0 + 3 * t1) / 4 by ring, show 1 / 2 * (t0 + t1) = (t0 + t1) / 2 by ring]
        ring
      have e' : onePanel f t0 t1 = (t1 - t0) / 6 * (f t0 + 4 * f (1 / 2 * (t0 + t1)) + f t1) := by
        unfold onePanel; rw [show 1 / 2 * (t0 + t1) = (t0 + t1) / 2 by ring]
      rw [← e, ← e']; exact h

/-- **C43**: the result is exact for every polynomial integrand of degree at most three (a derivative of a polynomial of degree at
most four), for every tolerance, even negative, and every depth; the reported error is then zero. -/
theorem C43_exact (F : Polynomial K) (hF : F.natDegree ≤ 4) (t0 t1 tol : K) (d : Nat) :
    (integrate (fun t => F.derivative.eval t) t0 t1 tol d).result = F.eval t1 - F.eval t0 ∧
    (integrate (fun t => F.derivative.eval t) t0 t1 tol d).error = 0 := by
  obtain ⟨l, c, h, h1, _⟩ := integrate_spec (fun t => F.derivative.eval t) t0 t1 tol d
  rw [h]
  refine ⟨composite_telescope (F := fun t => F.eval t) (twoPanel_cubic F hF) h1, ?_⟩
  unfold estimateSum
  refine List.sum_eq_zero fun x hx => ?_
  rw [List.mem_map] at hx
  obtain ⟨p, _, rfl⟩ := hx
  rw [twoPanel_cubic F hF, onePanel_cubic F hF]; simp

example : (Polynomial.X ^ 4 : Polynomial ℚ).natDegree ≤ 4 := by simp

/-- C43: the bound three is sharp: the rule is not exact for `5 t^4` on `[0, 1]`. -/
theorem C43_quartic_inexact : (integrate (fun t : ℚ => 5 * t ^ 4) 0 1 1 0).result ≠ 1 := by
  unfold integrate
  simp only
  rw [adaptiveSimpson_eq]
  simp only
  rw [dif_pos (Or.inl (le_refl _))]
  norm_num

/-- **C43**: where the same intervals are accepted, the result is linear in the integrand. -/
theorem C43_linear (f g : K → K) (α β t0 t1 tol : K) (d : Nat)
    (h1 : (integrate f t0 t1 tol d).leaves = (integrate (fun t => α * f t + β * g t) t0 t1 tol d).leaves)
    (h2 : (integrate g t0 t1 tol d).leaves = (integrate (fun t => α * f t + β * g t) t0 t1 tol d).leaves) :
    (integrate (fun t => α * f t + β * g t) t0 t1 tol d).result =
      α * (integrate f t0 t1 tol d).result + β * (integrate g t0 t1 tol d).result := by
  rw [(C43_composite f t0 t1 tol d).2.1, (C43_composite g t0 t1 tol d).2.1, (C43_composite _ t0 t1 tol d).2.1, h1, h2,
    composite_linear]

example : (integrate (fun t : ℚ => t ^ 4) 0 1 1 0).leaves = [(0, 1)] := (C43_no_refinement _ _ _ _ _ (Or.inl rfl)).1

/-- C43: in particular with depth zero. -/
theorem C43_linear_depth_zero (f g : K → K) (α β t0 t1 tol : K) :
    (integrate (fun t => α * f t + β * g t) t0 t1 tol 0).result =
      α * (integrate f t0 t1 tol 0).result + β * (integrate g t0 t1 tol 0).result :=
  C43_linear f g α β t0 t1 tol 0
    (by rw [(C43_no_refinement f _ _ _ _ (Or.inl rfl)).1, (C43_no_refinement _ _ _ _ _ (Or.inl rfl)).1])
    (by rw [(C43_no_refinement g _ _ _ _ (Or.inl rfl)).1, (C43_no_refinement _ _ _ _ _ (Or.inl rfl)).1])

/-! ### C68 -/

theorem newtonFrom_spec (t0 I : K) (f : K → K) (tol : K) (depth : Nat) : ∀ k t,
    (newtonFrom t0 I f tol depth k t = .nan ∧ ∃ s, |f s| < 1 / 10 ^ 10) ∨
    (∃ r s, newtonFrom t0 I f tol depth k t = .converged r ∧ 1 / 10 ^ 10 ≤ |f s| ∧
      r = s - ((integrate f t0 s tol depth).result - I) / f s ∧ |r - s| < tol) ∨
    ∃ r, newtonFrom t0 I f tol depth k t = .exhausted r := by
  intro k
  induction k with
  | zero => intro t; exact Or.inr (Or.inr ⟨t, rfl⟩)
  | succ k ih =>
    intro t
    rw [newtonFrom]
    simp only [Nurbs.absA_eq, newton_eps]
    by_cases h1 : |f t| < 1 / 10 ^ 10
    · rw [if_pos h1]; exact Or.inl ⟨rfl, t, h1⟩
    · rw [if_neg h1]
      by_cases h2 : |t - ((integrate f t0 t tol depth).result - I) / f t - t| < tol
      · rw [if_pos h2]; exact Or.inr (Or.inl ⟨_, t, rfl, not_lt.1 h1, rfl, h2⟩)
      · rw [if_neg h2]; exact ih _

/-- **C68**: when the search reports convergence, the returned parameter is the Newton step from a parameter closer than the
tolerance where the integral differs from the target by less than the tolerance times the integrand. -/
theorem C68_residual (t0 I : K) (f : K → K) (guess tol : K) (maxIter : Nat) (r : K)
    (h : findT1 t0 I f guess tol maxIter = .converged r) :
    ∃ s, |r - s| < tol ∧ 1 / 10 ^ 10 ≤ |f s| ∧ (integrate f t0 s tol maxIter).result + f s * (r - s) = I ∧
      |(integrate f t0 s tol maxIter).result - I| < tol * |f s| := by
  unfold findT1 at h
  rcases newtonFrom_spec t0 I f tol maxIter maxIter guess with ⟨h', _⟩ | ⟨r', s, h', h1, h2, h3⟩ | ⟨r', h'⟩
  · rw [h] at h'; cases h'
  · rw [h] at h'
    cases h'
    have hp : 0 < |f s| := lt_of_lt_of_le (by positivity) h1
    have hne : f s ≠ 0 := abs_pos.1 hp
    have e : (integrate f t0 s tol maxIter).result - I = -(f s * (r - s)) := by rw [h2]; field_simp; ring
    refine ⟨s, h3, h1, by linear_combination e, ?_⟩
    rw [e, abs_neg, abs_mul, mul_comm]
    exact mul_lt_mul_of_pos_right h3 hp
  · rw [h] at h'; cases h'

/-- C68: `NAN` is returned only if the integrand is nearly zero at some iterate; if it is nearly zero at the initial guess and at
least one iteration is allowed, it is. -/
theorem C68_nan (t0 I : K) (f : K → K) (guess tol : K) (maxIter : Nat) :
    (findT1 t0 I f guess tol maxIter = .nan → ∃ s, |f s| < 1 / 10 ^ 10) ∧
    (0 < maxIter → |f guess| < 1 / 10 ^ 10 → findT1 t0 I f guess tol maxIter = .nan) := by
  constructor
  · intro h
    unfold findT1 at h
    rcases newtonFrom_spec t0 I f tol maxIter maxIter guess with ⟨_, h'⟩ | ⟨r', s, h', _⟩ | ⟨r', h'⟩
    · exact h'
    · rw [h] at h'; cases h'
    · rw [h] at h'; cases h'
  · intro h1 h2
    obtain ⟨k, rfl⟩ : ∃ k, maxIter = k + 1 := ⟨maxIter - 1, by omega⟩
    unfold findT1
    rw [newtonFrom]
    simp only [Nurbs.absA_eq, newton_eps]
    rw [if_pos h2]

/-- **C68**: for a constant integrand `c` the search finds the exact upper end `t0 + I / c` from every initial guess, in at most
two iterations. -/
theorem C68_constant (t0 I c guess tol : K) (hc : 1 / 10 ^ 10 ≤ |c|) (htol : 0 < tol) (maxIter : Nat) (hm : 2 ≤ maxIter) :
    findT1 t0 I (fun _ => c) guess tol maxIter = .converged (t0 + I / c) := by
  have hne : c ≠ 0 := abs_pos.1 (lt_of_lt_of_le (by positivity) hc)
  have hi : ∀ s, (integrate (fun _ => c) t0 s tol maxIter).result = c * (s - t0) := by
    intro s
    have := (C43_exact (Polynomial.C c * Polynomial.X) (by
      rw [Polynomial.C_mul_X_eq_monomial]; exact le_trans (Polynomial.natDegree_monomial_le c) (by omega)) t0 s tol maxIter).1
    simp at this
    rw [this]; ring
  have step : ∀ s, s - ((integrate (fun _ => c) t0 s tol maxIter).result - I) / c = t0 + I / c := by
    intro s; rw [hi]; field_simp; ring
  obtain ⟨k, rfl⟩ : ∃ k, maxIter = k + 2 := ⟨maxIter - 2, by omega⟩
  unfold findT1
  rw [newtonFrom]
  simp only [Nurbs.absA_eq, newton_eps]
  rw [if_neg (not_lt.2 hc), step]
  split
  · rfl
  · rw [newtonFrom]
    simp only [Nurbs.absA_eq, newton_eps]
    rw [if_neg (not_lt.2 hc), step, sub_self, abs_zero, if_pos htol]

example : (1 : ℚ) / 10 ^ 10 ≤ |2| ∧ findT1 (1 : ℚ) 6 (fun _ => 2) 0 (1 / 100) 5 = .converged 4 :=
  ⟨by norm_num, by rw [C68_constant _ _ _ _ _ (by norm_num) (by norm_num) _ (by norm_num)]; norm_num⟩

/-- C68: with no iterations the guess is returned. -/
theorem C68_no_iterations (t0 I : K) (f : K → K) (guess tol : K) : findT1 t0 I f guess tol 0 = .exhausted guess := rfl

end Cmm.Num
