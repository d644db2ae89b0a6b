import Verif.Lemmas.Newton
import Mathlib.Analysis.Real.Sqrt
import Mathlib.Tactic.NormNum
import Mathlib.Tactic.FinCases
/-!
C37 – C39: the Cholesky solver, Newton's method and the finite differences of newthon2.h.
-/
namespace Cmm.Newton
open Finset
variable {K : Type} {N : Nat} [Field K] [LinearOrder K] [IsStrictOrderedRing K]

/-- The square root of the reals meets the contract asked of `std::sqrt`. -/
theorem realSqrt_isSqrt : IsSqrt Real.sqrt := fun x hx => ⟨Real.sqrt_pos.2 hx, Real.mul_self_sqrt hx.le⟩

/-! ### C37 -/

/-- **C37.** When `solveLinearSystem` returns true for a symmetric matrix, the output solves `H x = b`, whatever was in the
output array and the scratch array before. -/
theorem C37_solution (sqrt : K → K) (hs : IsSqrt sqrt) (H : Sq N K) (hsym : Symmetric H) (b y0 x0 x : Vec N K)
    (h : solveLinearSystem sqrt H b y0 x0 = some x) : Solves H x b := solve_solves hs hsym h

/-- **C37.** For a symmetric matrix it returns true exactly if the matrix is positive definite. -/
theorem C37_accepts_iff_posDef (sqrt : K → K) (hs : IsSqrt sqrt) (H : Sq N K) (hsym : Symmetric H) (b y0 x0 : Vec N K) :
    (solveLinearSystem sqrt H b y0 x0).isSome ↔ PosDef H := solve_isSome_iff hs hsym b y0 x0

/-- **C37.** The factorisation itself: for a positive definite symmetric matrix the result is lower triangular with positive
diagonal, and `L Lᵀ = H`. -/
theorem C37_factorisation (sqrt : K → K) (hs : IsSqrt sqrt) (H : Sq N K) (hsym : Symmetric H) (hpd : PosDef H) :
    ∃ L, choleskyDecomposition sqrt H = some L ∧ (∀ i j, i < j → L i j = 0) ∧ (∀ i, 0 < L i i) ∧
      ∀ i j, ∑ k, L i k * L j k = H i j := by
  rcases chol_spec sqrt hs H with ⟨L, hL, hI⟩ | ⟨_, hf⟩
  · exact ⟨L, hL, hI.lowTri.low, fun i => hI.pos i ((mem_lowerPairs _).2 (le_refl _)),
      fun i j => (hI.factor hsym i j).symm⟩
  · exact absurd hpd (chol_fail_not_posDef hsym hf)

/-- The solution is unique, so that two calls agree. -/
theorem C37_unique (sqrt : K → K) (hs : IsSqrt sqrt) (H : Sq N K) (hsym : Symmetric H) (b y0 x0 x z : Vec N K)
    (h : solveLinearSystem sqrt H b y0 x0 = some x) (hz : Solves H z b) : z = x := by
  have hx := solve_solves hs hsym h
  have hpd := (solve_isSome_iff hs hsym b y0 x0).1 (by rw [h]; rfl)
  by_contra hne
  have hp := hpd (fun i => z i - x i) (fun h0 => hne (by
    funext i
    have := congrFun h0 i
    simp only [Pi.zero_apply] at this
    linarith))
  have : ∑ i, ∑ j, (z i - x i) * H i j * (z j - x j) = 0 := by
    apply Finset.sum_eq_zero
    intro i _
    have h1 := hx i
    have h2 := hz i
    have : ∑ j, (z i - x i) * H i j * (z j - x j) = (z i - x i) * (∑ j, H i j * z j - ∑ j, H i j * x j) := by
      rw [← Finset.sum_sub_distrib, Finset.mul_sum]
      exact Finset.sum_congr rfl fun j _ => by ring
    rw [this, h1, h2]
    ring
  linarith

/-- A positive definite matrix that is not diagonal. -/
def demoMatrix : Sq 2 ℝ := ![![4, 2], ![2, 3]]

theorem demoMatrix_symm : Symmetric demoMatrix := by
  intro i j; fin_cases i <;> fin_cases j <;> rfl

theorem demoMatrix_posDef : PosDef demoMatrix := by
  intro x hx
  have e : ∑ i, ∑ j, x i * demoMatrix i j * x j = (2 * x 0 + x 1) ^ 2 + 2 * x 1 ^ 2 := by
    simp [Fin.sum_univ_two, demoMatrix]; ring
  rw [e]
  by_cases h1 : x 1 = 0
  · have h0 : x 0 ≠ 0 := fun h0 => hx (by funext i; fin_cases i <;> assumption)
    rw [h1]; have : 0 < x 0 ^ 2 := by positivity
    nlinarith
  · positivity

-- a matrix that is accepted, with the theorems applied to it
example (b : Vec 2 ℝ) : ∃ x, solveLinearSystem Real.sqrt demoMatrix b (fun _ => 7) (fun _ => 9) = some x ∧
    Solves demoMatrix x b := by
  obtain ⟨x, hx⟩ := Option.isSome_iff_exists.1
    ((C37_accepts_iff_posDef Real.sqrt realSqrt_isSqrt demoMatrix demoMatrix_symm b (fun _ => 7) (fun _ => 9)).2
      demoMatrix_posDef)
  exact ⟨x, hx, C37_solution _ realSqrt_isSqrt _ demoMatrix_symm _ _ _ _ hx⟩

-- an indefinite one that is refused
example (b : Vec 2 ℝ) : solveLinearSystem Real.sqrt ![![1, 2], ![2, 1]] b b b = none := by
  have hsym : Symmetric (![![1, 2], ![2, 1]] : Sq 2 ℝ) := by
    intro i j; fin_cases i <;> fin_cases j <;> rfl
  have := (C37_accepts_iff_posDef Real.sqrt realSqrt_isSqrt ![![1, 2], ![2, 1]] hsym b b b).not
  rw [Bool.not_eq_true, Option.isSome_eq_false_iff, Option.isNone_iff_eq_none] at this
  rw [this]
  intro hpd
  have := hpd ![1, -1] (fun h => by have := congrFun h 0; simp at this)
  simp [Fin.sum_univ_two] at this
  norm_num at this

/-! ### C38 -/

/-- **C38.** If `newtonsMethod` returns, the value at the returned point is at most the value at the start (or the point is
the start itself), and at most `maxIter` updates were made. -/
theorem C38_never_uphill (sqrt : K → K) (hs : IsSqrt sqrt) (tiny : K) (ht : 0 < tiny) (f : Vec N K → Val K) (tol : K)
    (fuel : Nat) : ∀ (maxIter : Nat) (start p : Vec N K) (n : Nat),
      newtonsMethod sqrt tiny f tol fuel maxIter start = some (p, n) →
      (p = start ∨ (f p).le (f start)) ∧ n ≤ maxIter ∧ (n = 0 → p = start) := by
  intro maxIter
  induction maxIter with
  | zero =>
    intro start p n h
    simp only [newtonsMethod, Option.some.injEq, Prod.mk.injEq] at h
    obtain ⟨rfl, rfl⟩ := h
    exact ⟨Or.inl rfl, le_refl _, fun _ => rfl⟩
  | succ m ih =>
    intro start p n h
    unfold newtonsMethod at h
    simp only at h
    split at h
    · simp only [Option.some.injEq, Prod.mk.injEq] at h
      obtain ⟨rfl, rfl⟩ := h
      exact ⟨Or.inl rfl, Nat.zero_le _, fun _ => rfl⟩
    · rename_i H hH
      have hsym : Symmetric H := by
        intro i j
        have h1 := finiteHessian_some hH i j
        have h2 := finiteHessian_some hH j i
        rw [hessian_symm, h2] at h1
        simpa using h1.symm
      split at h
      · simp only [Option.some.injEq, Prod.mk.injEq] at h
        obtain ⟨rfl, rfl⟩ := h
        exact ⟨Or.inl rfl, Nat.zero_le _, fun _ => rfl⟩
      · rename_i x hx
        have hd := solveShifted_descent hs hsym hx
        split at h
        · cases h
        · rename_i alpha ha
          have hle := lineSearchFrom_some ht (by positivity) hd fuel 1 alpha zero_le_one ha
          split at h
          · simp only [Option.some.injEq, Prod.mk.injEq] at h
            obtain ⟨rfl, rfl⟩ := h
            exact ⟨Or.inl rfl, Nat.zero_le _, fun _ => rfl⟩
          · split at h
            · simp only [Option.some.injEq, Prod.mk.injEq] at h
              obtain ⟨rfl, rfl⟩ := h
              exact ⟨Or.inr hle, Nat.succ_le_succ (Nat.zero_le _), fun h => by omega⟩
            · rw [Option.map_eq_some_iff] at h
              obtain ⟨⟨q, k⟩, hq, he⟩ := h
              simp only [Prod.mk.injEq] at he
              obtain ⟨rfl, rfl⟩ := he
              obtain ⟨h1, h2, _⟩ := ih _ _ _ hq
              refine ⟨Or.inr ?_, Nat.succ_le_succ h2, fun h => by omega⟩
              rcases h1 with h1 | h1
              · rw [h1]; exact hle
              · exact Val.le_trans h1 hle

/-- **C38.** It always returns when the value at the start is not NaN: with at most `n + 2` rounds in every line search if
halving 1 more than `n` times underflows. -/
theorem C38_returns (sqrt : K → K) (hs : IsSqrt sqrt) (tiny : K) (ht : 0 < tiny) (f : Vec N K → Val K) (tol : K) (n : Nat)
    (hn : 1 ≤ tiny * 2 ^ n) : ∀ (maxIter : Nat) (start : Vec N K), f start ≠ .nan →
      (newtonsMethod sqrt tiny f tol (n + 2) maxIter start).isSome := by
  intro maxIter
  induction maxIter with
  | zero => intro start _; rfl
  | succ m ih =>
    intro start hst
    unfold newtonsMethod
    simp only
    split
    · rfl
    · rename_i H hH
      have hsym : Symmetric H := by
        intro i j
        have h1 := finiteHessian_some hH i j
        have h2 := finiteHessian_some hH j i
        rw [hessian_symm, h2] at h1
        simpa using h1.symm
      split
      · rfl
      · rename_i x hx
        have hd := solveShifted_descent hs hsym hx
        split
        · rename_i hls
          have := lineSearchFrom_terminates ht (d := fun i => -x i)
            (gd := dotProduct (computeGradient f start (1 / 10 ^ 7)) fun i => -x i) (c := 1 / 10 ^ 4) hst n 1 hn
          unfold lineSearch at hls
          rw [hls] at this
          cases this
        · rename_i alpha ha
          have hle := lineSearchFrom_some ht (by positivity) hd (n + 2) 1 alpha zero_le_one ha
          split
          · rfl
          · split
            · rfl
            · rw [Option.isSome_map]
              exact ih _ (Val.le_ne_nan hle)

theorem scaled_identity_posDef (c : K) (hc : 0 < c) : PosDef (fun i j : Fin N => if i = j then c else 0) := by
  intro x hx
  have e : ∑ i, ∑ j, x i * (if i = j then c else 0) * x j = ∑ i, c * x i ^ 2 := by
    refine Finset.sum_congr rfl fun i _ => ?_
    rw [Finset.sum_eq_single i]
    · rw [if_pos rfl]; ring
    · intro j _ hj; rw [if_neg (Ne.symm hj)]; ring
    · simp
  rw [e]
  obtain ⟨i, hi⟩ : ∃ i, x i ≠ 0 := by
    by_contra hcon
    exact hx (by funext i; by_contra h; exact hcon ⟨i, h⟩)
  refine lt_of_lt_of_le ?_ (Finset.single_le_sum (f := fun i => c * x i ^ 2) (fun k _ => by positivity) (mem_univ i))
  have : 0 < x i ^ 2 := by positivity
  exact mul_pos hc this

/-- The exception: if the value at the start is NaN and at least one iteration is allowed, `newtonsMethod` never returns, however
many rounds the line search is given. -/
theorem C38_nan_never_returns (sqrt : K → K) (hs : IsSqrt sqrt) (tiny : K) (f : Vec N K → Val K) (tol : K)
    (maxIter : Nat) (start : Vec N K) (h : f start = .nan) (fuel : Nat) :
    newtonsMethod sqrt tiny f tol fuel (maxIter + 1) start = none := by
  have hH : finiteHessian (computeHessian f start (1 / 10 ^ 5)) =
      some fun i j : Fin N => if i = j then 10 ^ 6 else (0 : K) := by
    apply finiteHessian_of_fin
    intro i j
    unfold computeHessian
    rw [h]
    by_cases hij : i = j <;> simp [hij]
  unfold newtonsMethod
  simp only
  rw [hH]
  simp only
  obtain ⟨x, hx⟩ : ∃ x, solveShifted sqrt (fun i j : Fin N => if i = j then 10 ^ 6 else (0 : K))
      (computeGradient f start (1 / 10 ^ 7)) = some x := by
    rw [← Option.isSome_iff_exists]
    unfold solveShifted
    rw [List.findSome?_isSome_iff]
    refine ⟨0, by simp, ?_⟩
    have he : (fun i j : Fin N => if i = j then (if i = j then (10 ^ 6 : K) else 0) + 10 ^ 0 / 10 ^ 6 else
        if i = j then (10 ^ 6 : K) else 0) = fun i j => if i = j then (10 ^ 6 + 10 ^ 0 / 10 ^ 6 : K) else 0 := by
      funext i j
      by_cases hij : i = j <;> simp [hij]
    rw [he, solve_isSome_iff hs]
    · exact scaled_identity_posDef _ (by positivity)
    · intro i j; simp only [eq_comm]
  rw [hx]
  simp only
  unfold lineSearch
  rw [lineSearchFrom_nan h]

-- a function that is not constant and finite everywhere meets the hypotheses, so the method returns a point that is no worse
example (start : Vec 2 ℝ) : ∃ p n, newtonsMethod Real.sqrt (1 / 2 ^ 10) (fun x : Vec 2 ℝ => .fin (x 0 ^ 2 + x 1 ^ 4)) (1 / 10 ^ 5)
    12 100 start = some (p, n) ∧ p 0 ^ 2 + p 1 ^ 4 ≤ start 0 ^ 2 + start 1 ^ 4 := by
  obtain ⟨⟨p, n⟩, h⟩ := Option.isSome_iff_exists.1 (C38_returns Real.sqrt realSqrt_isSqrt (1 / 2 ^ 10) (by positivity)
    (fun x : Vec 2 ℝ => .fin (x 0 ^ 2 + x 1 ^ 4)) (1 / 10 ^ 5) 10 (by norm_num) 100 start (by simp))
  refine ⟨p, n, h, ?_⟩
  rcases (C38_never_uphill Real.sqrt realSqrt_isSqrt _ (by positivity) _ _ _ _ _ _ _ h).1 with h | h
  · rw [h]
  · exact h

-- the exception is met
example : newtonsMethod Real.sqrt (1 / 2 ^ 10) (fun x : Vec 1 ℝ => if x 0 < 0 then .nan else .fin (x 0)) (1 / 10 ^ 5) 1000 5
    (fun _ => -1) = none :=
  C38_nan_never_returns _ realSqrt_isSqrt _ _ _ _ _ (by simp) _

/-! ### C39 -/

/-- **C39.** The Hessian is symmetric for every function, finite or not, at every point and for every step. -/
theorem C39_hessian_symmetric (f : Vec N K → Val K) (p : Vec N K) (h : K) (i j : Fin N) :
    computeHessian f p h i j = computeHessian f p h j i := hessian_symm f p h i j

/-- **C39.** On a quadratic function the gradient is exact, for every step `h ≠ 0`. -/
theorem C39_gradient_exact (a : Sq N K) (b : Vec N K) (c : K) (x : Vec N K) (h : K) (hh : h ≠ 0) (i : Fin N) :
    computeGradient (fun x => .fin (quadratic a b c x)) x h i = ∑ j, (a i j + a j i) * x j + b i := by
  unfold computeGradient
  simp only
  rw [update_add, sub_eq_add_neg (x i) h, update_add, quadratic_add, quadratic_add]
  unfold quadGrad
  have : (2 : K) * h ≠ 0 := mul_ne_zero two_ne_zero hh
  rw [div_eq_iff this]
  ring

/-- **C39.** And so is the Hessian. -/
theorem C39_hessian_exact (a : Sq N K) (b : Vec N K) (c : K) (x : Vec N K) (h : K) (hh : h ≠ 0) (i j : Fin N) :
    computeHessian (fun x => .fin (quadratic a b c x)) x h i j = .fin (a i j + a j i) := by
  have main : ∀ i j : Fin N, i ≠ j →
      mixedDifference (fun x => Val.fin (quadratic a b c x)) x h i j = .fin (a i j + a j i) := by
    intro i j hij
    have hup : ∀ e1 e2 : K, Function.update (Function.update x i (x i + e1)) j (x j + e2) =
        x + Pi.single i e1 + Pi.single j e2 := by
      intro e1 e2
      rw [← update_add x i, ← update_add, Function.update_of_ne hij.symm]
    unfold mixedDifference
    simp only
    rw [sub_eq_add_neg (x i) h, sub_eq_add_neg (x j) h]
    simp only [hup, quadratic_add, quadGrad_add]
    congr 1
    have : (4 : K) * h * h ≠ 0 := mul_ne_zero (mul_ne_zero four_ne_zero hh) hh
    rw [div_eq_iff this]
    ring
  unfold computeHessian
  simp only
  by_cases hij : i = j
  · subst hij
    rw [if_pos rfl]
    unfold forwardBackward
    simp only
    rw [update_add, sub_eq_add_neg (x i) h, update_add, quadratic_add, quadratic_add]
    congr 1
    rw [div_eq_iff (mul_ne_zero hh hh)]
    ring
  · rw [if_neg hij]
    by_cases hlt : i < j
    · rw [if_pos hlt, main i j hij]
    · rw [if_neg hlt, main j i (Ne.symm hij), add_comm]

/-- **C39.** Values that are not finite: such a gradient component is 0; the Hessian at a point where the function is not finite is
1e6 times the identity; next to such a point along an axis its diagonal entry is 0; and an entry off the diagonal is finite
exactly if the four values it is made from are. -/
theorem C39_nonfinite (f : Vec N K → Val K) (x : Vec N K) (h : K) (i j : Fin N) :
    ((∀ v, f (Function.update x i (x i + h)) ≠ .fin v) ∨ (∀ v, f (Function.update x i (x i - h)) ≠ .fin v) →
      computeGradient f x h i = 0 ∧ ∀ f0, f x = .fin f0 → computeHessian f x h i i = .fin 0) ∧
    ((∀ v, f x ≠ .fin v) → computeHessian f x h i j = .fin (if i = j then 10 ^ 6 else 0)) ∧
    (i < j → (∃ v, f x = .fin v) → ((∃ v, computeHessian f x h i j = .fin v) ↔
      ∀ e1 ∈ [h, -h], ∀ e2 ∈ [h, -h],
        ∃ v, f (Function.update (Function.update x i (x i + e1)) j (x j + e2)) = .fin v)) := by
  refine ⟨?_, ?_, ?_⟩
  · intro hnf
    constructor
    · unfold computeGradient
      split
      · rename_i a b h1 h2
        rcases hnf with hnf | hnf
        · exact absurd h1 (hnf a)
        · exact absurd h2 (hnf b)
      · rfl
    · intro f0 hf
      unfold computeHessian
      rw [hf]
      simp only [if_true]
      have : forwardBackward f x h f0 i = (f0, f0) := by
        unfold forwardBackward
        split
        · rename_i a b h1 h2
          rcases hnf with hnf | hnf
          · exact absurd h1 (hnf a)
          · exact absurd h2 (hnf b)
        · rfl
      rw [this]
      congr 1
      simp only
      rw [show f0 - 2 * f0 + f0 = 0 by ring, zero_div]
  · intro hnf
    unfold computeHessian
    cases hf : f x with
    | fin v => exact absurd hf (hnf v)
    | _ => by_cases hij : i = j <;> simp [hij]
  · rintro hij ⟨v, hv⟩
    unfold computeHessian
    rw [hv]
    simp only
    rw [if_neg hij.ne, if_pos hij]
    simp only [List.mem_cons, List.not_mem_nil, or_false, forall_eq_or_imp, forall_eq, ← sub_eq_add_neg]
    unfold mixedDifference
    generalize f (Function.update (Function.update x i (x i + h)) j (x j + h)) = v1
    generalize f (Function.update (Function.update x i (x i + h)) j (x j - h)) = v2
    generalize f (Function.update (Function.update x i (x i - h)) j (x j + h)) = v3
    generalize f (Function.update (Function.update x i (x i - h)) j (x j - h)) = v4
    cases v1 <;> cases v2 <;> cases v3 <;> cases v4 <;> simp

-- a quadratic function of two variables with a mixed term
example : computeHessian (fun x : Vec 2 ℚ => .fin (quadratic ![![1, 3], ![0, 2]] ![5, 7] 1 x)) ![10, 20] (1 / 10 ^ 5) 0 1 = .fin 3 := by
  rw [C39_hessian_exact _ _ _ _ _ (by norm_num)]; simp

end Cmm.Newton
