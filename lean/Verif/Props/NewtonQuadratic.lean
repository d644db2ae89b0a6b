import Verif.Props.Newton
import Mathlib.Algebra.Order.BigOperators.Ring.Finset
/-! C38 (when the Newton minimiser stops) and C79 (the Newton minimiser on convex quadratics). -/
namespace Cmm.Newton
variable {K : Type} {N : Nat} [Field K] [LinearOrder K] [IsStrictOrderedRing K]

omit [IsStrictOrderedRing K] in
theorem converged_iff (tol alpha : K) (step p q : Vec N K) (h : ∀ i, q i = p i + alpha * step i) :
    converged tol alpha step q = true ↔ ∀ i, |q i - p i| < tol * max 1 |q i| := by
  unfold converged
  simp only [List.all_eq_true, List.mem_finRange, forall_true_left, Bool.not_eq_true', decide_eq_false_iff_not, not_le]
  have : ∀ i, q i - p i = alpha * step i := fun i => by rw [h]; ring
  simp only [this]

/-- **C38.** The rule of the loop, in terms of the calls with `max_iterations = 1`: the minimiser goes on from the point one
update reaches, until an update is impossible, or changes every coordinate `x` by less than `tol * max(1, |x|)`, or the iterations are used
up. -/
theorem C38_stopping_rule (sqrt : K → K) (tiny : K) (f : Vec N K → Val K) (tol : K) (fuel m : Nat) (start : Vec N K) :
    newtonsMethod sqrt tiny f tol fuel 0 start = some (start, 0) ∧
    (newtonsMethod sqrt tiny f tol fuel 1 start = none → newtonsMethod sqrt tiny f tol fuel (m + 1) start = none) ∧
    (∀ p n, newtonsMethod sqrt tiny f tol fuel 1 start = some (p, n) →
      (n = 0 ∧ p = start ∧ newtonsMethod sqrt tiny f tol fuel (m + 1) start = some (start, 0)) ∨
      (n = 1 ∧ (∀ i, |p i - start i| < tol * max 1 |p i|) ∧ newtonsMethod sqrt tiny f tol fuel (m + 1) start = some (p, 1)) ∨
      (n = 1 ∧ (¬ ∀ i, |p i - start i| < tol * max 1 |p i|) ∧ newtonsMethod sqrt tiny f tol fuel (m + 1) start =
        (newtonsMethod sqrt tiny f tol fuel m p).map fun r => (r.1, r.2 + 1))) := by
  refine ⟨rfl, ?_, ?_⟩
  · intro h
    rw [newtonsMethod] at h ⊢
    simp only at h ⊢
    split at h
    · cases h
    · split at h
      · cases h
      · split at h
        · rfl
        · split at h
          · cases h
          · split at h
            · cases h
            · simp [newtonsMethod] at h
  · intro p n h
    rw [newtonsMethod] at h ⊢
    simp only at h ⊢
    split at h
    · cases h; exact .inl ⟨rfl, rfl, rfl⟩
    · split at h
      · cases h; exact .inl ⟨rfl, rfl, rfl⟩
      · rename_i x hx
        split at h
        · cases h
        · rename_i alpha ha
          split at h
          · rename_i h0; rw [if_pos h0]; cases h; exact .inl ⟨rfl, rfl, rfl⟩
          · rename_i h0
            rw [if_neg h0]
            split at h
            · rename_i hc
              rw [if_pos hc]
              cases h
              exact .inr (.inl ⟨rfl, (converged_iff tol alpha _ start _ fun i => rfl).1 hc, rfl⟩)
            · rename_i hc
              rw [if_neg hc]
              simp only [newtonsMethod, Option.map_some, zero_add, Option.some.injEq, Prod.mk.injEq] at h
              obtain ⟨rfl, rfl⟩ := h
              exact .inr (.inr ⟨rfl, fun h' => hc ((converged_iff tol alpha _ start _ fun i => rfl).2 h'), rfl⟩)

/-- The Hessian `a + aᵀ` of the quadratic is at least `lam` (in the order of quadratic forms). -/
def CurvatureAtLeast (a : Sq N K) (lam : K) : Prop := ∀ x : Vec N K, lam * ∑ i, x i ^ 2 ≤ ∑ i, ∑ j, x i * (a i j + a j i) * x j

/-- The gradient of the quadratic. -/
def gradAt (a : Sq N K) (b x : Vec N K) (i : Fin N) : K := ∑ j, (a i j + a j i) * x j + b i

theorem quad_step (a : Sq N K) (b : Vec N K) (c : K) (p s : Vec N K) :
    quadratic a b c (fun i => p i + s i) = quadratic a b c p + ∑ i, gradAt a b p i * s i + 1 / 2 * ∑ i, ∑ j, s i * (a i j + a j i) * s j := by
  unfold quadratic gradAt
  have e1 : ∀ i, (∑ j, (a i j + a j i) * p j + b i) * s i = ∑ j, a i j * p j * s i + ∑ j, a j i * p j * s i + b i * s i := by
    intro i
    rw [add_mul, Finset.sum_mul, ← Finset.sum_add_distrib]
    congr 1
    exact Finset.sum_congr rfl fun j _ => by ring
  have e2 : ∑ i, ∑ j, a i j * (p i + s i) * (p j + s j) =
      ∑ i, ∑ j, a i j * p i * p j + ∑ i, ∑ j, a i j * p j * s i + ∑ i, ∑ j, a i j * p i * s j + ∑ i, ∑ j, a i j * s i * s j := by
    simp only [← Finset.sum_add_distrib]
    exact Finset.sum_congr rfl fun i _ => Finset.sum_congr rfl fun j _ => by ring
  have e3 : ∑ i, ∑ j, s i * (a i j + a j i) * s j = ∑ i, ∑ j, a i j * s i * s j + ∑ i, ∑ j, a j i * s j * s i := by
    simp only [← Finset.sum_add_distrib]
    exact Finset.sum_congr rfl fun i _ => Finset.sum_congr rfl fun j _ => by ring
  have e4 : ∑ i, ∑ j, a j i * s j * s i = ∑ i, ∑ j, a i j * s i * s j := Finset.sum_comm
  have e5 : ∑ i, ∑ j, a j i * p j * s i = ∑ i, ∑ j, a i j * p i * s j := Finset.sum_comm
  have e6 : ∑ i, b i * (p i + s i) = ∑ i, b i * p i + ∑ i, b i * s i := by
    rw [← Finset.sum_add_distrib]; exact Finset.sum_congr rfl fun i _ => by ring
  simp only [e1, Finset.sum_add_distrib]
  rw [e2, e3, e4, e5, e6]
  ring

/-- **C79.** One update on a convex quadratic is the full damped Newton step: the new point `p` satisfies
`(H + 10⁻⁶ I)(p - start) = -grad(start)`. -/
theorem C79_newton_step (sqrt : K → K) (hs : IsSqrt sqrt) (tiny : K) (a : Sq N K) (b : Vec N K) (c : K) (hc : CurvatureAtLeast a 0)
    (tol : K) (fuel : Nat) (start : Vec N K) :
    ∃ p, newtonsMethod sqrt tiny (fun x => .fin (quadratic a b c x)) tol (fuel + 1) 1 start = some (p, 1) ∧
      ∀ i, ∑ j, (a i j + a j i) * (p j - start j) + 1 / 10 ^ 6 * (p i - start i) = -gradAt a b start i := by
  set H : Sq N K := fun i j => a i j + a j i with hH
  have hsym : Symmetric H := fun i j => add_comm _ _
  have hfin : finiteHessian (computeHessian (fun x => .fin (quadratic a b c x)) start (1 / 10 ^ 5)) = some H := by
    apply finiteHessian_of_fin
    intro i j
    exact C39_hessian_exact a b c start _ (by positivity) i j
  have hgrad : computeGradient (fun x => .fin (quadratic a b c x)) start (1 / 10 ^ 7) = gradAt a b start := by
    funext i
    exact C39_gradient_exact a b c start _ (by positivity) i
  set He : Sq N K := fun i j => if i = j then H i j + 10 ^ 0 / 10 ^ 6 else H i j with hHe
  have hHes : Symmetric He := by
    intro i j
    simp only [hHe]
    by_cases h : i = j
    · subst h; rfl
    · rw [if_neg h, if_neg (Ne.symm h)]; exact hsym i j
  have hsplit : ∀ (x : Vec N K) (i : Fin N), ∑ j, He i j * x j = ∑ j, H i j * x j + 1 / 10 ^ 6 * x i := by
    intro x i
    have : ∀ j, He i j * x j = H i j * x j + if i = j then 1 / 10 ^ 6 * x i else 0 := by
      intro j
      simp only [hHe]
      by_cases h : i = j
      · subst h; rw [if_pos rfl, if_pos rfl]; ring
      · rw [if_neg h, if_neg h, add_zero]
    simp only [this, Finset.sum_add_distrib, Finset.sum_ite_eq, Finset.mem_univ, if_true]
  have hquad : ∀ x : Vec N K, ∑ i, ∑ j, x i * He i j * x j = ∑ i, ∑ j, x i * H i j * x j + 1 / 10 ^ 6 * ∑ i, x i ^ 2 := by
    intro x
    have : ∀ i, ∑ j, x i * He i j * x j = ∑ j, x i * H i j * x j + 1 / 10 ^ 6 * x i ^ 2 := by
      intro i
      have e1 : ∑ j, x i * He i j * x j = x i * ∑ j, He i j * x j := by
        rw [Finset.mul_sum]; exact Finset.sum_congr rfl fun j _ => by ring
      have e2 : ∑ j, x i * H i j * x j = x i * ∑ j, H i j * x j := by
        rw [Finset.mul_sum]; exact Finset.sum_congr rfl fun j _ => by ring
      rw [e1, e2, hsplit]; ring
    simp only [this, Finset.sum_add_distrib, Finset.mul_sum]
  have hpd : PosDef He := by
    intro x hx
    rw [hquad]
    have h1 := hc x
    rw [zero_mul] at h1
    have h2 : 0 < ∑ i, x i ^ 2 := by
      obtain ⟨i, hi⟩ : ∃ i, x i ≠ 0 := by
        by_contra h
        exact hx (funext fun i => not_not.1 fun h' => h ⟨i, h'⟩)
      exact Finset.sum_pos' (fun i _ => sq_nonneg _) ⟨i, Finset.mem_univ _, by positivity⟩
    have : 0 < 1 / 10 ^ 6 * ∑ i, x i ^ 2 := by positivity
    linarith
  obtain ⟨x, hx⟩ := Option.isSome_iff_exists.1 ((solve_isSome_iff hs hHes (gradAt a b start) (fun _ => 0) (fun _ => 0)).2 hpd)
  have hsol := solve_solves hs hHes hx
  have hshift : solveShifted sqrt H (gradAt a b start) = some x := by
    unfold solveShifted
    rw [show (13 : Nat) = 12 + 1 from rfl, List.range_succ_eq_map, List.findSome?_cons]
    rw [show (solveLinearSystem sqrt (fun i j => if i = j then H i j + 10 ^ 0 / 10 ^ 6 else H i j) (gradAt a b start) (fun _ => 0)
      fun _ => 0) = some x from hx]
  have hg : ∀ i, gradAt a b start i = ∑ j, H i j * x j + 1 / 10 ^ 6 * x i := fun i => by rw [← hsol i, hsplit]
  have hsx : ∑ i, gradAt a b start i * -x i = -(∑ i, ∑ j, x i * H i j * x j + 1 / 10 ^ 6 * ∑ i, x i ^ 2) := by
    rw [Finset.mul_sum, ← Finset.sum_add_distrib, ← Finset.sum_neg_distrib]
    refine Finset.sum_congr rfl fun i _ => ?_
    rw [hg i]
    have : ∑ j, x i * H i j * x j = x i * ∑ j, H i j * x j := by
      rw [Finset.mul_sum]; exact Finset.sum_congr rfl fun j _ => by ring
    rw [this]; ring
  have hnn := hc x
  rw [zero_mul] at hnn
  have hsq : 0 ≤ ∑ i, x i ^ 2 := Finset.sum_nonneg fun i _ => sq_nonneg _
  have hline : lineSearch tiny (fun x => Val.fin (quadratic a b c x)) start (fun i => -x i) (gradAt a b start) (fuel + 1) = some 1 := by
    unfold lineSearch
    rw [lineSearchFrom, if_pos]
    show quadratic a b c (fun i => start i + 1 * -x i) ≤ quadratic a b c start + _
    have e : (fun i => start i + 1 * -x i) = fun i => start i + -x i := by funext i; rw [one_mul]
    rw [e, quad_step, dotProduct_eq, hsx]
    have e2 : ∑ i, ∑ j, -x i * (a i j + a j i) * -x j = ∑ i, ∑ j, x i * H i j * x j :=
      Finset.sum_congr rfl fun i _ => Finset.sum_congr rfl fun j _ => by rw [hH]; ring
    rw [e2]
    have hnn' : 0 ≤ ∑ i, ∑ j, x i * H i j * x j := hnn
    norm_num
    linarith
  refine ⟨fun i => start i + 1 * -x i, ?_, ?_⟩
  · rw [newtonsMethod]
    simp only [hfin, hgrad, hshift, hline, if_neg (one_ne_zero (α := K))]
    split
    · rfl
    · rfl
  · intro i
    rw [hg i]
    have : ∀ j, (a i j + a j i) * (start j + 1 * -x j - start j) = -(H i j * x j) := fun j => by rw [hH]; ring
    simp only [this, Finset.sum_neg_distrib]
    ring

/-- **C79.** If the quadratic has curvature at least `lam ≥ 0` and its gradient vanishes at `m`, every update brings the point closer
to `m` by the factor `10⁻⁶ / (lam + 10⁻⁶)`, and so the result of `n` updates by its `n`-th power. -/
theorem C79_error_bound (sqrt : K → K) (hs : IsSqrt sqrt) (tiny : K) (a : Sq N K) (b : Vec N K) (c lam : K) (hl : 0 ≤ lam)
    (hc : CurvatureAtLeast a lam) (m : Vec N K) (hm : ∀ i, gradAt a b m i = 0) (tol : K) (fuel : Nat) :
    ∀ (maxIter : Nat) (start : Vec N K), ∃ p n, newtonsMethod sqrt tiny (fun x => .fin (quadratic a b c x)) tol (fuel + 1) maxIter start =
        some (p, n) ∧ n ≤ maxIter ∧ (1 ≤ maxIter → 1 ≤ n) ∧
      ∑ i, (p i - m i) ^ 2 ≤ ((1 / 10 ^ 6) / (lam + 1 / 10 ^ 6)) ^ (2 * n) * ∑ i, (start i - m i) ^ 2 := by
  have hc0 : CurvatureAtLeast a 0 := fun x => le_trans (by
    rw [zero_mul]; exact mul_nonneg hl (Finset.sum_nonneg fun i _ => sq_nonneg _)) (hc x)
  set e : K := 1 / 10 ^ 6 with he
  have hepos : 0 < e := by rw [he]; positivity
  have hle : 0 < lam + e := by linarith
  have one : ∀ start : Vec N K, ∃ p, newtonsMethod sqrt tiny (fun x => .fin (quadratic a b c x)) tol (fuel + 1) 1 start = some (p, 1) ∧
      ∑ i, (p i - m i) ^ 2 ≤ (e / (lam + e)) ^ 2 * ∑ i, (start i - m i) ^ 2 := by
    intro start
    obtain ⟨p, hp, heq⟩ := C79_newton_step sqrt hs tiny a b c hc0 tol fuel start
    refine ⟨p, hp, ?_⟩
    set y : Vec N K := fun i => p i - m i with hy
    set x : Vec N K := fun i => start i - m i with hx
    have hrel : ∀ i, ∑ j, (a i j + a j i) * y j + e * y i = e * x i := by
      intro i
      have h1 := heq i
      have h2 := hm i
      unfold gradAt at h1 h2
      have h3 : ∑ j, (a i j + a j i) * (p j - start j) = ∑ j, (a i j + a j i) * p j - ∑ j, (a i j + a j i) * start j := by
        rw [← Finset.sum_sub_distrib]; exact Finset.sum_congr rfl fun j _ => by ring
      have h4 : ∑ j, (a i j + a j i) * y j = ∑ j, (a i j + a j i) * p j - ∑ j, (a i j + a j i) * m j := by
        rw [← Finset.sum_sub_distrib]; exact Finset.sum_congr rfl fun j _ => by rw [hy]; ring
      rw [h3] at h1
      rw [h4]
      simp only [hy, hx]
      linear_combination h1 - h2
    have hin : (lam + e) * ∑ i, y i ^ 2 ≤ e * ∑ i, x i * y i := by
      have h1 := hc y
      have h2 : ∑ i, ∑ j, y i * (a i j + a j i) * y j + e * ∑ i, y i ^ 2 = e * ∑ i, x i * y i := by
        rw [Finset.mul_sum, Finset.mul_sum, ← Finset.sum_add_distrib]
        refine Finset.sum_congr rfl fun i _ => ?_
        have : ∑ j, y i * (a i j + a j i) * y j = y i * ∑ j, (a i j + a j i) * y j := by
          rw [Finset.mul_sum]; exact Finset.sum_congr rfl fun j _ => by ring
        rw [this]
        linear_combination y i * hrel i
      linarith
    have hcs : (∑ i, x i * y i) ^ 2 ≤ (∑ i, x i ^ 2) * ∑ i, y i ^ 2 := Finset.sum_mul_sq_le_sq_mul_sq _ _ _
    have hY : 0 ≤ ∑ i, y i ^ 2 := Finset.sum_nonneg fun i _ => sq_nonneg _
    have hX : 0 ≤ ∑ i, x i ^ 2 := Finset.sum_nonneg fun i _ => sq_nonneg _
    show ∑ i, y i ^ 2 ≤ (e / (lam + e)) ^ 2 * ∑ i, x i ^ 2
    generalize hYe : ∑ i, y i ^ 2 = Y at hY hcs hin ⊢
    generalize hXe : ∑ i, x i ^ 2 = X at hX hcs ⊢
    generalize hDe : ∑ i, x i * y i = D at hcs hin
    rcases hY.lt_or_eq with hY | hY
    · have h1 : ((lam + e) * Y) ^ 2 ≤ (e * D) ^ 2 := pow_le_pow_left₀ (by positivity) hin 2
      have h2 : (lam + e) ^ 2 * Y * Y ≤ e ^ 2 * X * Y := by nlinarith [sq_nonneg e]
      have h3 : (lam + e) ^ 2 * Y ≤ e ^ 2 * X := le_of_mul_le_mul_right h2 hY
      rw [div_pow, div_mul_eq_mul_div, le_div_iff₀ (by positivity)]
      linarith
    · rw [← hY]; positivity
  intro maxIter
  induction maxIter with
  | zero => intro start; exact ⟨start, 0, rfl, le_refl _, by omega, by simp⟩
  | succ k ih =>
    intro start
    obtain ⟨q, hq, hb⟩ := one start
    rcases (C38_stopping_rule sqrt tiny _ tol (fuel + 1) k start).2.2 q 1 hq with ⟨h, -, -⟩ | ⟨-, -, h⟩ | ⟨-, -, h⟩
    · omega
    · exact ⟨q, 1, h, by omega, fun _ => le_refl _, by simpa using hb⟩
    · obtain ⟨p, n, h1, h2, -, h4⟩ := ih q
      rw [h1] at h
      refine ⟨p, n + 1, h, by omega, by omega, h4.trans ?_⟩
      rw [mul_add, pow_add, mul_one, mul_assoc]
      exact mul_le_mul_of_nonneg_left hb (by positivity)

/-- The quadratic `2 x² + 2 x y + 3/2 y² - 6 x` has curvature at least 1, and its gradient vanishes at `(9/4, -3/2)`. -/
example : CurvatureAtLeast (![![2, 1], ![1, 3 / 2]] : Sq 2 ℚ) 1 ∧
    ∀ i, gradAt (![![2, 1], ![1, 3 / 2]] : Sq 2 ℚ) ![-6, 0] ![9 / 4, -3 / 2] i = 0 := by
  constructor
  · intro x
    simp [Fin.sum_univ_two]
    nlinarith [sq_nonneg (3 * x 0 + 2 * x 1), sq_nonneg (x 1), sq_nonneg (x 0 + x 1), sq_nonneg (x 0)]
  · intro i
    fin_cases i <;> simp [gradAt, Fin.sum_univ_two] <;> norm_num

end Cmm.Newton
