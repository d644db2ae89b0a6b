import Verif.Lemmas.RoundingIntegrate
import Verif.Props.Integrate
/-!
Properties of cmmcore/integrate.h in floating-point arithmetic: C141.
-/
namespace Cmm.Num
variable {K : Type} [Field K] [LinearOrder K] [IsStrictOrderedRing K] {R : Rounding K} {u : K}

/-- **C141**: whatever the arithmetic, the call returns after at least 5 and at most `2 ^ (depth + 2) + 1` evaluations, and the accepted intervals (at least one, at most
`2 ^ depth`) lead from `t0` to `t1` without gaps. -/
theorem C141_terminates {A : Type} [Arith A] [LinearOrder A] (f : A → A) (t0 t1 tol : A) (d : Nat) :
    let q := integrate f t0 t1 tol d
    5 ≤ q.calls.length ∧ q.calls.length ≤ 2 ^ (d + 2) + 1 ∧ Tiles t0 t1 q.leaves ∧ 1 ≤ q.leaves.length ∧ q.leaves.length ≤ 2 ^ d := by
  obtain ⟨h1, h2, h3, h4, h5⟩ := integrate_any f d t0 t1 tol
  exact ⟨h5, by rw [pow_add]; omega, h1, h2, h3⟩

/-- **C141**: with rounded operations the integrand is evaluated only between `t0` and `t1`, the accepted intervals are ordered and lie between them, and the reported error
is not negative. -/
theorem C141_inside (F : BinaryFormat R u) (f : Fp R → Fp R) (t0 t1 tol : Fp R) (d : Nat) (h : t0 ≤ t1) :
    let q := integrate f t0 t1 tol d
    (∀ x ∈ q.calls, t0 ≤ x ∧ x ≤ t1) ∧ (∀ p ∈ q.leaves, t0 ≤ p.1 ∧ p.1 ≤ p.2 ∧ p.2 ≤ t1) ∧ 0 ≤ q.error.val := by
  obtain ⟨h1, h2, h3, -⟩ := integrate_inside F f d t0 t1 tol h
  exact ⟨h1, h2, h3⟩

/-- **C141**: the result is the composite Simpson rule on the accepted intervals, up to `(1 + u) ^ (n + 7) - 1` times `(t1 - t0) B` for `n` intervals and an integrand bounded by `B`. -/
theorem C141_composite (F : BinaryFormat R u) (f : Fp R → Fp R) (t0 t1 tol : Fp R) (d : Nat) (h : t0 ≤ t1) (B : K) (hB : ∀ x, t0 ≤ x → x ≤ t1 → |(f x).val| ≤ B) :
    let q := integrate f t0 t1 tol d
    |q.result.val - compositeF f q.leaves| ≤ ((1 + u) ^ (q.leaves.length + 7) - 1) * ((t1.val - t0.val) * B) :=
  (integrate_fp F f d t0 t1 tol h hB).2

/-- **C141**: if the integrand lies between `m` and `M`, the result lies between `m (t1 - t0)` and `M (t1 - t0)`, up to the part `2 (2 ^ depth + 7) u` of `(t1 - t0) B`
(as long as that many errors are small). -/
theorem C141_bounds (F : BinaryFormat R u) (f : Fp R → Fp R) (t0 t1 tol : Fp R) (d : Nat) (h : t0 ≤ t1) (m M B : K)
    (hf : ∀ x, t0 ≤ x → x ≤ t1 → m ≤ (f x).val ∧ (f x).val ≤ M) (hm : -B ≤ m) (hM : M ≤ B) (hd : ((2 ^ d + 7 : Nat) : K) * u ≤ 1 / 2) :
    let q := integrate f t0 t1 tol d
    m * (t1.val - t0.val) - 2 * (2 ^ d + 7 : Nat) * u * ((t1.val - t0.val) * B) ≤ q.result.val ∧
    q.result.val ≤ M * (t1.val - t0.val) + 2 * (2 ^ d + 7 : Nat) * u * ((t1.val - t0.val) * B) := by
  have n := integrate_fp F f d t0 t1 tol h (B := B) fun x h1 h2 => abs_le.2 ⟨le_trans hm (hf x h1 h2).1, le_trans (hf x h1 h2).2 hM⟩
  obtain ⟨-, l, -⟩ := integrate_inside F f d t0 t1 tol h
  obtain ⟨t, -, c, -⟩ := integrate_any f d t0 t1 tol
  intro q
  have w := n.weaken F.nonneg (show q.leaves.length + 7 ≤ 2 ^ d + 7 by have : q.leaves.length ≤ 2 ^ d := c; omega)
  obtain ⟨b1, b2⟩ := compositeF_bounds F f (m := m) (M := M) q.leaves t0 t1 t (fun p hp => (l p hp).2.1)
    fun p hp x h1 h2 => hf x (le_trans (l p hp).1 h1) (le_trans h2 (l p hp).2.2)
  have e := abs_le.1 (le_trans w.2 (mul_le_mul_of_nonneg_right (pow_error F.nonneg _ hd) (le_trans (abs_nonneg _) n.1)))
  constructor <;> linarith [e.1, e.2]

/-- **C141**: the integral of a function that is not negative is not negative. -/
theorem C141_nonneg (F : BinaryFormat R u) (f : Fp R → Fp R) (t0 t1 tol : Fp R) (d : Nat) (h : t0 ≤ t1) (hf : ∀ x, t0 ≤ x → x ≤ t1 → 0 ≤ (f x).val) :
    0 ≤ (integrate f t0 t1 tol d).result.val :=
  (integrate_inside F f d t0 t1 tol h).2.2.2 hf

/-- **C141**: in `double` and with the default depth of 20, the integral of a function with values between 0 and `B` is between 0 and `B (t1 - t0)` up to a relative error of `2 ^ -31`. -/
theorem C141_double [FloorRing K] (f : Fp (Rounding.float (K := K) 53 (by norm_num)) → Fp (Rounding.float (K := K) 53 (by norm_num)))
    (t0 t1 tol : Fp (Rounding.float (K := K) 53 (by norm_num))) (h : t0 ≤ t1) (m M : K) (h0 : 0 ≤ m)
    (hf : ∀ x, t0 ≤ x → x ≤ t1 → m ≤ (f x).val ∧ (f x).val ≤ M) :
    (m - M / 2 ^ 31) * (t1.val - t0.val) ≤ (integrate f t0 t1 tol 20).result.val ∧
    (integrate f t0 t1 tol 20).result.val ≤ (1 + 1 / 2 ^ 31) * M * (t1.val - t0.val) := by
  have hm := hf t0 le_rfl h
  obtain ⟨a, b⟩ := C141_bounds (binaryFormat_float (K := K) 53 (by norm_num)) f t0 t1 tol 20 h m M M hf (by linarith) le_rfl (by norm_num)
  have hv : t0.val ≤ t1.val := h
  have k : 0 ≤ (t1.val - t0.val) * M := mul_nonneg (by linarith) (by linarith)
  have c : (2 * ((2 ^ 20 + 7 : Nat) : K) * (1 / 2 ^ 53) : K) ≤ 1 / 2 ^ 31 := by norm_num
  have := mul_le_mul_of_nonneg_right c k
  constructor <;> linarith

/-- **C141**: when the inverse reports convergence to `r`, there is a point `s` less than about the tolerance away at which the computed integral differs from the target by at
most `(tol + u |r|)` times the integrand there, up to a factor `1 + 8 u`. -/
theorem C141_residual (F : BinaryFormat R u) (t0 I : Fp R) (f : Fp R → Fp R) (guess tol : Fp R) (maxIter : Nat) (r : Fp R)
    (h : findT1 t0 I f guess tol maxIter = .converged r) :
    ∃ s : Fp R, |r.val - s.val| ≤ (1 + 2 * u) * tol.val ∧ 0 < |(f s).val| ∧
      |(integrate f t0 s tol maxIter).result.val - I.val| ≤ (1 + 8 * u) * (tol.val + u * |r.val|) * |(f s).val| := by
  obtain ⟨s, e, c, g⟩ := newton_any t0 I f tol maxIter maxIter guess r h
  have h0 := F.nonneg
  have h1 := F.small
  norm_num at h1
  have c' : |R.rnd (r.val - s.val)| < tol.val := by
    have : (Nurbs.absA (r - s)).val < tol.val := c
    rwa [F.toFormatOk.absA_val] at this
  have g' : (1 / ((10 ^ 10 : Nat) : Fp R) : Fp R).val ≤ |(f s).val| := by
    rw [← F.toFormatOk.absA_val]; exact not_lt.1 g
  have fpos : 0 < |(f s).val| := by
    refine lt_of_lt_of_le ?_ g'
    have P : ∀ y : K, 0 < y → 0 < R.rnd y := fun y hy => lt_of_le_of_ne (F.toFormatOk.rnd_nonneg hy.le) fun h => hy.ne' (F.toFormatOk.rnd_eq_zero h.symm)
    exact P _ (div_pos (P 1 one_pos) (P _ (by positivity)))
  have inv : ∀ y : K, |y| ≤ (1 + 2 * u) * |R.rnd y| := by
    intro y
    have e1 := F.err y
    have e2 := abs_add_le (y - R.rnd y) (R.rnd y)
    rw [sub_add_cancel, abs_sub_comm y] at e2
    have n1 := abs_nonneg (R.rnd y)
    have n2 := abs_nonneg y
    have k : (1 - u) * |y| ≤ |R.rnd y| := by linarith
    have : (1 + 2 * u) * ((1 - u) * |y|) ≤ (1 + 2 * u) * |R.rnd y| := mul_le_mul_of_nonneg_left k (by linarith)
    have : 0 ≤ u * (1 - 2 * u) * |y| := by
      have : 0 ≤ 1 - 2 * u := by linarith
      positivity
    linarith
  have er : r.val = R.rnd (s.val - R.rnd (R.rnd ((integrate f t0 s tol maxIter).result.val - I.val) / (f s).val)) := by rw [e]; rfl
  have d1 : |r.val - s.val| ≤ (1 + 2 * u) * tol.val := le_trans (inv _) (mul_le_mul_of_nonneg_left c'.le (by linarith))
  refine ⟨s, d1, fpos, ?_⟩
  have tpos : 0 ≤ tol.val := le_trans (abs_nonneg _) c'.le
  generalize (integrate f t0 s tol maxIter).result.val - I.val = G at *
  have i1 := inv G
  have i2 := inv (R.rnd G / (f s).val)
  rw [abs_div, div_le_iff₀ fpos] at i2
  generalize |(f s).val| = φ at *
  generalize R.rnd (R.rnd G / (f s).val) = Q at *
  have i3 := inv (s.val - Q)
  have i4 := F.err (s.val - Q)
  rw [← er] at i3 i4
  have i5 : |Q| ≤ |r.val - s.val| + |r.val - (s.val - Q)| := by
    have := abs_add_le (s.val - r.val) (r.val - (s.val - Q))
    rw [show s.val - r.val + (r.val - (s.val - Q)) = Q by ring, abs_sub_comm s.val] at this
    exact this
  have i6 : u * |s.val - Q| ≤ u * ((1 + 2 * u) * |r.val|) := mul_le_mul_of_nonneg_left i3 h0
  have q1 : |Q| ≤ (1 + 2 * u) * (tol.val + u * |r.val|) := by
    linarith
  have z0 := abs_nonneg r.val
  have q2 : |Q| * φ ≤ (1 + 2 * u) * (tol.val + u * |r.val|) * φ := mul_le_mul_of_nonneg_right q1 fpos.le
  have q3 : |G| ≤ (1 + 2 * u) * ((1 + 2 * u) * ((1 + 2 * u) * (tol.val + u * |r.val|) * φ)) := by
    refine le_trans i1 (mul_le_mul_of_nonneg_left ?_ (by linarith))
    refine le_trans i2 ?_
    rw [mul_assoc]
    exact mul_le_mul_of_nonneg_left q2 (by linarith)
  have cube : (1 + 2 * u) * ((1 + 2 * u) * (1 + 2 * u)) ≤ 1 + 8 * u := by
    have : u * u ≤ u * (1 / 1000) := mul_le_mul_of_nonneg_left (by linarith) h0
    have : u * (u * u) ≤ u * u * (1 / 1000) := by
      have := mul_le_mul_of_nonneg_left (show u ≤ 1 / 1000 by linarith) (mul_nonneg h0 h0)
      linarith
    linarith
  have y0 : 0 ≤ (tol.val + u * |r.val|) * φ := by positivity
  have q4 := mul_le_mul_of_nonneg_right cube y0
  linarith

/-- The format, bounds and integrand of the hypotheses exist: `double`, the interval from 0 to 1 and a constant. -/
example : BinaryFormat (Rounding.float (K := ℚ) 53 (by norm_num)) (1 / 2 ^ 53) ∧ (0 : Fp (Rounding.float (K := ℚ) 53 (by norm_num))) ≤ 1 ∧
    ((2 ^ 20 + 7 : Nat) : ℚ) * (1 / 2 ^ 53) ≤ 1 / 2 ∧
    ∀ x : Fp (Rounding.float (K := ℚ) 53 (by norm_num)), 0 ≤ x → x ≤ 1 → 0 ≤ ((fun t => t) x).val ∧ ((fun t => t) x).val ≤ 1 := by
  have o : (1 : Fp (Rounding.float (K := ℚ) 53 (by norm_num))).val = 1 := by
    show nearest 53 (1 : ℚ) = 1
    exact float_rnd_one 53 (by norm_num)
  refine ⟨binaryFormat_float 53 (by norm_num), (Rounding.float (K := ℚ) 53 (by norm_num)).mono 0 1 zero_le_one, by norm_num, fun x h0 h1 => ?_⟩
  have h1 : x.val ≤ (1 : Fp (Rounding.float (K := ℚ) 53 (by norm_num))).val := h1
  have h0 : (0 : Fp (Rounding.float (K := ℚ) 53 (by norm_num))).val ≤ x.val := h0
  rw [o] at h1
  rw [show (0 : Fp (Rounding.float (K := ℚ) 53 (by norm_num))).val = 0 from (Rounding.float (K := ℚ) 53 (by norm_num)).zero] at h0
  exact ⟨h0, h1⟩

/-- The inverse of an integral converges when started at the solution, in `double`. -/
example : findT1 (0 : Fp (Rounding.float (K := ℚ) 53 (by norm_num))) 1 (fun _ => 1) 1 (1 / 2) 1 = .converged 1 := by decide +kernel

end Cmm.Num
