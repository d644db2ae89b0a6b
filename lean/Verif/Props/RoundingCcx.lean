import Verif.Lemmas.RoundingCcx
import Verif.Props.RoundingMinimize
/-! C144: curve-curve intersection (cmmcore/ccx.h) when every arithmetic operation rounds. -/
namespace Cmm.Ccx
open Cmm.Nurbs
variable {K : Type} [Field K] [LinearOrder K] [IsStrictOrderedRing K] [FloorRing K]

omit [FloorRing K] in
theorem FloatBezier.nonneg {R : Rounding K} {L M : K} {c : Curve (Fp R)} (B : FloatBezier L M c) : 0 ≤ L ∧ 0 ≤ M :=
  ⟨(abs_nonneg _).trans B.interval.1, bound_nonneg B.valid B.bounded⟩

omit [FloorRing K] in
theorem FloatBezier.steps {R : Rounding K} {L M : K} {c : Curve (Fp R)} (B : FloatBezier L M c) : StepsLe (2 * M) c.exact := by
  intro i hi
  obtain ⟨a1, a2, a3⟩ := B.bounded _ (mem_ix (show i < c.exact.cpts.length by omega))
  obtain ⟨b1, b2, b3⟩ := B.bounded _ (mem_ix hi)
  have key : ∀ {x y : K}, |x| ≤ M → |y| ≤ M → |y - x| ≤ 2 * M := by
    intro x y h1 h2
    rw [abs_le] at *
    constructor <;> linarith
  exact ⟨key a1 b1, key a2 b2, key a3 b3⟩

/-- C144. Two Bézier curves with weights one, all operations rounded to the nearest number of `p` binary digits, intervals of moderate numbers wide enough to be halved `N + 1` times: if
the call returns after at most `N` halvings, it returns normally and only appends to the given list. At every appended pair of parameters the two curves are
within twice the tolerance of each other in each coordinate, up to `20 N` times degree rounding units of the largest coordinate. Consecutive reports differ, as
computed, by more than the tolerance in one of the parameters. -/
theorem C144_reports_meet (p : Nat) (hp : 40 ≤ p) (c1 c2 : Curve (Fp (Rounding.float (K := K) p (Nat.one_le_of_lt hp)))) (L1 L2 M1 M2 : K)
    (B1 : FloatBezier L1 M1 c1) (B2 : FloatBezier L2 M2 c2) (hu1 : 8 * L1 / 2 ^ p ≤ 1 / 10 ^ 12) (hu2 : 8 * L2 / 2 ^ p ≤ 1 / 10 ^ 12) (sqrt : Fp _ → Fp _)
    (hs : SqrtNear (1 / 2 ^ p) sqrt) (tol : Fp _) (N : Nat) (hw1 : 3 * 2 ^ (N + 1) / 10 ^ 12 < c1.hi.val - c1.lo.val) (hw2 : 3 * 2 ^ (N + 1) / 10 ^ 12 < c2.hi.val - c2.lo.val)
    (acc : List (Fp _ × Fp _)) (r : Res (List (Fp _ × Fp _))) (h : ccx sqrt tol (N + 1) c1 c2 acc = some r) :
    ∃ new, r = .ok (acc ++ new) ∧
      (∀ q ∈ new, MeetsWithin (2 * (1 + 8 / 2 ^ p) * tol.val + 20 * N / 2 ^ p * (c1.degree * M1 + c2.degree * M2)) c1 c2 q) ∧
      (acc.IsChain (fun a b => ¬ (absA (a.1 - b.1) ≤ tol ∧ absA (a.2 - b.2) ≤ tol)) → (acc ++ new).IsChain (fun a b => ¬ (absA (a.1 - b.1) ≤ tol ∧ absA (a.2 - b.2) ≤ tol))) := by
  obtain ⟨l1, m1⟩ := B1.nonneg
  obtain ⟨l2, m2⟩ := B2.nonneg
  have hu1' : 8 * (1 / 2 ^ p) * L1 ≤ 1 / 10 ^ 12 := by rw [show 8 * (1 / 2 ^ p) * L1 = 8 * L1 / 2 ^ p by ring]; exact hu1
  have hu2' : 8 * (1 / 2 ^ p) * L2 ≤ 1 / 10 ^ 12 := by rw [show 8 * (1 / 2 ^ p) * L2 = 8 * L2 / 2 ^ p by ring]; exact hu2
  have w1 : 0 < c1.hi.val - c1.lo.val := lt_of_le_of_lt (by positivity) hw1
  have w2 : 0 < c2.hi.val - c2.lo.val := lt_of_le_of_lt (by positivity) hw2
  have hN : N + 1 < p := halvings_lt (L := L1) hu1' hw1 (by have := abs_le.1 B1.interval.1; have := abs_le.1 B1.interval.2; linarith)
  rcases float_search (hp := hp) m1 m2 (div_nonneg (by linarith : 0 ≤ 2 * M1) w1.le) (div_nonneg (by linarith : 0 ≤ 2 * M2) w2.le) B1.interval B2.interval hu1' hu2' hs tol N
    (N + 1) 0 c1 c2 acc (part_self B1 l1 hw1 B1.steps) (part_self B2 l2 hw2 B2.steps) (by omega) with h0 | ⟨res, h0, new, e, g, ch⟩
  · rw [h0] at h; cases h
  · rw [h0] at h
    cases h
    subst e
    refine ⟨new, rfl, fun q hq => ?_, ch⟩
    obtain ⟨i1, i2, P, Q, e1, e2, x, y, z⟩ := g q hq
    have u1 := mul_le_mul_of_nonneg_right (units (K := K) hp (show c1.degree ≤ 8 from B1.valid.deg_le) (by omega : N ≤ p)) m1
    have u2 := mul_le_mul_of_nonneg_right (units (K := K) hp (show c2.degree ≤ 8 from B2.valid.deg_le) (by omega : N ≤ p)) m2
    have le : 2 * ((1 + 8 * (1 / 2 ^ p)) * tol.val) + ((1 - 1 / 2 ^ p)⁻¹ ^ (10 * c1.degree * N) - 1) * M1 + ((1 - 1 / 2 ^ p)⁻¹ ^ (10 * c2.degree * N) - 1) * M2 ≤
        2 * (1 + 8 / 2 ^ p) * tol.val + 20 * N / 2 ^ p * (c1.degree * M1 + c2.degree * M2) := by
      have e1 : 2 * ((1 + 8 * (1 / 2 ^ p)) * tol.val) = 2 * (1 + 8 / 2 ^ p) * tol.val := by ring
      have e2 : 20 * N / 2 ^ p * (c1.degree * M1 + c2.degree * M2) = 20 * c1.degree * N / 2 ^ p * M1 + 20 * c2.degree * N / 2 ^ p * M2 := by ring
      rw [e1, e2]
      linarith
    exact ⟨i1, i2, P, Q, e1, e2, x.trans le, y.trans le, z.trans le⟩

/-- C144. Under the same conditions, the call returns after at most `N` halvings if the control polygons, of steps at most `d1` and `d2`, halved `N` times, are smaller than the tolerance by
more than the rounding errors. -/
theorem C144_returns (p : Nat) (hp : 40 ≤ p) (c1 c2 : Curve (Fp (Rounding.float (K := K) p (Nat.one_le_of_lt hp)))) (L1 L2 M1 M2 : K)
    (B1 : FloatBezier L1 M1 c1) (B2 : FloatBezier L2 M2 c2) (hu1 : 8 * L1 / 2 ^ p ≤ 1 / 10 ^ 12) (hu2 : 8 * L2 / 2 ^ p ≤ 1 / 10 ^ 12) (sqrt : Fp _ → Fp _)
    (hs : SqrtNear (1 / 2 ^ p) sqrt) (tol : Fp _) (ht : 0 < tol.val) (N : Nat) (hw1 : 3 * 2 ^ (N + 1) / 10 ^ 12 < c1.hi.val - c1.lo.val)
    (hw2 : 3 * 2 ^ (N + 1) / 10 ^ 12 < c2.hi.val - c2.lo.val) (d1 d2 : K) (hd1 : 0 ≤ d1) (hd2 : 0 ≤ d2) (S1 : StepsLe d1 c1.exact) (S2 : StepsLe d2 c2.exact)
    (hm1 : 3 * (1 + 10 / 2 ^ p) * (c1.degree * (d1 / 2 ^ N + (8 * L1 * d1 / (c1.hi.val - c1.lo.val) + 40 * c1.degree * N * M1) / 2 ^ p)) ^ 2 < tol.val ^ 2)
    (hm2 : 3 * (1 + 10 / 2 ^ p) * (c2.degree * (d2 / 2 ^ N + (8 * L2 * d2 / (c2.hi.val - c2.lo.val) + 40 * c2.degree * N * M2) / 2 ^ p)) ^ 2 < tol.val ^ 2)
    (acc : List (Fp _ × Fp _)) :
    ∃ new, ccx sqrt tol (N + 1) c1 c2 acc = some (.ok (acc ++ new)) ∧
      ∀ q ∈ new, MeetsWithin (2 * (1 + 8 / 2 ^ p) * tol.val + 20 * N / 2 ^ p * (c1.degree * M1 + c2.degree * M2)) c1 c2 q := by
  obtain ⟨l1, m1⟩ := B1.nonneg
  obtain ⟨l2, m2⟩ := B2.nonneg
  have hu1' : 8 * (1 / 2 ^ p) * L1 ≤ 1 / 10 ^ 12 := by rw [show 8 * (1 / 2 ^ p) * L1 = 8 * L1 / 2 ^ p by ring]; exact hu1
  have hu2' : 8 * (1 / 2 ^ p) * L2 ≤ 1 / 10 ^ 12 := by rw [show 8 * (1 / 2 ^ p) * L2 = 8 * L2 / 2 ^ p by ring]; exact hu2
  have w1 : 0 < c1.hi.val - c1.lo.val := lt_of_le_of_lt (by positivity) hw1
  have w2 : 0 < c2.hi.val - c2.lo.val := lt_of_le_of_lt (by positivity) hw2
  have hN : N + 1 < p := halvings_lt (L := L1) hu1' hw1 (by have := abs_le.1 B1.interval.1; have := abs_le.1 B1.interval.2; linarith)
  have H := float_unit (K := K) p (by omega)
  have size : ∀ {c : Curve (Fp (Rounding.float (K := K) p (Nat.one_le_of_lt hp)))} {L M d : K}, c.degree ≤ 8 → 0 ≤ M → 0 ≤ L → 0 ≤ d → 0 < c.hi.val - c.lo.val →
      3 * (1 + 10 / 2 ^ p) * (c.degree * (d / 2 ^ N + (8 * L * d / (c.hi.val - c.lo.val) + 40 * c.degree * N * M) / 2 ^ p)) ^ 2 < tol.val ^ 2 →
      3 * (1 + 10 * (1 / 2 ^ p)) * (c.exact.degree * (d / (c.hi.val - c.lo.val) * ((c.hi.val - c.lo.val) / 2 ^ N + 8 * (1 / 2 ^ p) * L) +
        2 * (((1 - 1 / 2 ^ p)⁻¹ ^ (10 * c.exact.degree * N) - 1) * M))) ^ 2 < tol.val ^ 2 := by
    intro c L M d hd8 hM hL hd hw hm
    have ed : c.exact.degree = c.degree := rfl
    rw [ed]
    have u := mul_le_mul_of_nonneg_right (units (K := K) hp hd8 (by omega : N ≤ p)) hM
    have u0 : 0 ≤ ((1 - 1 / 2 ^ p : K)⁻¹ ^ (10 * c.degree * N) - 1) * M := mul_nonneg (by linarith [H.one_le_pow (10 * c.degree * N)]) hM
    refine lt_of_le_of_lt ?_ hm
    have e1 : d / (c.hi.val - c.lo.val) * ((c.hi.val - c.lo.val) / 2 ^ N + 8 * (1 / 2 ^ p) * L) = d / 2 ^ N + 8 * L * d / (c.hi.val - c.lo.val) / 2 ^ p := by
      field_simp
    have e2 : (8 * L * d / (c.hi.val - c.lo.val) + 40 * c.degree * N * M) / 2 ^ p = 8 * L * d / (c.hi.val - c.lo.val) / 2 ^ p + 2 * (20 * c.degree * N / 2 ^ p * M) := by ring
    rw [e1, e2, mul_one_div]
    refine mul_le_mul_of_nonneg_left (pow_le_pow_left₀ (mul_nonneg (Nat.cast_nonneg _) ?_) (mul_le_mul_of_nonneg_left ?_ (Nat.cast_nonneg _)) 2) (by positivity)
    · have : 0 ≤ d / 2 ^ N + 8 * L * d / (c.hi.val - c.lo.val) / 2 ^ p := by positivity
      linarith
    · linarith
  obtain ⟨res, hr⟩ := float_returns (hp := hp) m1 m2 (div_nonneg hd1 w1.le) (div_nonneg hd2 w2.le) B1.interval B2.interval hu1' hu2' hs ht N
    (size B1.valid.deg_le m1 l1 hd1 w1 hm1) (size B2.valid.deg_le m2 l2 hd2 w2 hm2) N 0 c1 c2 acc (by omega) (part_self B1 l1 hw1 S1) (part_self B2 l2 hw2 S2)
  obtain ⟨new, e, g, -⟩ := C144_reports_meet p hp c1 c2 L1 L2 M1 M2 B1 B2 hu1 hu2 sqrt hs tol N hw1 hw2 acc _ hr
  exact ⟨new, by rw [hr, e], g⟩

/-- The square root of `double`, rounded to the nearest number, is nearly exact. -/
theorem double_sqrt_near : SqrtNear (1 / 2 ^ 53) Num.doubleLib.sqrt := by
  intro x hx
  rcases hx.lt_or_eq with h | h
  · obtain ⟨a, b⟩ := Num.doubleLib_near.sqrt x h
    exact ⟨a.le, b⟩
  · have : (Num.doubleLib.sqrt x).val = 0 := by
      show (Rounding.float (K := ℝ) 53 (by norm_num)).rnd (Real.sqrt x.val) = 0
      rw [← h, Real.sqrt_zero]
      exact (Rounding.float (K := ℝ) 53 (by norm_num)).zero
    rw [this, ← h]
    norm_num

/-- **C144** for `double`: two Bézier curves over [0, 1] with weights one and coordinates of size at most `M`. If 14 times the steps of the control polygons after `N ≤ 37` halvings, plus
2^-35 `M`, are within the tolerance, the search returns normally after at most `N` halvings, and at every reported pair the curves are within `2 (1 + 2^-50)` times the tolerance, plus 2^-39 `M`,
of each other in each coordinate. -/
theorem C144_double (c1 c2 : Curve (Fp (Rounding.float (K := ℝ) 53 (by norm_num)))) (M d : ℝ) (B1 : FloatBezier 1 M c1) (B2 : FloatBezier 1 M c2)
    (i1 : c1.lo.val = 0 ∧ c1.hi.val = 1) (i2 : c2.lo.val = 0 ∧ c2.hi.val = 1) (N : Nat) (hN : N ≤ 37) (hd : 0 ≤ d) (hdM : d ≤ 2 * M) (S1 : StepsLe d c1.exact) (S2 : StepsLe d c2.exact)
    (tol : Fp _) (ht : 0 < tol.val) (hm : 14 * (d / 2 ^ N + M / 2 ^ 39) ≤ tol.val) :
    ∃ res, ccx Num.doubleLib.sqrt tol (N + 1) c1 c2 [] = some (.ok res) ∧ ∀ q ∈ res, MeetsWithin (2 * (1 + 1 / 2 ^ 50) * tol.val + M / 2 ^ 39) c1 c2 q := by
  have M0 := B1.nonneg.2
  have wide : (3 : ℝ) * 2 ^ (N + 1) / 10 ^ 12 < 1 := by
    rw [div_lt_one (by positivity)]
    have : (2 : ℝ) ^ (N + 1) ≤ 2 ^ 38 := pow_le_pow_right₀ (by norm_num) (by omega)
    norm_num at this ⊢
    linarith
  have hN' : (N : ℝ) ≤ 37 := by exact_mod_cast hN
  have N0 : (0 : ℝ) ≤ N := Nat.cast_nonneg _
  have size : ∀ c : Curve (Fp (Rounding.float (K := ℝ) 53 (by norm_num))), FloatBezier 1 M c → c.lo.val = 0 ∧ c.hi.val = 1 →
      3 * (1 + 10 / 2 ^ 53) * (c.degree * (d / 2 ^ N + (8 * 1 * d / (c.hi.val - c.lo.val) + 40 * c.degree * N * M) / 2 ^ 53)) ^ 2 < tol.val ^ 2 := by
    intro c B i
    have h8 : (c.degree : ℝ) ≤ 8 := by exact_mod_cast (show c.degree ≤ 8 from B.valid.deg_le)
    have d0 : (0 : ℝ) ≤ c.degree := Nat.cast_nonneg _
    rw [i.1, i.2, sub_zero, div_one]
    have k1 : 40 * c.degree * N * M ≤ 11840 * M := by
      have : (c.degree : ℝ) * N ≤ 8 * 37 := mul_le_mul h8 hN' N0 (by norm_num)
      have := mul_le_mul_of_nonneg_right this M0
      linarith
    have k2 : (8 * 1 * d + 40 * c.degree * N * M) / 2 ^ 53 ≤ M / 2 ^ 39 := by
      rw [div_le_div_iff₀ (by positivity) (by positivity)]
      norm_num
      linarith
    have k0 : 0 ≤ (8 * 1 * d + 40 * c.degree * N * M) / 2 ^ 53 := by positivity
    have x0 : 0 ≤ d / 2 ^ N := by positivity
    have k3 : c.degree * (d / 2 ^ N + (8 * 1 * d + 40 * c.degree * N * M) / 2 ^ 53) ≤ 8 * (d / 2 ^ N + M / 2 ^ 39) :=
      mul_le_mul h8 (by linarith) (by linarith) (by norm_num)
    have k4 := pow_le_pow_left₀ (mul_nonneg d0 (by linarith)) k3 2
    have k5 : (8 * (d / 2 ^ N + M / 2 ^ 39)) ^ 2 ≤ (8 / 14 * tol.val) ^ 2 := pow_le_pow_left₀ (by positivity) (by linarith) 2
    have k6 : 0 < tol.val ^ 2 := by positivity
    have k7 : (8 / 14 * tol.val) ^ 2 = 16 / 49 * tol.val ^ 2 := by ring
    rw [k7] at k5
    generalize (c.degree * (d / 2 ^ N + (8 * 1 * d + 40 * c.degree * N * M) / 2 ^ 53)) ^ 2 = X at *
    norm_num
    linarith
  obtain ⟨res, hr, g⟩ := C144_returns 53 (by norm_num) c1 c2 1 1 M M B1 B2 (by norm_num) (by norm_num) _ double_sqrt_near tol ht N (by rw [i1.1, i1.2, sub_zero]; exact wide)
    (by rw [i2.1, i2.2, sub_zero]; exact wide) d d hd hd S1 S2 (size c1 B1 i1) (size c2 B2 i2) []
  refine ⟨res, hr, fun q hq => ?_⟩
  obtain ⟨a, b, P, Q, e1, e2, x, y, z⟩ := g q hq
  have h81 : (c1.degree : ℝ) ≤ 8 := by exact_mod_cast (show c1.degree ≤ 8 from B1.valid.deg_le)
  have h82 : (c2.degree : ℝ) ≤ 8 := by exact_mod_cast (show c2.degree ≤ 8 from B2.valid.deg_le)
  have le : 2 * (1 + 8 / 2 ^ 53) * tol.val + 20 * N / 2 ^ 53 * (c1.degree * M + c2.degree * M) ≤ 2 * (1 + 1 / 2 ^ 50) * tol.val + M / 2 ^ 39 := by
    have k1 : 20 * N / 2 ^ 53 * (c1.degree * M + c2.degree * M) ≤ 20 * 37 / 2 ^ 53 * (16 * M) := by
      refine mul_le_mul ?_ ?_ (by positivity) (by positivity)
      · rw [div_le_div_iff_of_pos_right (by positivity)]; linarith
      · have := mul_le_mul_of_nonneg_right h81 M0
        have := mul_le_mul_of_nonneg_right h82 M0
        linarith
    have k2 : 20 * 37 / 2 ^ 53 * (16 * M) ≤ M / 2 ^ 39 := by
      rw [le_div_iff₀ (by positivity)]
      norm_num
      linarith
    have k3 : (2 * (1 + 8 / 2 ^ 53) : ℝ) = 2 * (1 + 1 / 2 ^ 50) := by norm_num
    rw [k3]
    linarith
  exact ⟨a, b, P, Q, e1, e2, x.trans le, y.trans le, z.trans le⟩

/-- The two diagonals of the unit square, in `double`. -/
noncomputable def diagonalF (a b : Fp (Rounding.float (K := ℝ) 53 (by norm_num))) : Curve (Fp (Rounding.float (K := ℝ) 53 (by norm_num))) :=
  ⟨[⟨0, a, 0, 1⟩, ⟨1, b, 0, 1⟩], 1, [0, 0, 1, 1], false, 0, 1⟩

theorem one_val : (1 : Fp (Rounding.float (K := ℝ) 53 (by norm_num))).val = 1 := by
  have := Num.doubleFormat.nat 1 (by norm_num) (by norm_num)
  push_cast at this
  exact this

theorem zero_val : (0 : Fp (Rounding.float (K := ℝ) 53 (by norm_num))).val = 0 := (Rounding.float (K := ℝ) 53 (by norm_num)).zero

theorem diagonalF_ok (a b : Fp (Rounding.float (K := ℝ) 53 (by norm_num))) (ha : a.val = 0 ∨ a.val = 1) (hb : b.val = 0 ∨ b.val = 1) :
    FloatBezier 1 1 (diagonalF a b) ∧ StepsLe 1 (diagonalF a b).exact := by
  have e : (diagonalF a b).exact = ⟨[⟨0, a.val, 0, 1⟩, ⟨1, b.val, 0, 1⟩], 1, [0, 0, 1, 1], false, 0, 1⟩ := by
    simp [diagonalF, Curve.exact, exact4, one_val, zero_val]
  have hab : |b.val - a.val| ≤ 1 := by rcases ha with h | h <;> rcases hb with h' | h' <;> rw [h, h'] <;> norm_num
  have haa : |a.val| ≤ 1 := by rcases ha with h | h <;> rw [h] <;> norm_num
  have hbb : |b.val| ≤ 1 := by rcases hb with h | h <;> rw [h] <;> norm_num
  refine ⟨⟨?_, ?_, ?_, ?_, ?_⟩, ?_⟩
  · rw [e]
    refine ⟨le_refl _, show 1 ≤ 8 by decide, show 1 < 2 by decide, rfl, ?_, ?_⟩
    · unfold SortedKnots; simp
    · simp [ix]
  · rw [e]; exact ⟨rfl, rfl⟩
  · rw [e]; simp
  · rw [e]
    intro q hq
    simp only [List.mem_cons, List.not_mem_nil, or_false] at hq
    rcases hq with rfl | rfl
    · exact ⟨by simp [Vec4.pos], haa, by simp [Vec4.pos]⟩
    · exact ⟨by simp [Vec4.pos], hbb, by simp [Vec4.pos]⟩
  · simp [diagonalF, one_val, zero_val]
  · rw [e]
    intro i hi
    have : i = 0 := by simp at hi; omega
    subst this
    simp only [ix]
    exact ⟨by simp, hab, by simp⟩

/-- The two diagonals of the unit square meet the assumptions, with tolerance one and five halvings. -/
example : ∃ res, ccx Num.doubleLib.sqrt 1 6 (diagonalF 0 1) (diagonalF 1 0) [] = some (.ok res) ∧
    ∀ q ∈ res, MeetsWithin (2 * (1 + 1 / 2 ^ 50) * (1 : Fp (Rounding.float (K := ℝ) 53 (by norm_num))).val + 1 / 2 ^ 39) (diagonalF 0 1) (diagonalF 1 0) q := by
  obtain ⟨B1, S1⟩ := diagonalF_ok 0 1 (Or.inl zero_val) (Or.inr one_val)
  obtain ⟨B2, S2⟩ := diagonalF_ok 1 0 (Or.inr one_val) (Or.inl zero_val)
  exact C144_double _ _ 1 1 B1 B2 ⟨zero_val, one_val⟩ ⟨zero_val, one_val⟩ 5 (by norm_num) (by norm_num) (by norm_num) S1 S2 1 (by rw [one_val]; norm_num) (by rw [one_val]; norm_num)

end Cmm.Ccx
