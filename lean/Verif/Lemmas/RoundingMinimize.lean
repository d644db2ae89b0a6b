import Verif.Spec.Format
import Verif.Lemmas.Minimize
import Verif.Lemmas.FloatOne
/-! Bounded minimisation in floating-point arithmetic. -/
namespace Cmm.Num
open Cmm.Nurbs (absA)
variable {K : Type} [Field K] [LinearOrder K] [IsStrictOrderedRing K]

/-- The distance of the best point from the lower end of the bracket, if the loop goes on and the point is not below the middle. -/
theorem side_lo {a b xf xm T t2 h u : K} (h0 : 0 ≤ u) (h1 : u ≤ 1 / 2 ^ 40) (ha : a ≤ xf) (hb : xf ≤ b) (hx : |xf| ≤ 2 ^ 28 * T) (ht : |t2 - 2 * T| ≤ u * (2 * T))
    (hh : |h - (b - a) / 2| ≤ 3 * u * ((b - a) / 2)) (hm : |xm - (a + b) / 2| ≤ 3 * u * (|a + b| / 2))
    (hc : t2 - h - u * (t2 + h) < (xf - xm) + u * (xf - xm)) (hs : xm ≤ xf) : T ≤ xf - a := by
  by_contra hd
  push Not at hd
  have hT : 0 < T := by linarith
  have hw : 0 ≤ b - a := by linarith
  have e1 : |a + b| ≤ 2 * ((2 ^ 28 + 1) * T) + (b - a) := by
    have k := abs_le.mp hx
    rw [abs_le]; constructor <;> linarith
  have e2 : u * |a + b| ≤ 1 / 2 ^ 40 * (2 * ((2 ^ 28 + 1) * T) + (b - a)) := mul_le_mul h1 e1 (abs_nonneg _) (by positivity)
  have e3 : u * T ≤ 1 / 2 ^ 40 * T := mul_le_mul_of_nonneg_right h1 hT.le
  have e4 : u * (b - a) ≤ 1 / 2 ^ 40 * (b - a) := mul_le_mul_of_nonneg_right h1 hw
  have m := abs_le.mp hm
  have w : b - a ≤ 3 * T := by
    norm_num at e2 e3 e4
    linarith
  have th := abs_le.mp ht
  have hb' := abs_le.mp hh
  have e5 : u * (t2 + h) ≤ 1 / 2 ^ 40 * (8 * T) := by
    norm_num at e3 e4
    exact mul_le_mul h1 (by linarith) (by linarith) (by positivity)
  have e6 : u * (xf - xm) ≤ 1 / 2 ^ 40 * (8 * T) := by
    norm_num at e2 e3 e4
    exact mul_le_mul h1 (by linarith) (by linarith) (by positivity)
  norm_num at e2 e3 e4 e5 e6
  linarith

theorem side_hi {a b xf xm T t2 h u : K} (h0 : 0 ≤ u) (h1 : u ≤ 1 / 2 ^ 40) (ha : a ≤ xf) (hb : xf ≤ b) (hx : |xf| ≤ 2 ^ 28 * T) (ht : |t2 - 2 * T| ≤ u * (2 * T))
    (hh : |h - (b - a) / 2| ≤ 3 * u * ((b - a) / 2)) (hm : |xm - (a + b) / 2| ≤ 3 * u * (|a + b| / 2))
    (hc : t2 - h - u * (t2 + h) < (xm - xf) + u * (xm - xf)) (hs : xf ≤ xm) : T ≤ b - xf := by
  have := side_lo (a := -b) (b := -a) (xf := -xf) (xm := -xm) (T := T) (t2 := t2) (h := h) h0 h1 (by linarith) (by linarith) (by rwa [abs_neg]) ht
    (by rw [show -a - -b = b - a by ring]; exact hh)
    (by rw [show -xm - (-b + -a) / 2 = -(xm - (a + b) / 2) by ring, show -b + -a = -(a + b) by ring, abs_neg, abs_neg]; exact hm)
    (by rw [show -xf - -xm = xm - xf by ring]; exact hc) (by linarith)
  linarith

variable {R : Rounding K} {u : K}

namespace FormatOk
variable (F : FormatOk R u)
include F

theorem bounds {y : K} (hy : 0 ≤ y) : y - u * y ≤ R.rnd y ∧ R.rnd y ≤ y + u * y := by
  have := abs_le.mp (F.err y)
  rw [abs_of_nonneg hy] at this
  constructor <;> linarith

theorem rnd_nonneg {y : K} (hy : 0 ≤ y) : 0 ≤ R.rnd y := by
  have := R.mono 0 y hy
  rwa [R.zero] at this

theorem rnd_eq_zero {y : K} (h : R.rnd y = 0) : y = 0 := by
  have := F.err y
  rw [h, zero_sub, abs_neg] at this
  have h1 := F.small
  by_contra hy
  have hp := abs_pos.mpr hy
  have : u * |y| ≤ 1 / 2 ^ 40 * |y| := mul_le_mul_of_nonneg_right h1 hp.le
  norm_num at this
  linarith

theorem nonneg_of_rnd {y : K} (h : 0 ≤ R.rnd y) : 0 ≤ y := by
  by_contra hy
  push Not at hy
  have := R.mono y 0 hy.le
  rw [R.zero] at this
  exact hy.ne (F.rnd_eq_zero (le_antisymm this h))

theorem absA_val (x : Fp R) : (absA x).val = |x.val| := by
  have e : (-x : Fp R).val = -x.val := F.neg _ x.2
  have : (absA x).val = max x.val (-x : Fp R).val := by
    unfold absA
    rcases le_total x (-x) with h | h
    · rw [max_eq_right h, max_eq_right (show x.val ≤ (-x : Fp R).val from h)]
    · rw [max_eq_left h, max_eq_left (show (-x : Fp R).val ≤ x.val from h)]
  rw [this, e, abs_eq_max_neg]

theorem half_val : (1 / 2 : Fp R).val = 1 / 2 := by
  show R.rnd (R.rnd 1 / R.rnd ((2 : Nat) : K)) = 1 / 2
  have h1 := F.nat 1 le_rfl (by norm_num)
  have h2 := F.nat 2 (by norm_num) (by norm_num)
  push_cast at h1 h2
  rw [h1]
  push_cast
  rw [h2, F.half]

end FormatOk

theorem max_val (x y : Fp R) : (max x y).val = max x.val y.val := by
  rcases le_total x y with h | h
  · rw [max_eq_right h, max_eq_right (show x.val ≤ y.val from h)]
  · rw [max_eq_left h, max_eq_left (show y.val ≤ x.val from h)]

variable {L : MinLib (Fp R)} {f : Fp R → Option (Fp R)} {lo hi xatol : Fp R} {s : MinState (Fp R)}

theorem golden_near (F : FormatOk R u) (hL : LibNear u L) : 1 / 3 ≤ (goldenMean L).val ∧ (goldenMean L).val ≤ 1 / 2 := by
  have h0 := F.nonneg
  have h1 := F.small
  have e3 := F.nat 3 (by norm_num) (by norm_num)
  have e5 := F.nat 5 (by norm_num) (by norm_num)
  push_cast at e3 e5
  have e : (goldenMean L).val = R.rnd ((1 / 2 : Fp R).val * R.rnd (R.rnd ((3 : Nat) : K) - (L.sqrt 5).val)) := rfl
  have v5 : (5 : Fp R).val = 5 := by show R.rnd ((5 : Nat) : K) = 5; push_cast; exact e5
  rw [e, F.half_val]
  push_cast
  rw [e3]
  obtain ⟨p, q⟩ := hL.sqrt 5 (by rw [v5]; norm_num)
  rw [v5] at q
  generalize (L.sqrt 5).val = z at p q
  have q := abs_le.mp q
  norm_num at h1
  have z1 : z ≤ 23 / 10 := by
    by_contra h
    push Not at h
    nlinarith
  have z2 : 22 / 10 ≤ z := by
    by_contra h
    push Not at h
    nlinarith
  have b1 := F.bounds (show 0 ≤ 3 - z by linarith)
  have b2 := F.bounds (show 0 ≤ 1 / 2 * R.rnd (3 - z) by linarith [F.rnd_nonneg (show 0 ≤ 3 - z by linarith)])
  have c1 : u * (3 - z) ≤ 1 / 1099511627776 * (3 - z) := mul_le_mul_of_nonneg_right h1 (by linarith)
  have c2 : u * (1 / 2 * R.rnd (3 - z)) ≤ 1 / 1099511627776 * (1 / 2 * R.rnd (3 - z)) := mul_le_mul_of_nonneg_right h1 (by linarith [F.rnd_nonneg (show 0 ≤ 3 - z by linarith)])
  constructor <;> linarith

theorem sqrtEps_near (F : FormatOk R u) (hL : LibNear u L) : 1 / 2 ^ 27 ≤ (sqrtEps L).val ∧ (sqrtEps L).val ≤ 149 / 10 ^ 10 := by
  have h0 := F.nonneg
  have h1 := F.small
  norm_num at h1
  have e : (22 / ((10 ^ 17 : Nat) : Fp R) : Fp R).val = R.rnd (R.rnd ((22 : Nat) : K) / R.rnd ((10 ^ 17 : Nat) : K)) := rfl
  have n := F.bounds (show (0 : K) ≤ ((22 : Nat) : K) by positivity)
  have d := F.bounds (show (0 : K) ≤ ((10 ^ 17 : Nat) : K) by positivity)
  have cn : u * ((22 : Nat) : K) ≤ 1 / 1099511627776 * ((22 : Nat) : K) := mul_le_mul_of_nonneg_right h1 (by positivity)
  have cd : u * ((10 ^ 17 : Nat) : K) ≤ 1 / 1099511627776 * ((10 ^ 17 : Nat) : K) := mul_le_mul_of_nonneg_right h1 (by positivity)
  generalize R.rnd ((22 : Nat) : K) = N at *
  generalize R.rnd ((10 ^ 17 : Nat) : K) = D at *
  push_cast at n d cn cd
  have D0 : 0 < D := by norm_num at d cd; linarith
  have q1 : 219 / 10 ^ 18 ≤ N / D := by
    rw [le_div_iff₀ D0]; norm_num at n d cn cd ⊢; linarith
  have q2 : N / D ≤ 221 / 10 ^ 18 := by
    rw [div_le_iff₀ D0]; norm_num at n d cn cd ⊢; linarith
  have r := F.bounds (show 0 ≤ N / D from le_trans (by positivity) q1)
  have cr : u * (N / D) ≤ 1 / 1099511627776 * (N / D) := mul_le_mul_of_nonneg_right h1 (le_trans (by positivity) q1)
  rw [← e] at r
  generalize hX : (22 / ((10 ^ 17 : Nat) : Fp R) : Fp R) = X at *
  have x1 : 218 / 10 ^ 18 ≤ X.val := by norm_num at q1 ⊢; linarith
  have x2 : X.val ≤ 2215 / 10 ^ 19 := by norm_num at q2 ⊢; linarith
  obtain ⟨p, q⟩ := hL.sqrt X (lt_of_lt_of_le (by positivity) x1)
  have ex : sqrtEps L = L.sqrt X := by unfold sqrtEps; rw [hX]
  rw [ex]
  generalize (L.sqrt X).val = z at p q
  have q := abs_le.mp q
  have cx : u * X.val ≤ 1 / 1099511627776 * X.val := mul_le_mul_of_nonneg_right h1 (le_trans (by positivity) x1)
  norm_num at x1 x2
  constructor
  · by_contra h
    push Not at h
    have : z ^ 2 ≤ (1 / 2 ^ 27) ^ 2 := pow_le_pow_left₀ p.le h.le 2
    norm_num at this
    linarith
  · by_contra h
    push Not at h
    have : (149 / 10 ^ 10) ^ 2 ≤ z ^ 2 := pow_le_pow_left₀ (by positivity) h.le 2
    norm_num at this
    linarith

/-- The relation of the tolerance to the best point. -/
theorem tol_near (F : FormatOk R u) (hL : LibNear u L) (hx : 0 ≤ xatol.val) (h : s.tol1 = sqrtEps L * absA s.xf + xatol / 3) :
    0 ≤ s.tol1.val ∧ |s.xf.val| ≤ 2 ^ 28 * s.tol1.val ∧ s.tol1.val ≤ 1001 / 1000 * (149 / 10 ^ 10 * |s.xf.val| + xatol.val / 3) := by
  have h0 := F.nonneg
  have h1 := F.small
  norm_num at h1
  obtain ⟨g1, g2⟩ := sqrtEps_near F hL
  have e3 := F.nat 3 (by norm_num) (by norm_num)
  push_cast at e3
  have e : s.tol1.val = R.rnd (R.rnd ((sqrtEps L).val * |s.xf.val|) + R.rnd (xatol.val / 3)) := by
    rw [h, ← F.absA_val s.xf]
    show R.rnd (R.rnd _ + R.rnd (xatol.val / R.rnd ((3 : Nat) : K))) = _
    push_cast
    rw [e3]
  have X0 := abs_nonneg s.xf.val
  generalize |s.xf.val| = X at *
  generalize (sqrtEps L).val = σ at *
  have p1 : 1 / 2 ^ 27 * X ≤ σ * X := mul_le_mul_of_nonneg_right g1 X0
  have p2 : σ * X ≤ 149 / 10 ^ 10 * X := mul_le_mul_of_nonneg_right g2 X0
  have p0 : 0 ≤ σ * X := le_trans (by positivity) p1
  generalize σ * X = Y at *
  have y0 : 0 ≤ xatol.val / 3 := by positivity
  generalize xatol.val / 3 = Z at *
  have b1 := F.bounds p0
  have b2 := F.bounds y0
  have n1 := F.rnd_nonneg p0
  have n2 := F.rnd_nonneg y0
  have c1 : u * Y ≤ 1 / 1099511627776 * Y := mul_le_mul_of_nonneg_right h1 p0
  have c2 : u * Z ≤ 1 / 1099511627776 * Z := mul_le_mul_of_nonneg_right h1 y0
  generalize R.rnd Y = Y' at *
  generalize R.rnd Z = Z' at *
  have b3 := F.bounds (add_nonneg n1 n2)
  have c3 : u * (Y' + Z') ≤ 1 / 1099511627776 * (Y' + Z') := mul_le_mul_of_nonneg_right h1 (add_nonneg n1 n2)
  rw [← e] at b3
  norm_num at p1 p2 ⊢
  refine ⟨by linarith, by linarith, by linarith⟩

/-- The step taken, for any arithmetic. -/
theorem minStep_any {K : Type} [Arith K] [LinearOrder K] (L : MinLib K) (s : MinState K) :
    minStep L s = goldenStep L s ∨
    ∃ rat, ((s.xf + rat - s.a < s.tol2 ∨ s.b - (s.xf + rat) < s.tol2) ∧ (minStep L s).1 = s.tol1 * L.sgn s.num (s.xm - s.xf)) ∨
       (¬(s.xf + rat - s.a < s.tol2 ∨ s.b - (s.xf + rat) < s.tol2) ∧ (minStep L s).1 = rat) := by
  unfold minStep
  split
  case isFalse => exact Or.inl rfl
  case isTrue =>
    split
    case h_2 => exact Or.inl rfl
    case h_1 fx ffulc fnfc h1 h2 h3 =>
      dsimp only
      generalize (if 2 * ((s.xf - s.fulc) * (fx - fnfc) - (s.xf - s.nfc) * (fx - ffulc)) > 0 then _ else _) = p
      generalize absA (2 * ((s.xf - s.fulc) * (fx - fnfc) - (s.xf - s.nfc) * (fx - ffulc))) = q
      split
      case isFalse => exact Or.inl rfl
      case isTrue h =>
        refine Or.inr ⟨p / q, ?_⟩
        split
        case isTrue h => exact Or.inl ⟨h, rfl⟩
        case isFalse h => exact Or.inr ⟨h, rfl⟩

/-- The values of the condition of the loop: what it says about the numbers behind it. -/
theorem cond_val (F : FormatOk R u) (I : MinInv L f lo hi xatol s) :
    ∃ h xm : K, s.xm.val = xm ∧ h = R.rnd (1 / 2 * R.rnd (s.b.val - s.a.val)) ∧ 0 ≤ h ∧
      |h - (s.b.val - s.a.val) / 2| ≤ 3 * u * ((s.b.val - s.a.val) / 2) ∧
      |xm - (s.a.val + s.b.val) / 2| ≤ 3 * u * (|s.a.val + s.b.val| / 2) ∧
      (s.tol2 - 1 / 2 * (s.b - s.a)).val = R.rnd (s.tol2.val - h) ∧ (absA (s.xf - s.xm)).val = |R.rnd (s.xf.val - xm)| ∧
      |s.tol2.val - 2 * s.tol1.val| ≤ u * (2 * |s.tol1.val|) := by
  have h0 := F.nonneg
  have h1 := F.small
  have two : ∀ y : K, |R.rnd (1 / 2 * R.rnd y) - y / 2| ≤ 3 * u * (|y| / 2) := by
    intro y
    have k1 := F.err y
    have k2 := F.err (1 / 2 * R.rnd y)
    have k3 : |1 / 2 * R.rnd y| = 1 / 2 * |R.rnd y| := by rw [abs_mul, abs_of_pos (by norm_num : (0 : K) < 1 / 2)]
    rw [k3] at k2
    have k4 : |R.rnd y| ≤ |y| + u * |y| := by
      have := abs_add_le (R.rnd y - y) y
      rw [sub_add_cancel] at this
      linarith
    have k5 : u * |R.rnd y| ≤ u * (|y| + u * |y|) := mul_le_mul_of_nonneg_left k4 h0
    have k6 : u * (u * |y|) ≤ 1 / 2 ^ 40 * (u * |y|) := mul_le_mul_of_nonneg_right h1 (mul_nonneg h0 (abs_nonneg _))
    have k7 := mul_nonneg h0 (abs_nonneg y)
    have a1 := abs_le.mp k1
    have a2 := abs_le.mp k2
    norm_num at k6
    rw [abs_le]
    constructor <;> linarith
  have hw : 0 ≤ s.b.val - s.a.val := by
    have : s.a.val ≤ s.b.val := le_trans I.a_le I.le_b
    linarith
  refine ⟨_, _, rfl, rfl, F.rnd_nonneg (mul_nonneg (by norm_num) (F.rnd_nonneg hw)), ?_, ?_, ?_, ?_, ?_⟩
  · have := two (s.b.val - s.a.val)
    rwa [abs_of_nonneg hw] at this
  · rw [I.xm]
    have := two (s.a.val + s.b.val)
    rw [show (1 / 2 * (s.a + s.b) : Fp R).val = R.rnd ((1 / 2 : Fp R).val * R.rnd (s.a.val + s.b.val)) from rfl, F.half_val]
    exact this
  · rw [show (s.tol2 - 1 / 2 * (s.b - s.a) : Fp R).val = R.rnd (s.tol2.val - R.rnd ((1 / 2 : Fp R).val * R.rnd (s.b.val - s.a.val))) from rfl, F.half_val]
  · rw [F.absA_val]; rfl
  · have e2 := F.nat 2 (by norm_num) (by norm_num)
    push_cast at e2
    rw [I.tol2, show (2 * s.tol1 : Fp R).val = R.rnd (R.rnd ((2 : Nat) : K) * s.tol1.val) from rfl]
    push_cast
    rw [e2]
    have := F.err (2 * s.tol1.val)
    rwa [abs_mul, abs_of_pos (two_pos : (0 : K) < 2)] at this

/-- A step that is not much smaller than the tolerance moves the point. -/
theorem moved (F : FormatOk R u) {x T d : K} (hT : 0 < T) (TX : |x| ≤ 2 ^ 28 * T) (hd : T ≤ |d|) : R.rnd (x + d) ≠ x := by
  intro h
  have k := F.err (x + d)
  rw [h, show x - (x + d) = -d by ring, abs_neg] at k
  have k2 : u * |x + d| ≤ 1 / 2 ^ 40 * (|x| + |d|) := mul_le_mul F.small (abs_add_le _ _) (abs_nonneg _) (by positivity)
  norm_num at k2 TX
  linarith

/-- The value of the next point for a given step. -/
theorem next_val (F : FormatOk R u) (x rat T σ : Fp R) (hσ : σ.val = 1 ∨ σ.val = -1) :
    (x + σ * max (absA rat) T).val = R.rnd (x.val + σ.val * max |rat.val| T.val) := by
  have hM : (max (absA rat) T).val = max |rat.val| T.val := by rw [max_val, F.absA_val]
  have fM : R.rnd (max |rat.val| T.val) = max |rat.val| T.val := by rw [← hM]; exact (max (absA rat) T).2
  have e : (x + σ * max (absA rat) T).val = R.rnd (x.val + R.rnd (σ.val * max |rat.val| T.val)) := by
    rw [← hM]; rfl
  rw [e]
  rcases hσ with g | g <;> rw [g]
  · rw [one_mul, fM]
  · rw [neg_one_mul, F.neg _ fM]

/-- What is to be shown of the next point. -/
def Within (a b x T p : Fp R) : Prop := a ≤ p ∧ p ≤ b ∧ (0 < T.val → p ≠ x)

theorem within_of (F : FormatOk R u) {a b x T : Fp R} (ha : a.val ≤ x.val) (hb : x.val ≤ b.val) (TX : |x.val| ≤ 2 ^ 28 * T.val) {rat σ : Fp R}
    (hσ : σ.val = 1 ∨ σ.val = -1) (h1 : max |rat.val| T.val ≤ x.val - a.val ∨ σ.val = 1) (h2 : max |rat.val| T.val ≤ b.val - x.val ∨ σ.val = -1) :
    Within a b x T (x + σ * max (absA rat) T) := by
  have e := next_val F x rat T σ hσ
  have M0 : 0 ≤ max |rat.val| T.val := le_trans (abs_nonneg _) (le_max_left _ _)
  have MT : T.val ≤ max |rat.val| T.val := le_max_right _ _
  have fa : R.rnd a.val = a.val := a.2
  have fb : R.rnd b.val = b.val := b.2
  have hn : (1 : K) ≠ -1 := by norm_num
  generalize max |rat.val| T.val = M at *
  have ends : a.val ≤ x.val + σ.val * M ∧ x.val + σ.val * M ≤ b.val ∧ |σ.val * M| = M := by
    rcases hσ with g | g <;> rw [g] at h1 h2 ⊢
    · rw [one_mul]
      have h2 := h2.resolve_right hn
      exact ⟨by linarith, by linarith, abs_of_nonneg M0⟩
    · rw [neg_one_mul]
      have h1 := h1.resolve_right (Ne.symm hn)
      exact ⟨by linarith, by linarith, by rw [abs_neg, abs_of_nonneg M0]⟩
  refine ⟨?_, ?_, fun ht h => moved F ht TX (le_of_le_of_eq MT ends.2.2.symm) (by rw [← e, h])⟩
  · have := R.mono _ _ ends.1
    rw [fa, ← e] at this
    exact this
  · have := R.mono _ _ ends.2.1
    rw [fb, ← e] at this
    exact this

/-- The golden step is not longer than the way to the end it goes to. -/
theorem gold_le (F : FormatOk R u) {g : K} (g1 : 1 / 3 ≤ g) (g2 : g ≤ 1 / 2) (z : K) : |R.rnd (g * R.rnd z)| ≤ |z| := by
  have h0 := F.nonneg
  have h1 := F.small
  have k1 := F.err z
  have k2 := F.err (g * R.rnd z)
  have k3 : |R.rnd z| ≤ |z| + u * |z| := by
    have := abs_add_le (R.rnd z - z) z
    rw [sub_add_cancel] at this
    linarith
  have k4 : |g * R.rnd z| ≤ 1 / 2 * (|z| + u * |z|) := by
    rw [abs_mul, abs_of_nonneg (by linarith)]
    exact mul_le_mul g2 k3 (abs_nonneg _) (by norm_num)
  have k5 : |R.rnd (g * R.rnd z)| ≤ |g * R.rnd z| + u * |g * R.rnd z| := by
    have := abs_add_le (R.rnd (g * R.rnd z) - g * R.rnd z) (g * R.rnd z)
    rw [sub_add_cancel] at this
    linarith
  have z0 := abs_nonneg z
  have k6 : u * |g * R.rnd z| ≤ 1 / 2 ^ 40 * (1 / 2 * (|z| + u * |z|)) := mul_le_mul h1 k4 (abs_nonneg _) (by norm_num)
  clear k1 k2 k3
  generalize |g * R.rnd z| = y at *
  have k7 : u * |z| ≤ 1 / 2 ^ 40 * |z| := mul_le_mul_of_nonneg_right h1 z0
  norm_num at k6 k7
  linarith

theorem gold_sign (F : FormatOk R u) {g z : K} (g1 : 1 / 3 ≤ g) : (z < 0 → R.rnd (g * R.rnd z) < 0) ∧ (0 < z → 0 < R.rnd (g * R.rnd z)) := by
  have neg : ∀ y : K, y < 0 → R.rnd y < 0 := by
    intro y hy
    refine lt_of_le_of_ne ?_ (fun h => hy.ne (F.rnd_eq_zero h))
    have := R.mono y 0 hy.le; rwa [R.zero] at this
  have pos : ∀ y : K, 0 < y → 0 < R.rnd y := fun y hy => lt_of_le_of_ne (F.rnd_nonneg hy.le) (fun h => hy.ne' (F.rnd_eq_zero h.symm))
  exact ⟨fun h => neg _ (mul_neg_of_pos_of_neg (by linarith) (neg z h)), fun h => pos _ (mul_pos (by linarith) (pos z h))⟩

/-- The golden step. -/
theorem golden_within (F : FormatOk R u) (hL : LibNear u L) {a b x T xm : Fp R} (n : Nat) (ha : a.val ≤ x.val) (hb : x.val ≤ b.val)
    (TX : |x.val| ≤ 2 ^ 28 * T.val) (hlo : xm.val ≤ x.val → T.val ≤ x.val - a.val) (hhi : x.val ≤ xm.val → T.val ≤ b.val - x.val) :
    Within a b x T (x + L.sgn n (goldenMean L * (if x ≥ xm then a - x else b - x)) * max (absA (goldenMean L * (if x ≥ xm then a - x else b - x))) T) := by
  obtain ⟨g1, g2⟩ := golden_near F hL
  have sg := hL.sgn n (goldenMean L * (if x ≥ xm then a - x else b - x))
  by_cases hge : x ≥ xm
  · rw [if_pos hge] at sg ⊢
    have hT := hlo hge
    have e : (goldenMean L * (a - x)).val = R.rnd ((goldenMean L).val * R.rnd (a.val - x.val)) := rfl
    have hle := gold_le F g1 g2 (a.val - x.val)
    rw [← e, abs_sub_comm a.val, abs_of_nonneg (show 0 ≤ x.val - a.val by linarith)] at hle
    refine within_of F ha hb TX sg.2.2 (Or.inl (max_le hle hT)) ?_
    rcases lt_or_eq_of_le ha with hlt | heq
    · exact Or.inr (sg.1 (by rw [e]; exact (gold_sign F g1).1 (by linarith)))
    · left
      rw [← heq, sub_self] at hle hT
      exact le_trans (max_le hle hT) (by linarith)
  · rw [if_neg hge] at sg ⊢
    have hgt : x.val < xm.val := not_le.1 hge
    have hT := hhi hgt.le
    have e : (goldenMean L * (b - x)).val = R.rnd ((goldenMean L).val * R.rnd (b.val - x.val)) := rfl
    have hle := gold_le F g1 g2 (b.val - x.val)
    rw [← e, abs_of_nonneg (show 0 ≤ b.val - x.val by linarith)] at hle
    refine within_of F ha hb TX sg.2.2 ?_ (Or.inl (max_le hle hT))
    rcases lt_or_eq_of_le hb with hlt | heq
    · exact Or.inr (sg.2.1 (by rw [e]; exact (gold_sign F g1).2 (by linarith)))
    · left
      rw [← heq, sub_self] at hle hT
      exact le_trans (max_le hle hT) (by linarith)

/-- The step of the length of the tolerance towards the middle. -/
theorem short_within (F : FormatOk R u) (hL : LibNear u L) {a b x T xm : Fp R} (n : Nat) (ha : a.val ≤ x.val) (hb : x.val ≤ b.val) (T0 : 0 ≤ T.val)
    (TX : |x.val| ≤ 2 ^ 28 * T.val) (hlo : xm.val ≤ x.val → T.val ≤ x.val - a.val) (hhi : x.val ≤ xm.val → T.val ≤ b.val - x.val) :
    Within a b x T (x + L.sgn n (T * L.sgn n (xm - x)) * max (absA (T * L.sgn n (xm - x))) T) := by
  have e : (T * L.sgn n (xm - x)).val = R.rnd (T.val * (L.sgn n (xm - x)).val) := rfl
  have ev : (xm - x).val = R.rnd (xm.val - x.val) := rfl
  have ft : R.rnd T.val = T.val := T.2
  have sg := hL.sgn n (xm - x)
  rw [ev] at sg
  have up : 0 ≤ R.rnd (xm.val - x.val) → x.val ≤ xm.val := fun h => by have := F.nonneg_of_rnd h; linarith
  have down : R.rnd (xm.val - x.val) ≤ 0 → xm.val ≤ x.val := by
    intro h
    by_contra hgt
    have := F.rnd_nonneg (show 0 ≤ xm.val - x.val by linarith [not_le.1 hgt])
    have := F.rnd_eq_zero (le_antisymm h this)
    linarith [not_le.1 hgt]
  have rv : (T * L.sgn n (xm - x)).val = T.val ∧ (L.sgn n (xm - x)).val = 1 ∨ (T * L.sgn n (xm - x)).val = -T.val ∧ (L.sgn n (xm - x)).val = -1 := by
    rcases sg.2.2 with g | g
    · left; rw [e, g, mul_one, ft]; exact ⟨rfl, rfl⟩
    · right; rw [e, g, mul_neg_one, F.neg _ ft]; exact ⟨rfl, rfl⟩
  have mx : max |(T * L.sgn n (xm - x)).val| T.val = T.val := by
    rcases rv with ⟨r, -⟩ | ⟨r, -⟩ <;> rw [r]
    · rw [abs_of_nonneg T0, max_self]
    · rw [abs_neg, abs_of_nonneg T0, max_self]
  have sr := hL.sgn n (T * L.sgn n (xm - x))
  have hpos : 0 < T.val ∨ T.val = 0 := T0.lt_or_eq.imp id Eq.symm
  have hn : (1 : K) ≠ -1 := by norm_num
  refine within_of F ha hb TX sr.2.2 ?_ ?_ <;> rw [mx]
  · rcases hpos with hp | hp
    · rcases rv with ⟨r, g⟩ | ⟨r, g⟩
      · exact Or.inr (sr.2.1 (by rw [r]; exact hp))
      · refine Or.inl (hlo (down ?_))
        by_contra q
        rw [sg.2.1 (not_le.1 q)] at g
        exact hn g
    · left; rw [hp]; linarith
  · rcases hpos with hp | hp
    · rcases rv with ⟨r, g⟩ | ⟨r, g⟩
      · refine Or.inl (hhi (up ?_))
        by_contra q
        rw [sg.1 (not_le.1 q)] at g
        exact hn g.symm
      · exact Or.inr (sr.1 (by rw [r]; linarith))
    · left; rw [hp]; linarith

/-- The step to the vertex of a parabola. -/
theorem vertex_within (F : FormatOk R u) (hL : LibNear u L) {a b x T T2 rat : Fp R} (n : Nat) (ha : a.val ≤ x.val) (hb : x.val ≤ b.val) (T0 : 0 ≤ T.val)
    (TX : |x.val| ≤ 2 ^ 28 * T.val) (T20 : 0 ≤ T2.val) (et : |T2.val - 2 * T.val| ≤ u * (2 * T.val)) (p1 : T2.val ≤ R.rnd (R.rnd (x.val + rat.val) - a.val))
    (p2 : T2.val ≤ R.rnd (b.val - R.rnd (x.val + rat.val))) : Within a b x T (x + L.sgn n rat * max (absA rat) T) := by
  have h1 := F.small
  have q1 := F.nonneg_of_rnd (le_trans T20 p1)
  have q2 := F.nonneg_of_rnd (le_trans T20 p2)
  have sg := hL.sgn n rat
  have hn : (1 : K) ≠ -1 := by norm_num
  rcases le_or_gt T.val |rat.val| with hr | hr
  · have mx : max |rat.val| T.val = |rat.val| := max_eq_left hr
    have e := next_val F x rat T _ sg.2.2
    rw [mx] at e
    have s : (L.sgn n rat).val * |rat.val| = rat.val := by
      rcases lt_trichotomy rat.val 0 with q | q | q
      · rw [sg.1 q, abs_of_neg q]; ring
      · rw [q]; simp
      · rw [sg.2.1 q, abs_of_pos q]; ring
    rw [s] at e
    refine ⟨?_, ?_, fun ht h => moved F ht TX hr (by rw [← e, h])⟩
    · rw [← e] at q1
      have : a.val ≤ (x + L.sgn n rat * max (absA rat) T).val := by linarith
      exact this
    · rw [← e] at q2
      have : (x + L.sgn n rat * max (absA rat) T).val ≤ b.val := by linarith
      exact this
  · have mx : max |rat.val| T.val = T.val := max_eq_right hr.le
    have hp : 0 < T.val := lt_of_le_of_lt (abs_nonneg _) hr
    have fx : R.rnd x.val = x.val := x.2
    have half : ∀ D : K, 0 ≤ D → T2.val ≤ R.rnd D → T.val ≤ D := by
      intro D hD hle
      have b1 := (F.bounds hD).2
      have et := (abs_le.mp et).1
      have eT : u * (2 * T.val) ≤ 1 / 2 ^ 40 * (2 * T.val) := mul_le_mul_of_nonneg_right h1 (by linarith)
      have c1 : u * D ≤ 1 / 2 ^ 40 * D := mul_le_mul_of_nonneg_right h1 hD
      norm_num at eT c1
      linarith
    have k1 := half _ q1 p1
    have k2 := half _ q2 p2
    have up : 0 ≤ rat.val → T.val ≤ b.val - x.val := by
      intro h
      have := R.mono x.val (x.val + rat.val) (by linarith)
      rw [fx] at this
      linarith
    have down : rat.val ≤ 0 → T.val ≤ x.val - a.val := by
      intro h
      have := R.mono (x.val + rat.val) x.val (by linarith)
      rw [fx] at this
      linarith
    refine within_of F ha hb TX sg.2.2 ?_ ?_ <;> rw [mx]
    · rcases le_or_gt rat.val 0 with q | q
      · exact Or.inl (down q)
      · exact Or.inr (sg.2.1 q)
    · rcases le_or_gt 0 rat.val with q | q
      · exact Or.inl (up q)
      · exact Or.inr (sg.1 q)

/-- The next point lies in the bracket, and differs from the best one if the tolerance is positive. -/
theorem nextPoint_near (F : FormatOk R u) (hL : LibNear u L) (hx : 0 ≤ xatol.val) (I : MinInv L f lo hi xatol s)
    (hc : absA (s.xf - s.xm) > s.tol2 - 1 / 2 * (s.b - s.a)) :
    s.a ≤ nextPoint L s ∧ nextPoint L s ≤ s.b ∧ (0 < s.tol1.val → nextPoint L s ≠ s.xf) := by
  have h0 := F.nonneg
  have h1 := F.small
  obtain ⟨T0, TX, -⟩ := tol_near F hL hx I.tol1
  obtain ⟨h, _, rfl, -, hh0, hh, hm, ec, ea, et⟩ := cond_val F I
  have ha : s.a.val ≤ s.xf.val := I.a_le
  have hb : s.xf.val ≤ s.b.val := I.le_b
  have hc' : (s.tol2 - 1 / 2 * (s.b - s.a)).val < (absA (s.xf - s.xm)).val := hc
  rw [ec, ea] at hc'
  rw [abs_of_nonneg T0] at et
  have T2 : 0 ≤ s.tol2.val := by
    have k : u * (2 * s.tol1.val) ≤ 1 / 2 ^ 40 * (2 * s.tol1.val) := mul_le_mul_of_nonneg_right h1 (by linarith)
    have := (abs_le.mp et).1
    norm_num at k
    linarith
  have cond : s.tol2.val - h - u * (s.tol2.val + h) < |s.xf.val - s.xm.val| + u * |s.xf.val - s.xm.val| := by
    have k1 := abs_le.mp (F.err (s.tol2.val - h))
    have k2 := F.err (s.xf.val - s.xm.val)
    have k3 : |R.rnd (s.xf.val - s.xm.val)| ≤ |s.xf.val - s.xm.val| + u * |s.xf.val - s.xm.val| := by
      have := abs_add_le (R.rnd (s.xf.val - s.xm.val) - (s.xf.val - s.xm.val)) (s.xf.val - s.xm.val)
      rw [sub_add_cancel] at this
      linarith
    have k4 : u * |s.tol2.val - h| ≤ u * (s.tol2.val + h) := mul_le_mul_of_nonneg_left (by rw [abs_le]; constructor <;> linarith) h0
    linarith
  have lo' : s.xm.val ≤ s.xf.val → s.tol1.val ≤ s.xf.val - s.a.val := by
    intro hs
    rw [abs_of_nonneg (by linarith)] at cond
    exact side_lo h0 h1 ha hb TX et hh hm cond hs
  have hi' : s.xf.val ≤ s.xm.val → s.tol1.val ≤ s.b.val - s.xf.val := by
    intro hs
    rw [abs_sub_comm, abs_of_nonneg (by linarith)] at cond
    exact side_hi h0 h1 ha hb TX et hh hm cond hs
  unfold nextPoint
  rcases minStep_any L s with hstep | ⟨rat, ⟨h3, h4⟩ | ⟨h3, h4⟩⟩
  · dsimp only
    rw [hstep]
    exact golden_within F hL s.num ha hb TX lo' hi'
  · dsimp only
    rw [h4]
    exact short_within F hL s.num ha hb T0 TX lo' hi'
  · dsimp only
    rw [h4]
    rw [not_or, not_lt, not_lt] at h3
    exact vertex_within F hL s.num ha hb T0 TX T2 et h3.1 h3.2

/-- The state before the loop. -/
theorem minInv_start (F : FormatOk R u) (hL : LibNear u L) (h : lo ≤ hi) : MinInv L f lo hi xatol (minInit L f lo hi xatol) := by
  obtain ⟨g1, g2⟩ := golden_near F hL
  have hv : lo.val ≤ hi.val := h
  have d0 : 0 ≤ R.rnd ((goldenMean L).val * R.rnd (hi.val - lo.val)) :=
    F.rnd_nonneg (mul_nonneg (by linarith) (F.rnd_nonneg (by linarith)))
  have d1 := gold_le F g1 g2 (hi.val - lo.val)
  rw [abs_of_nonneg d0, abs_of_nonneg (show 0 ≤ hi.val - lo.val by linarith)] at d1
  have e : (lo + goldenMean L * (hi - lo)).val = R.rnd (lo.val + R.rnd ((goldenMean L).val * R.rnd (hi.val - lo.val))) := rfl
  have fl : R.rnd lo.val = lo.val := lo.2
  have fh : R.rnd hi.val = hi.val := hi.2
  have k1 : lo ≤ lo + goldenMean L * (hi - lo) := by
    have := R.mono lo.val (lo.val + R.rnd ((goldenMean L).val * R.rnd (hi.val - lo.val))) (by linarith)
    rw [fl, ← e] at this
    exact this
  have k2 : lo + goldenMean L * (hi - lo) ≤ hi := by
    have := R.mono (lo.val + R.rnd ((goldenMean L).val * R.rnd (hi.val - lo.val))) hi.val (by linarith)
    rw [fh, ← e] at this
    exact this
  exact ⟨le_rfl, le_rfl, k1, k2, rfl, rfl, rfl, rfl, rfl, fun p hp => by rw [List.mem_singleton.1 hp]; exact ⟨k1, k2, rfl⟩, List.mem_singleton.2 rfl⟩

/-- The bracket when the loop stops by its condition. -/
theorem stop_near (F : FormatOk R u) (hL : LibNear u L) (hx : 0 ≤ xatol.val) (I : MinInv L f lo hi xatol s)
    (hc : absA (s.xf - s.xm) ≤ s.tol2 - 1 / 2 * (s.b - s.a)) {y : K} (hy1 : s.a.val ≤ y) (hy2 : y ≤ s.b.val) :
    |s.xf.val - y| ≤ 201 / 100 * (149 / 10 ^ 10 * |s.xf.val| + xatol.val / 3) := by
  have h0 := F.nonneg
  have h1 := F.small
  obtain ⟨T0, TX, TB⟩ := tol_near F hL hx I.tol1
  obtain ⟨h, _, rfl, -, hh0, hh, hm, ec, ea, et⟩ := cond_val F I
  have ha : s.a.val ≤ s.xf.val := I.a_le
  have hb : s.xf.val ≤ s.b.val := I.le_b
  have hc' : (absA (s.xf - s.xm)).val ≤ (s.tol2 - 1 / 2 * (s.b - s.a)).val := hc
  rw [ec, ea] at hc'
  rw [abs_of_nonneg T0] at et
  have hw : 0 ≤ s.b.val - s.a.val := by linarith
  have q := F.nonneg_of_rnd (le_trans (abs_nonneg _) hc')
  have b1 := (F.bounds q).2
  have c1 : u * (s.tol2.val - h) ≤ 1 / 2 ^ 40 * (s.tol2.val - h) := mul_le_mul_of_nonneg_right h1 q
  have c2 : u * (2 * s.tol1.val) ≤ 1 / 2 ^ 40 * (2 * s.tol1.val) := mul_le_mul_of_nonneg_right h1 (by linarith)
  have c3 : u * (s.b.val - s.a.val) ≤ 1 / 2 ^ 40 * (s.b.val - s.a.val) := mul_le_mul_of_nonneg_right h1 hw
  have et' := abs_le.mp et
  have hh' := abs_le.mp hh
  have k2 := abs_le.mp (F.err (s.xf.val - s.xm.val))
  have c4 : u * |s.xf.val - s.xm.val| ≤ 1 / 2 ^ 40 * |s.xf.val - s.xm.val| := mul_le_mul_of_nonneg_right h1 (abs_nonneg _)
  have hr := abs_le.mp hc'
  have w4 : s.b.val - s.a.val ≤ 5 * s.tol1.val := by
    norm_num at c2 c3
    linarith
  have dm : |s.xf.val - s.xm.val| ≤ (1 + 1 / 2 ^ 38) * (s.tol2.val - h) := by
    have c5 : |s.xf.val - s.xm.val| - u * |s.xf.val - s.xm.val| ≤ |R.rnd (s.xf.val - s.xm.val)| := by
      have e1 := F.err (s.xf.val - s.xm.val)
      have e2 := abs_add_le (s.xf.val - s.xm.val - R.rnd (s.xf.val - s.xm.val)) (R.rnd (s.xf.val - s.xm.val))
      rw [sub_add_cancel, abs_sub_comm (s.xf.val - s.xm.val)] at e2
      linarith
    have c6 : |s.xf.val - s.xm.val| - 1 / 2 ^ 40 * |s.xf.val - s.xm.val| ≤ (s.tol2.val - h) + 1 / 2 ^ 40 * (s.tol2.val - h) := by linarith
    generalize |s.xf.val - s.xm.val| = D at *
    generalize s.tol2.val - h = E at *
    norm_num at c6 ⊢
    linarith
  have e1 : |s.a.val + s.b.val| ≤ 2 * |s.xf.val| + 5 * s.tol1.val := by
    have k := abs_le.mp (le_refl |s.xf.val|)
    rw [abs_le]; constructor <;> linarith
  have e2 : u * |s.a.val + s.b.val| ≤ 1 / 2 ^ 40 * (2 * (2 ^ 28 * s.tol1.val) + 5 * s.tol1.val) :=
    mul_le_mul h1 (by linarith) (abs_nonneg _) (by positivity)
  have dm' := abs_le.mp dm
  have hm' := abs_le.mp hm
  have fin : |s.xf.val - y| ≤ 2003 / 1000 * s.tol1.val := by
    clear ec ea hc hc' hr b1 c1 c4 k2 dm hm hh et e1 TX TB hx
    norm_num at c2 c3 e2 dm'
    rw [abs_le]
    constructor <;> linarith
  norm_num at TB ⊢
  linarith [abs_nonneg s.xf.val]

/-- With a positive tolerance the first of the two tolerances is positive. -/
theorem tol_pos (F : FormatOk R u) (hL : LibNear u L) (hx : 0 < xatol.val) (h : s.tol1 = sqrtEps L * absA s.xf + xatol / 3) : 0 < s.tol1.val := by
  obtain ⟨g1, -⟩ := sqrtEps_near F hL
  have e3 := F.nat 3 (by norm_num) (by norm_num)
  push_cast at e3
  have e : s.tol1.val = R.rnd (R.rnd ((sqrtEps L).val * |s.xf.val|) + R.rnd (xatol.val / 3)) := by
    rw [h, ← F.absA_val s.xf]
    show R.rnd (R.rnd _ + R.rnd (xatol.val / R.rnd ((3 : Nat) : K))) = _
    push_cast
    rw [e3]
  have pos : ∀ y : K, 0 < y → 0 < R.rnd y := fun y hy => lt_of_le_of_ne (F.rnd_nonneg hy.le) (fun h => hy.ne' (F.rnd_eq_zero h.symm))
  rw [e]
  have n1 := F.rnd_nonneg (mul_nonneg (le_trans (by positivity) g1) (abs_nonneg s.xf.val))
  have n2 := pos (xatol.val / 3) (by positivity)
  exact pos _ (by linarith)

section float
variable [FloorRing K]

theorem nearest_neg (p : Nat) (x : K) : nearest p (-x) = -nearest p x := by
  unfold nearest
  rcases lt_trichotomy x 0 with h | h | h
  · rw [if_neg (by linarith), if_pos h, neg_neg]
  · rw [h]; simp [nearestPos_zero]
  · rw [if_pos (by linarith), if_neg (by linarith), neg_neg]

theorem nearest_nat (p : Nat) (n : Nat) (h0 : 1 ≤ n) (h : n < 2 ^ p) : nearest p (n : K) = n := by
  have hl : Nat.log 2 n < p := Nat.log_lt_of_lt_pow (by omega) h
  rw [nearest, if_neg (by have : (0 : K) ≤ n := Nat.cast_nonneg n; linarith)]
  refine nearestPos_fixed p (n * 2 ^ (p - 1 - Nat.log 2 n)) ?_
  rw [ulp, Int.log_natCast]
  push_cast
  rw [mul_assoc, ← zpow_natCast, ← zpow_add₀ (by norm_num)]
  have : ((p - 1 - Nat.log 2 n : Nat) : ℤ) + ((Nat.log 2 n : ℤ) - (p - 1)) = 0 := by omega
  rw [this, zpow_zero, mul_one]

theorem nearest_half (p : Nat) (hp : 1 ≤ p) : nearest p (1 / 2 : K) = 1 / 2 := by
  rw [nearest, if_neg (by norm_num)]
  have e : (1 / 2 : K) = (2 : K) ^ (-1 : ℤ) := by norm_num
  have l : Int.log 2 (1 / 2 : K) = -1 := by
    rw [e]; exact_mod_cast Int.log_zpow (R := K) (b := 2) (by norm_num) (-1)
  refine nearestPos_fixed p (2 ^ (p - 1)) ?_
  rw [ulp, l, e]
  push_cast
  rw [← zpow_natCast, ← zpow_add₀ (by norm_num)]
  congr 1
  omega

/-- Rounding to nearest with at least 40 binary digits is such a format. -/
theorem formatOk_float (p : Nat) (hp : 40 ≤ p) : FormatOk (Rounding.float (K := K) p (by omega)) (1 / 2 ^ p) where
  err := float_error p (by omega)
  nonneg := by positivity
  small := one_div_le_one_div_of_le (by positivity) (pow_le_pow_right₀ (by norm_num) hp)
  neg x hx := by
    show nearest p (-x) = -x
    rw [nearest_neg]
    exact congrArg _ hx
  nat n h1 h2 := nearest_nat p n h1 (lt_of_le_of_lt h2 (lt_of_lt_of_le (by norm_num : 5 < 2 ^ 40) (Nat.pow_le_pow_right (by norm_num) hp)))
  half := nearest_half p (by omega)

end float

end Cmm.Num
