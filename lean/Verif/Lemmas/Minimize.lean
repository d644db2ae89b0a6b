import Verif.Model.Minimize
import Verif.Lemmas.Knots
import Verif.Spec.Newton
import Mathlib.Tactic.Ring
import Mathlib.Order.Monotone.Basic
import Mathlib.Order.Interval.Set.Basic
import Mathlib.Tactic.Linarith
import Mathlib.Tactic.FieldSimp
/-! Lemmas about bounded minimisation. -/
namespace Cmm.Num
open Cmm.Newton (IsSqrt)
open Cmm.Nurbs (absA absA_eq)
section arith
variable {K : Type} [Arith K] [LinearOrder K]

/-- The relations between the local variables. -/
structure MinInv (L : MinLib K) (f : K → Option K) (lo hi xatol : K) (s : MinState K) : Prop where
  lo_le : lo ≤ s.a
  le_hi : s.b ≤ hi
  a_le : s.a ≤ s.xf
  le_b : s.xf ≤ s.b
  xm : s.xm = 1 / 2 * (s.a + s.b)
  tol1 : s.tol1 = sqrtEps L * absA s.xf + xatol / 3
  tol2 : s.tol2 = 2 * s.tol1
  fx : s.fx = f s.xf
  num : s.num = s.seen.length
  seen : ∀ p ∈ s.seen, lo ≤ p.1 ∧ p.1 ≤ hi ∧ p.2 = f p.1
  mem : (s.xf, s.fx) ∈ s.seen

/-- What one pass of the loop does: only the bracket, the best point and the record of the calls matter. -/
theorem minUpdate_spec (L : MinLib K) (f : K → Option K) (s : MinState K) :
    let x := nextPoint L s
    let s' := minUpdate L f s
    s'.seen = (x, f x) :: s.seen ∧ s'.fu = f x ∧
    ((leOpt (f x) s.fx = true ∧ s'.xf = x ∧ s'.fx = f x ∧ ((s.xf ≤ x ∧ s'.a = s.xf ∧ s'.b = s.b) ∨ (x < s.xf ∧ s'.a = s.a ∧ s'.b = s.xf))) ∨
     (leOpt (f x) s.fx = false ∧ s'.xf = s.xf ∧ s'.fx = s.fx ∧ ((x < s.xf ∧ s'.a = x ∧ s'.b = s.b) ∨ (s.xf ≤ x ∧ s'.a = s.a ∧ s'.b = x)))) := by
  dsimp only
  unfold minUpdate
  dsimp only
  cases hle : leOpt (f (nextPoint L s)) s.fx with
  | true =>
    simp only [if_true]
    by_cases hx : nextPoint L s ≥ s.xf
    · simp only [if_pos hx]
      exact ⟨trivial, trivial, Or.inl ⟨trivial, trivial, trivial, Or.inl ⟨hx, trivial, trivial⟩⟩⟩
    · simp only [if_neg hx]
      exact ⟨trivial, trivial, Or.inl ⟨trivial, trivial, trivial, Or.inr ⟨not_le.1 hx, trivial, trivial⟩⟩⟩
  | false =>
    simp only [Bool.false_eq_true, if_false]
    by_cases hx : nextPoint L s < s.xf
    · simp only [if_pos hx]
      split
      · exact ⟨rfl, rfl, Or.inr ⟨trivial, rfl, rfl, Or.inl ⟨hx, rfl, rfl⟩⟩⟩
      split
      · exact ⟨rfl, rfl, Or.inr ⟨trivial, rfl, rfl, Or.inl ⟨hx, rfl, rfl⟩⟩⟩
      · exact ⟨rfl, rfl, Or.inr ⟨trivial, rfl, rfl, Or.inl ⟨hx, rfl, rfl⟩⟩⟩
    · simp only [if_neg hx]
      split
      · exact ⟨rfl, rfl, Or.inr ⟨trivial, rfl, rfl, Or.inr ⟨not_lt.1 hx, rfl, rfl⟩⟩⟩
      split
      · exact ⟨rfl, rfl, Or.inr ⟨trivial, rfl, rfl, Or.inr ⟨not_lt.1 hx, rfl, rfl⟩⟩⟩
      · exact ⟨rfl, rfl, Or.inr ⟨trivial, rfl, rfl, Or.inr ⟨not_lt.1 hx, rfl, rfl⟩⟩⟩

/-- A step that stays in the bracket keeps the relations. -/
theorem minInv_next {L : MinLib K} {f : K → Option K} {lo hi xatol : K} {s : MinState K}
    (I : MinInv L f lo hi xatol s) (m1 : s.a ≤ nextPoint L s) (m2 : nextPoint L s ≤ s.b) :
    MinInv L f lo hi xatol (refresh L xatol (minUpdate L f s)) := by
  have hn := minUpdate_num L f s
  obtain ⟨u1, u2, u3⟩ := minUpdate_spec L f s
  have ha := I.a_le
  have hb := I.le_b
  have hlo := I.lo_le
  have hhi := I.le_hi
  have hseen : ∀ p ∈ (minUpdate L f s).seen, lo ≤ p.1 ∧ p.1 ≤ hi ∧ p.2 = f p.1 := by
    rw [u1]
    intro p hp
    rcases List.mem_cons.1 hp with rfl | hp
    · exact ⟨le_trans hlo m1, le_trans m2 hhi, rfl⟩
    · exact I.seen p hp
  have hnum : (minUpdate L f s).num = (minUpdate L f s).seen.length := by rw [hn, u1, I.num]; rfl
  have common : (minUpdate L f s).a ≤ (minUpdate L f s).xf ∧ (minUpdate L f s).xf ≤ (minUpdate L f s).b ∧
      lo ≤ (minUpdate L f s).a ∧ (minUpdate L f s).b ≤ hi ∧ (minUpdate L f s).fx = f (minUpdate L f s).xf ∧
      ((minUpdate L f s).xf, (minUpdate L f s).fx) ∈ (minUpdate L f s).seen := by
    rcases u3 with ⟨v1, v2, v3, v4⟩ | ⟨v1, v2, v3, v4⟩
    · rw [u1, v2, v3]
      rcases v4 with ⟨w1, w2, w3⟩ | ⟨w1, w2, w3⟩ <;> rw [w2, w3]
      · exact ⟨w1, m2, le_trans hlo ha, hhi, rfl, by simp⟩
      · exact ⟨m1, w1.le, hlo, le_trans hb hhi, rfl, by simp⟩
    · rw [u1, v2, v3]
      have hmem : (s.xf, s.fx) ∈ (nextPoint L s, f (nextPoint L s)) :: s.seen := List.mem_cons_of_mem _ I.mem
      rcases v4 with ⟨w1, w2, w3⟩ | ⟨w1, w2, w3⟩ <;> rw [w2, w3]
      · exact ⟨w1.le, hb, le_trans hlo m1, hhi, I.fx, hmem⟩
      · exact ⟨ha, w1, hlo, le_trans m2 hhi, I.fx, hmem⟩
  obtain ⟨c1, c2, c3, c4, c5, c6⟩ := common
  exact ⟨c3, c4, c1, c2, rfl, rfl, rfl, c5, hnum, hseen, c6⟩

/-- Induction principle for the loop. -/
theorem minLoop_induct {L : MinLib K} {f : K → Option K} {xatol : K} {maxfun : Int} (P : MinState K → Prop)
    (step : ∀ s, P s → absA (s.xf - s.xm) > s.tol2 - 1 / 2 * (s.b - s.a) → P (refresh L xatol (minUpdate L f s))) :
    ∀ (n : Nat) (s : MinState K), (maxfun - s.num).toNat ≤ n → P s →
      P (minLoop L f xatol maxfun s).1 ∧
      ((minLoop L f xatol maxfun s).2 = 0 ∧ absA ((minLoop L f xatol maxfun s).1.xf - (minLoop L f xatol maxfun s).1.xm) ≤
          (minLoop L f xatol maxfun s).1.tol2 - 1 / 2 * ((minLoop L f xatol maxfun s).1.b - (minLoop L f xatol maxfun s).1.a) ∨
       (minLoop L f xatol maxfun s).2 = 1 ∧ maxfun ≤ (minLoop L f xatol maxfun s).1.num) ∧
      s.num ≤ (minLoop L f xatol maxfun s).1.num ∧
      ((minLoop L f xatol maxfun s).1.num : Int) ≤ max maxfun (s.num + 1) := by
  intro n
  induction n with
  | zero =>
    intro s hn hP
    rw [minLoop]
    have hnum := minUpdate_num L f s
    by_cases hc : absA (s.xf - s.xm) > s.tol2 - 1 / 2 * (s.b - s.a)
    · rw [if_pos hc]
      have : ((refresh L xatol (minUpdate L f s)).num : Int) ≥ maxfun := by simp only [refresh, hnum]; omega
      simp only [dif_pos this]
      refine ⟨step s hP hc, Or.inr ⟨trivial, this⟩, ?_, ?_⟩
      · simp only [refresh, hnum]; omega
      · simp only [refresh, hnum]; push_cast; exact le_max_right _ _
    · rw [if_neg hc]
      exact ⟨hP, Or.inl ⟨rfl, not_lt.1 hc⟩, le_refl _, by simp only [le_max_iff]; right; omega⟩
  | succ n ih =>
    intro s hn hP
    rw [minLoop]
    have hnum := minUpdate_num L f s
    by_cases hc : absA (s.xf - s.xm) > s.tol2 - 1 / 2 * (s.b - s.a)
    · rw [if_pos hc]
      by_cases this : ((refresh L xatol (minUpdate L f s)).num : Int) ≥ maxfun
      · simp only [dif_pos this]
        refine ⟨step s hP hc, Or.inr ⟨trivial, this⟩, ?_, ?_⟩
        · simp only [refresh, hnum]; omega
        · simp only [refresh, hnum]; push_cast; exact le_max_right _ _
      · simp only [dif_neg this]
        have hr : (refresh L xatol (minUpdate L f s)).num = s.num + 1 := by simp only [refresh, hnum]
        rw [hr] at this
        obtain ⟨i1, i2, i3, i4⟩ := ih (refresh L xatol (minUpdate L f s)) (by rw [hr]; omega) (step s hP hc)
        rw [hr] at i3 i4
        refine ⟨i1, i2, by omega, ?_⟩
        simp only [le_max_iff] at i4 ⊢
        push_cast at this i4
        omega
    · rw [if_neg hc]
      exact ⟨hP, Or.inl ⟨rfl, not_lt.1 hc⟩, le_refl _, by simp only [le_max_iff]; right; omega⟩

/-- A call with ordered bounds returns; what holds at the start and is kept by the steps holds at the end. -/
theorem minimize_run {L : MinLib K} {f : K → Option K} {x1 x2 xatol : K} (maxiter : Int) (h : x1 ≤ x2) (P : MinState K → Prop)
    (step : ∀ s, P s → absA (s.xf - s.xm) > s.tol2 - 1 / 2 * (s.b - s.a) → P (refresh L xatol (minUpdate L f s)))
    (init : P (minInit L f x1 x2 xatol)) :
    ∃ (s : MinState K) (flag : Nat), minimizeBounded L f (some x1) (some x2) xatol maxiter =
        .ok ⟨s.fx, s.xf, if s.fx.isNone ∨ s.fu.isNone then 2 else flag, (if s.fx.isNone ∨ s.fu.isNone then 2 else flag) = 0, s.num,
          s.num, s.seen⟩ ∧
      P s ∧ 1 ≤ s.num ∧ (s.num : Int) ≤ max maxiter 2 ∧
      (flag = 0 ∧ absA (s.xf - s.xm) ≤ s.tol2 - 1 / 2 * (s.b - s.a) ∨ flag = 1 ∧ maxiter ≤ s.num) := by
  obtain ⟨a1, a2, a3, a4⟩ := minLoop_induct (L := L) (f := f) (xatol := xatol) (maxfun := maxiter) P step _ (minInit L f x1 x2 xatol) (le_refl _) init
  refine ⟨_, _, ?_, a1, a3, a4, a2⟩
  simp only [minimizeBounded]
  rw [if_neg (not_lt.2 h)]

omit [Arith K] in
theorem leOpt_iff {a b : K} : leOpt (some a) (some b) = true ↔ a ≤ b := by simp [leOpt]

theorem least_step {L : MinLib K} {f : K → Option K} {s : MinState K} {v : K} (xatol : K) (a1 : s.fx = some v)
    (a2 : ∀ x y, (x, some y) ∈ s.seen → v ≤ y) :
    ∃ w, (refresh L xatol (minUpdate L f s)).fx = some w ∧ ∀ x y, (x, some y) ∈ (refresh L xatol (minUpdate L f s)).seen → w ≤ y := by
  obtain ⟨u1, _, u3⟩ := minUpdate_spec L f s
  simp only [refresh]
  rw [u1]
  rcases u3 with ⟨v1, _, v3, _⟩ | ⟨v1, _, v3, _⟩
  · rw [v3]
    cases hfx : f (nextPoint L s) with
    | none => rw [hfx] at v1; simp [leOpt] at v1
    | some w =>
      rw [hfx, a1, leOpt_iff] at v1
      refine ⟨w, rfl, fun x y hm => ?_⟩
      rcases List.mem_cons.1 hm with e | hm
      · cases e; exact le_refl _
      · exact le_trans v1 (a2 x y hm)
  · rw [v3, a1]
    refine ⟨v, rfl, fun x y hm => ?_⟩
    rcases List.mem_cons.1 hm with e | hm
    · rw [Prod.mk.injEq] at e
      rw [← e.2, a1] at v1
      have : ¬ (y ≤ v) := by rw [← leOpt_iff, v1]; simp
      exact (not_le.1 this).le
    · exact a2 x y hm

/-- The record says that there was a NaN whenever the last value was NaN. -/
theorem nan_step {L : MinLib K} {f : K → Option K} {s : MinState K} (xatol : K) (hn : (refresh L xatol (minUpdate L f s)).fu.isNone) :
    ∃ p ∈ (refresh L xatol (minUpdate L f s)).seen, p.2 = none := by
  obtain ⟨u1, u2, _⟩ := minUpdate_spec L f s
  simp only [refresh] at hn ⊢
  rw [u1]
  rw [u2] at hn
  exact ⟨_, List.mem_cons_self, Option.isNone_iff_eq_none.1 hn⟩

/-- The bracket keeps the minimum of a function with a single one. -/
theorem unimodal_step {L : MinLib K} {g : K → K} {x1 x2 m xatol : K} (hdec : StrictAntiOn g (Set.Icc x1 m)) (hinc : StrictMonoOn g (Set.Icc m x2))
    {s : MinState K} (I : MinInv L (fun x => some (g x)) x1 x2 xatol s) (k1 : s.a ≤ m) (k2 : m ≤ s.b) (m1 : s.a ≤ nextPoint L s)
    (m2 : nextPoint L s ≤ s.b) (m3 : nextPoint L s ≠ s.xf) :
    (refresh L xatol (minUpdate L (fun x => some (g x)) s)).a ≤ m ∧ m ≤ (refresh L xatol (minUpdate L (fun x => some (g x)) s)).b := by
  obtain ⟨_, _, u3⟩ := minUpdate_spec L (fun x => some (g x)) s
  simp only [refresh]
  have e1 := I.lo_le
  have e2 := I.le_hi
  have e3 := I.a_le
  have e4 := I.le_b
  rw [I.fx, leOpt_iff] at u3
  rcases u3 with ⟨v1, _, _, v4⟩ | ⟨v1, _, _, v4⟩
  · rcases v4 with ⟨w1, w2, w3⟩ | ⟨w1, w2, w3⟩ <;> rw [w2, w3]
    · refine ⟨?_, k2⟩
      by_contra hlt
      rw [not_le] at hlt
      have := hinc ⟨hlt.le, le_trans e4 e2⟩ ⟨le_trans hlt.le w1, le_trans m2 e2⟩ (lt_of_le_of_ne w1 (Ne.symm m3))
      exact absurd v1 (not_le.2 this)
    · refine ⟨k1, ?_⟩
      by_contra hlt
      rw [not_le] at hlt
      have := hdec ⟨le_trans e1 m1, le_trans w1.le hlt.le⟩ ⟨le_trans e1 e3, hlt.le⟩ w1
      exact absurd v1 (not_le.2 this)
  · have v1' : g s.xf < g (nextPoint L s) := by
      rw [← not_le, ← leOpt_iff, v1]; simp
    rcases v4 with ⟨w1, w2, w3⟩ | ⟨w1, w2, w3⟩ <;> rw [w2, w3]
    · refine ⟨?_, k2⟩
      by_contra hlt
      rw [not_le] at hlt
      have := hinc ⟨hlt.le, le_trans m2 e2⟩ ⟨le_trans hlt.le w1.le, le_trans e4 e2⟩ w1
      exact absurd v1' (not_lt.2 this.le)
    · refine ⟨k1, ?_⟩
      by_contra hlt
      rw [not_le] at hlt
      have := hdec ⟨le_trans e1 e3, le_trans w1 hlt.le⟩ ⟨le_trans e1 m1, hlt.le⟩ (lt_of_le_of_ne w1 (Ne.symm m3))
      exact absurd v1' (not_lt.2 this.le)

end arith

section exact
variable {K : Type} [Field K] [LinearOrder K]

/-- What is used of the library functions. -/
def LibOk (L : MinLib K) : Prop :=
  IsSqrt L.sqrt ∧ ∀ n z, (z < 0 → L.sgn n z = -1) ∧ (0 < z → L.sgn n z = 1) ∧ (L.sgn n z = 1 ∨ L.sgn n z = -1)

/-! The definitions in exact arithmetic. -/

omit [LinearOrder K] in
theorem sqrtEps_eq (L : MinLib K) : sqrtEps L = L.sqrt (22 / 10 ^ 17) := by
  unfold sqrtEps
  rw [Nat.cast_pow]
  rfl

omit [LinearOrder K] in
theorem goldenMean_eq (L : MinLib K) : goldenMean L = 1 / 2 * (3 - L.sqrt 5) := rfl

variable [IsStrictOrderedRing K]

theorem golden_mem {L : MinLib K} (hL : LibOk L) : 0 < goldenMean L ∧ goldenMean L < 1 := by
  obtain ⟨h1, h2⟩ := hL.1 5 (by norm_num)
  unfold goldenMean
  constructor
  · have : L.sqrt 5 < 3 := by nlinarith
    linarith
  · have : 1 < L.sqrt 5 := by nlinarith
    linarith

theorem sqrtEps_pos {L : MinLib K} (hL : LibOk L) : 0 < sqrtEps L := (hL.1 _ (by positivity)).1

/-- Either the golden step is taken, or a parabola with its minimum strictly inside the bracket is accepted. -/
theorem minStep_cases (L : MinLib K) (s : MinState K) :
    minStep L s = goldenStep L s ∨
    ∃ rat, s.a < s.xf + rat ∧ s.xf + rat < s.b ∧
      (((s.xf + rat - s.a < s.tol2 ∨ s.b - (s.xf + rat) < s.tol2) ∧ (minStep L s).1 = s.tol1 * L.sgn s.num (s.xm - s.xf)) ∨
       (¬(s.xf + rat - s.a < s.tol2 ∨ s.b - (s.xf + rat) < s.tol2) ∧ (minStep L s).1 = rat)) := by
  unfold minStep
  simp only [absA_eq]
  split
  case isFalse => exact Or.inl rfl
  case isTrue =>
    split
    case h_2 => exact Or.inl rfl
    case h_1 fx ffulc fnfc h1 h2 h3 =>
      have hq : 0 ≤ |2 * ((s.xf - s.fulc) * (fx - fnfc) - (s.xf - s.nfc) * (fx - ffulc))| := abs_nonneg _
      generalize (if 2 * ((s.xf - s.fulc) * (fx - fnfc) - (s.xf - s.nfc) * (fx - ffulc)) > 0 then _ else _) = p
      revert hq
      generalize |2 * ((s.xf - s.fulc) * (fx - fnfc) - (s.xf - s.nfc) * (fx - ffulc))| = q
      intro hq
      split
      case isFalse => exact Or.inl rfl
      case isTrue h =>
        obtain ⟨g1, g2, g3⟩ := h
        have hq' : 0 < q := by
          rcases lt_or_eq_of_le hq with h | h
          · exact h
          · rw [← h] at g1
            simp only [mul_zero, zero_mul, abs_zero] at g1
            exact absurd g1 (not_lt.2 (abs_nonneg p))
        have k1 : s.a - s.xf < p / q := by rw [lt_div_iff₀ hq', mul_comm]; exact g2
        have k2 : p / q < s.b - s.xf := by rw [div_lt_iff₀ hq', mul_comm]; exact g3
        refine Or.inr ⟨p / q, by linarith, by linarith, ?_⟩
        split
        case isTrue h => exact Or.inl ⟨h, rfl⟩
        case isFalse h => exact Or.inr ⟨h, rfl⟩

/-- The next point lies in the bracket, and differs from the best one if the tolerance is positive. -/
theorem nextPoint_mem {L : MinLib K} (hL : LibOk L) {f : K → Option K} {lo hi xatol : K} {s : MinState K}
    (I : MinInv L f lo hi xatol s) (hc : |s.xf - s.xm| > s.tol2 - 1 / 2 * (s.b - s.a)) :
    s.a ≤ nextPoint L s ∧ nextPoint L s ≤ s.b ∧ (0 < s.tol1 → nextPoint L s ≠ s.xf) := by
  have hg := golden_mem hL
  have ha := I.a_le
  have hb := I.le_b
  have hm := I.xm
  have ht := I.tol2
  have hs := hL.2 s.num
  have side : (s.xm ≤ s.xf → 2 * s.tol1 < s.xf - s.a) ∧ (s.xf ≤ s.xm → 2 * s.tol1 < s.b - s.xf) := by
    constructor
    · intro h; rw [abs_of_nonneg (by linarith)] at hc; linarith
    · intro h; rw [abs_of_nonpos (by linarith)] at hc; linarith
  have key : ∀ rat, (s.a ≤ s.xf - max |rat| s.tol1 ∨ 0 < rat ∨ (L.sgn s.num rat = 1)) →
      (s.xf + max |rat| s.tol1 ≤ s.b ∨ rat < 0 ∨ L.sgn s.num rat = -1) →
      s.a ≤ s.xf + L.sgn s.num rat * max |rat| s.tol1 ∧ s.xf + L.sgn s.num rat * max |rat| s.tol1 ≤ s.b ∧
      (0 < s.tol1 → s.xf + L.sgn s.num rat * max |rat| s.tol1 ≠ s.xf) := by
    intro rat h1 h2
    have hmax : 0 ≤ max |rat| s.tol1 := le_trans (abs_nonneg _) (le_max_left _ _)
    have hmax' : 0 < s.tol1 → 0 < max |rat| s.tol1 := fun h => lt_of_lt_of_le h (le_max_right _ _)
    obtain ⟨s1, s2, s3⟩ := hs rat
    have hne : (1 : K) ≠ -1 := by norm_num
    rcases s3 with e | e
    · rw [e, one_mul]
      rw [e] at h2
      refine ⟨by linarith, ?_, fun h => by have := hmax' h; intro h'; linarith⟩
      rcases h2 with h2 | h2 | h2
      · exact h2
      · rw [s1 h2] at e; exact absurd e.symm hne
      · exact absurd h2 hne
    · rw [e]
      rw [e] at h1
      refine ⟨?_, by linarith, fun h => by have := hmax' h; intro h'; linarith⟩
      rcases h1 with h1 | h1 | h1
      · linarith
      · rw [s2 h1] at e; exact absurd e hne
      · exact absurd h1.symm hne
  unfold nextPoint
  rcases minStep_cases L s with h | ⟨rat, h1, h2, ⟨h3, h4⟩ | ⟨h3, h4⟩⟩
  · dsimp only
    rw [h]
    unfold goldenStep
    dsimp only
    by_cases hx : s.xf ≥ s.xm
    · rw [if_pos hx]
      have := side.1 hx
      have habs : |goldenMean L * (s.a - s.xf)| = goldenMean L * (s.xf - s.a) := by
        rw [abs_mul, abs_of_pos hg.1, abs_of_nonpos (by linarith)]; ring
      have hle : goldenMean L * (s.xf - s.a) ≤ s.xf - s.a := by nlinarith
      have hmx : max |goldenMean L * (s.a - s.xf)| s.tol1 ≤ s.xf - s.a := by
        rw [habs]
        refine max_le hle ?_
        by_cases h0 : 0 ≤ s.tol1 <;> linarith
      refine key _ (Or.inl (by linarith)) ?_
      rcases lt_or_eq_of_le ha with h0 | h0
      · exact Or.inr (Or.inl (by nlinarith))
      · left; rw [← h0] at hmx ⊢; linarith
    · rw [if_neg hx]
      have := side.2 (le_of_lt (not_le.1 hx))
      have hxm := not_le.1 hx
      have habs : |goldenMean L * (s.b - s.xf)| = goldenMean L * (s.b - s.xf) := by
        rw [abs_mul, abs_of_pos hg.1, abs_of_nonneg (by linarith)]
      have hle : goldenMean L * (s.b - s.xf) ≤ s.b - s.xf := by nlinarith
      have hmx : max |goldenMean L * (s.b - s.xf)| s.tol1 ≤ s.b - s.xf := by
        rw [habs]
        refine max_le hle ?_
        by_cases h0 : 0 ≤ s.tol1 <;> linarith
      refine key _ (Or.inr (Or.inl ?_)) (Or.inl (by linarith))
      have : 0 < s.b - s.xf := by linarith
      exact mul_pos hg.1 this
  · dsimp only
    rw [h4]
    have ht0 : 0 < s.tol1 := by
      rcases h3 with h3 | h3 <;> linarith
    have hmx : max |s.tol1 * L.sgn s.num (s.xm - s.xf)| s.tol1 = s.tol1 := by
      rcases (hs (s.xm - s.xf)).2.2 with e | e <;> rw [e]
      · rw [mul_one, abs_of_pos ht0, max_self]
      · rw [mul_neg, mul_one, abs_neg, abs_of_pos ht0, max_self]
    rcases le_total s.xm s.xf with hx | hx
    · have hside := side.1 hx
      refine key _ (Or.inl (by rw [hmx]; linarith)) ?_
      rcases lt_or_eq_of_le hx with hx' | hx'
      · right; left; rw [(hs _).1 (by linarith)]; linarith
      · left; rw [hmx]; have := side.2 (le_of_eq hx'.symm); linarith
    · have hside := side.2 hx
      refine key _ ?_ (Or.inl (by rw [hmx]; linarith))
      rcases lt_or_eq_of_le hx with hx' | hx'
      · right; left; rw [(hs _).2.1 (by linarith)]; linarith
      · left; rw [hmx]; have := side.1 (le_of_eq hx'.symm); linarith
  · dsimp only
    rw [h4]
    rw [not_or, not_lt, not_lt] at h3
    rcases le_or_gt s.tol1 |rat| with hr | hr
    · have hmx : max |rat| s.tol1 = |rat| := max_eq_left hr
      rcases lt_trichotomy rat 0 with h0 | h0 | h0
      · refine key _ (Or.inl ?_) (Or.inr (Or.inl h0))
        rw [hmx, abs_of_neg h0]; linarith
      · refine key _ (Or.inl ?_) (Or.inl ?_) <;> rw [hmx, h0, abs_zero] <;> linarith
      · refine key _ (Or.inr (Or.inl h0)) (Or.inl ?_)
        rw [hmx, abs_of_pos h0]; linarith
    · have hmx : max |rat| s.tol1 = s.tol1 := max_eq_right hr.le
      have := abs_lt.1 hr
      refine key _ (Or.inl ?_) (Or.inl ?_) <;> rw [hmx] <;> linarith

theorem minInv_step {L : MinLib K} (hL : LibOk L) {f : K → Option K} {lo hi xatol : K} {s : MinState K}
    (I : MinInv L f lo hi xatol s) (hc : absA (s.xf - s.xm) > s.tol2 - 1 / 2 * (s.b - s.a)) :
    MinInv L f lo hi xatol (refresh L xatol (minUpdate L f s)) :=
  minInv_next I (nextPoint_mem hL I hc).1 (nextPoint_mem hL I hc).2.1

theorem minInv_init {L : MinLib K} (hL : LibOk L) (f : K → Option K) {x1 x2 : K} (xatol : K) (h : x1 ≤ x2) :
    MinInv L f x1 x2 xatol (minInit L f x1 x2 xatol) := by
  have hg := golden_mem hL
  have h0 : 0 ≤ goldenMean L * (x2 - x1) := mul_nonneg hg.1.le (by linarith)
  have h1 : goldenMean L * (x2 - x1) ≤ x2 - x1 := by nlinarith
  refine ⟨le_refl _, le_refl _, ?_, ?_, rfl, rfl, rfl, rfl, rfl, ?_, List.mem_singleton_self _⟩
  · simp only [minInit]; linarith
  · simp only [minInit]; linarith
  · intro p hp
    rw [minInit, List.mem_singleton] at hp
    subst hp
    exact ⟨by dsimp only; linarith, by dsimp only; linarith, rfl⟩

end exact
end Cmm.Num
