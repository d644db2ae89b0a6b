import Verif.Lemmas.Minimize
import Mathlib.Analysis.Real.Sqrt
import Mathlib.Order.Monotone.Basic
/-!
Properties of cmmcore/minimize_scalar.h: C44.
-/
namespace Cmm.Num
open Cmm.Newton (IsSqrt)
variable {K : Type} [Field K] [LinearOrder K]

/-- **C44**: the call throws exactly if a bound is not finite or the lower one exceeds the upper one. -/
theorem C44_throws_iff (L : MinLib K) (f : K → Option K) (lower upper : Option K) (xatol : K) (maxiter : Int) :
    minimizeBounded L f lower upper xatol maxiter = .throws ↔ ¬ ∃ x1 x2, lower = some x1 ∧ upper = some x2 ∧ x1 ≤ x2 := by
  cases lower with
  | none => simp [minimizeBounded]
  | some x1 =>
    cases upper with
    | none => simp [minimizeBounded]
    | some x2 =>
      simp only [minimizeBounded, Option.some.injEq]
      by_cases h : x1 > x2
      · simp [h]
      · simp [h, not_lt.1 h]

variable [IsStrictOrderedRing K]

theorem minimize_ok {L : MinLib K} (hL : LibOk L) (f : K → Option K) {x1 x2 : K} (xatol : K) (maxiter : Int) (h : x1 ≤ x2) :
    ∃ (s : MinState K) (flag : Nat), minimizeBounded L f (some x1) (some x2) xatol maxiter =
        .ok ⟨s.fx, s.xf, if s.fx.isNone ∨ s.fu.isNone then 2 else flag, (if s.fx.isNone ∨ s.fu.isNone then 2 else flag) = 0, s.num,
          s.num, s.seen⟩ ∧
      MinInv L f x1 x2 xatol s ∧ 1 ≤ s.num ∧ (s.num : Int) ≤ max maxiter 2 ∧
      (flag = 0 ∧ Nurbs.absA (s.xf - s.xm) ≤ s.tol2 - 1 / 2 * (s.b - s.a) ∨ flag = 1 ∧ maxiter ≤ s.num) :=
  minimize_run maxiter h (MinInv L f x1 x2 xatol) (fun _ I hc => minInv_step hL I hc) (minInv_init hL f xatol h)

/-- **C44**: with ordered bounds the call returns; every evaluation point and the result lie in the bounds, the reported value is
the function value at the reported point (one of the evaluated ones), and the number of evaluations is reported and at most
`max(maxiter, 2)`. -/
theorem C44_contract (L : MinLib K) (hL : LibOk L) (f : K → Option K) (x1 x2 xatol : K) (maxiter : Int) (h : x1 ≤ x2) :
    ∃ r, minimizeBounded L f (some x1) (some x2) xatol maxiter = .ok r ∧
      (∀ p ∈ r.seen, x1 ≤ p.1 ∧ p.1 ≤ x2 ∧ p.2 = f p.1) ∧ x1 ≤ r.x ∧ r.x ≤ x2 ∧ r.fn = f r.x ∧ (r.x, r.fn) ∈ r.seen ∧
      r.nfev = r.seen.length ∧ r.nit = r.seen.length ∧ 1 ≤ r.nfev ∧ (r.nfev : Int) ≤ max maxiter 2 := by
  obtain ⟨s, flag, h1, I, h2, h3, _⟩ := minimize_ok hL f xatol maxiter h
  exact ⟨_, h1, I.seen, by have := I.lo_le; have := I.a_le; dsimp only; linarith,
    by have := I.le_hi; have := I.le_b; dsimp only; linarith, I.fx, I.mem, I.num, I.num, h2, h3⟩

/-- The library functions over the real numbers. -/
noncomputable def realLib : MinLib ℝ := ⟨Real.sqrt, fun _ z => if z < 0 then -1 else 1⟩

theorem realLib_ok : LibOk realLib := by
  refine ⟨fun x hx => ⟨Real.sqrt_pos.2 hx, Real.mul_self_sqrt hx.le⟩, fun n z => ⟨fun h => if_pos h, fun h => if_neg (not_lt.2 h.le), ?_⟩⟩
  unfold realLib
  dsimp only
  split
  · exact Or.inr rfl
  · exact Or.inl rfl

example : LibOk realLib ∧ (0 : ℝ) ≤ 1 := ⟨realLib_ok, zero_le_one⟩

theorem c44_least_aux (L : MinLib K) (f : K → Option K) (x1 x2 xatol : K) (maxiter : Int) (r : OptResult K)
    (hr : minimizeBounded L f (some x1) (some x2) xatol maxiter = .ok r)
    (h0 : (f (x1 + goldenMean L * (x2 - x1))).isSome) :
    ∃ v, r.fn = some v ∧ ∀ x y, (x, some y) ∈ r.seen → v ≤ y := by
  obtain ⟨⟨v, a1, a2⟩, _⟩ := minLoop_induct (L := L) (f := f) (xatol := xatol) (maxfun := maxiter)
    (fun s => ∃ v, s.fx = some v ∧ ∀ x y, (x, some y) ∈ s.seen → v ≤ y)
    (fun s hs _ => by obtain ⟨v, a1, a2⟩ := hs; exact least_step xatol a1 a2) _ (minInit L f x1 x2 xatol) (le_refl _) (by
      obtain ⟨v, hv⟩ := Option.isSome_iff_exists.1 h0
      refine ⟨v, by simp only [minInit, hv], fun x y hm => ?_⟩
      simp only [minInit, hv, List.mem_singleton, Prod.mk.injEq, Option.some.injEq] at hm
      exact le_of_eq hm.2.symm)
  simp only [minimizeBounded] at hr
  split at hr
  · cases hr
  · cases hr
    exact ⟨v, a1, a2⟩

/-- **C44**: if the first function value is a number, so is the reported one, and it is the least number seen. -/
theorem C44_least (L : MinLib K) (f : K → Option K) (x1 x2 xatol : K) (maxiter : Int) (r : OptResult K)
    (hr : minimizeBounded L f (some x1) (some x2) xatol maxiter = .ok r)
    (h0 : (f (x1 + (1 / 2 * (3 - L.sqrt 5)) * (x2 - x1))).isSome) :
    ∃ v, r.fn = some v ∧ ∀ x y, (x, some y) ∈ r.seen → v ≤ y := by
  apply c44_least_aux <;> assumption

theorem c44_first_nan_aux (L : MinLib K) (f : K → Option K) (x1 x2 xatol : K) (maxiter : Int) (r : OptResult K)
    (hr : minimizeBounded L f (some x1) (some x2) xatol maxiter = .ok r)
    (h0 : f (x1 + goldenMean L * (x2 - x1)) = none) :
    r.fn = none ∧ r.x = x1 + goldenMean L * (x2 - x1) ∧ r.status = 2 ∧ r.success = false := by
  obtain ⟨⟨a1, a2⟩, _⟩ := minLoop_induct (L := L) (f := f) (xatol := xatol) (maxfun := maxiter)
    (fun s => s.fx = none ∧ s.xf = x1 + goldenMean L * (x2 - x1))
    (fun s hs _ => by
      obtain ⟨a1, a2⟩ := hs
      obtain ⟨_, _, u3⟩ := minUpdate_spec L f s
      simp only [refresh]
      rcases u3 with ⟨v1, _⟩ | ⟨_, v2, v3, _⟩
      · rw [a1] at v1; cases hf : f (nextPoint L s) <;> rw [hf] at v1 <;> simp [leOpt] at v1
      · exact ⟨by rw [v3, a1], by rw [v2, a2]⟩) _ (minInit L f x1 x2 xatol) (le_refl _) ⟨h0, rfl⟩
  simp only [minimizeBounded] at hr
  split at hr
  · cases hr
  · cases hr
    refine ⟨a1, a2, ?_, ?_⟩ <;> simp [a1]

/-- C44: if the first function value is NaN, no later value is accepted: the first point and NaN are reported, with status 2. -/
theorem C44_first_nan (L : MinLib K) (f : K → Option K) (x1 x2 xatol : K) (maxiter : Int) (r : OptResult K)
    (hr : minimizeBounded L f (some x1) (some x2) xatol maxiter = .ok r)
    (h0 : f (x1 + (1 / 2 * (3 - L.sqrt 5)) * (x2 - x1)) = none) :
    r.fn = none ∧ r.x = x1 + (1 / 2 * (3 - L.sqrt 5)) * (x2 - x1) ∧ r.status = 2 ∧ r.success = false := by
  apply c44_first_nan_aux <;> assumption

theorem c44_status_aux (L : MinLib K) (hL : LibOk L) (f : K → Option K) (x1 x2 xatol : K) (maxiter : Int) (r : OptResult K)
    (hr : minimizeBounded L f (some x1) (some x2) xatol maxiter = .ok r) :
    (r.success = true ↔ r.status = 0) ∧
    ((r.status = 0 ∧ ∃ a b, x1 ≤ a ∧ a ≤ r.x ∧ r.x ≤ b ∧ b ≤ x2 ∧
        ∀ y, a ≤ y → y ≤ b → |r.x - y| ≤ 2 * (sqrtEps L * |r.x| + xatol / 3)) ∨
     (r.status = 1 ∧ maxiter ≤ r.nfev) ∨ (r.status = 2 ∧ ∃ p ∈ r.seen, p.2 = none)) := by
  have h : x1 ≤ x2 := by
    by_contra hc
    rw [(C44_throws_iff L f _ _ xatol maxiter).2 (by simpa using hc)] at hr
    cases hr
  obtain ⟨⟨I, hfu⟩, h5, _⟩ := minLoop_induct (L := L) (f := f) (xatol := xatol) (maxfun := maxiter)
    (fun s => MinInv L f x1 x2 xatol s ∧ (s.fu.isNone → ∃ p ∈ s.seen, p.2 = none))
    (fun s hs hc => ⟨minInv_step hL hs.1 hc, nan_step xatol⟩)
    _ (minInit L f x1 x2 xatol) (le_refl _) ⟨minInv_init hL f xatol h, fun hn => by simp [minInit] at hn⟩
  simp only [minimizeBounded] at hr
  rw [if_neg (not_lt.2 h)] at hr
  revert I hfu h5 hr
  generalize minLoop L f xatol maxiter (minInit L f x1 x2 xatol) = z
  obtain ⟨s, flag⟩ := z
  dsimp only
  intro I hfu h5 hr
  cases hr
  refine ⟨by simp, ?_⟩
  dsimp only
  by_cases hn : s.fx.isNone ∨ s.fu.isNone
  · rw [if_pos hn]
    refine Or.inr (Or.inr ⟨rfl, ?_⟩)
    rcases hn with hn | hn
    · exact ⟨_, I.mem, Option.isNone_iff_eq_none.1 hn⟩
    · exact hfu hn
  · rw [if_neg hn]
    rcases h5 with ⟨rfl, h5⟩ | ⟨rfl, h5⟩
    · refine Or.inl ⟨rfl, s.a, s.b, I.lo_le, I.a_le, I.le_b, I.le_hi, fun y hy1 hy2 => ?_⟩
      rw [I.tol2, I.tol1, Nurbs.absA_eq, Nurbs.absA_eq] at h5
      have hm := I.xm
      rw [abs_le] at h5 ⊢
      constructor <;> linarith [h5.1, h5.2]
    · exact Or.inr (Or.inl ⟨rfl, h5⟩)

/-- C44: what the status says. 0: the result lies in a bracket inside the bounds so small that every point of it is within
`2 (sqrt_eps |x| + xatol / 3)` of the result; 1: at least `maxiter` calls were made; 2: the reported value or the last computed one is
NaN. Nothing else is reported, and `success` means status 0. -/
theorem C44_status (L : MinLib K) (hL : LibOk L) (f : K → Option K) (x1 x2 xatol : K) (maxiter : Int) (r : OptResult K)
    (hr : minimizeBounded L f (some x1) (some x2) xatol maxiter = .ok r) :
    (r.success = true ↔ r.status = 0) ∧
    ((r.status = 0 ∧ ∃ a b, x1 ≤ a ∧ a ≤ r.x ∧ r.x ≤ b ∧ b ≤ x2 ∧
        ∀ y, a ≤ y → y ≤ b → |r.x - y| ≤ 2 * (L.sqrt (22 / 10 ^ 17) * |r.x| + xatol / 3)) ∨
     (r.status = 1 ∧ maxiter ≤ r.nfev) ∨ (r.status = 2 ∧ ∃ p ∈ r.seen, p.2 = none)) := by
  rw [← sqrtEps_eq]
  apply c44_status_aux <;> assumption

theorem c44_unimodal_aux (L : MinLib K) (hL : LibOk L) (g : K → K) (x1 x2 m xatol : K) (maxiter : Int) (hx : 0 < xatol)
    (hm1 : x1 ≤ m) (hm2 : m ≤ x2) (hdec : StrictAntiOn g (Set.Icc x1 m)) (hinc : StrictMonoOn g (Set.Icc m x2))
    (r : OptResult K) (hr : minimizeBounded L (fun x => some (g x)) (some x1) (some x2) xatol maxiter = .ok r)
    (hs : r.success = true) : |r.x - m| ≤ 2 * (sqrtEps L * |r.x| + xatol / 3) := by
  have h : x1 ≤ x2 := le_trans hm1 hm2
  obtain ⟨⟨I, k1, k2⟩, h5, _⟩ := minLoop_induct (L := L) (f := fun x => some (g x)) (xatol := xatol) (maxfun := maxiter)
    (fun s => MinInv L (fun x => some (g x)) x1 x2 xatol s ∧ s.a ≤ m ∧ m ≤ s.b)
    (fun s hs hc => by
      obtain ⟨I, k1, k2⟩ := hs
      have ht : 0 < s.tol1 := by
        rw [I.tol1, Nurbs.absA_eq]
        have := mul_nonneg (sqrtEps_pos hL).le (abs_nonneg s.xf)
        linarith
      obtain ⟨m1, m2, m3⟩ := nextPoint_mem hL I hc
      exact ⟨minInv_step hL I hc, unimodal_step hdec hinc I k1 k2 m1 m2 (m3 ht)⟩)
    _ (minInit L (fun x => some (g x)) x1 x2 xatol) (le_refl _) ⟨minInv_init hL _ xatol h, hm1, hm2⟩
  simp only [minimizeBounded] at hr
  rw [if_neg (not_lt.2 h)] at hr
  revert I k1 k2 h5 hr
  generalize minLoop L _ xatol maxiter _ = z
  obtain ⟨s, flag⟩ := z
  dsimp only
  intro I k1 k2 h5 hr
  cases hr
  dsimp only at hs ⊢
  rcases h5 with ⟨rfl, h5⟩ | ⟨rfl, h5⟩
  · rw [I.tol2, I.tol1, Nurbs.absA_eq, Nurbs.absA_eq] at h5
    have hm := I.xm
    rw [abs_le] at h5 ⊢
    constructor <;> linarith [h5.1, h5.2]
  · rw [decide_eq_true_iff] at hs
    by_cases hn : s.fx.isNone ∨ s.fu.isNone
    · rw [if_pos hn] at hs; cases hs
    · rw [if_neg hn] at hs; cases hs

/-- **C44**: on a function with a single minimum at `m` in the bounds (strictly decreasing before, strictly increasing after) and a
positive tolerance, a result reported as a success is within `2 (sqrt_eps |x| + xatol / 3)` of the minimum. -/
theorem C44_unimodal (L : MinLib K) (hL : LibOk L) (g : K → K) (x1 x2 m xatol : K) (maxiter : Int) (hx : 0 < xatol)
    (hm1 : x1 ≤ m) (hm2 : m ≤ x2) (hdec : StrictAntiOn g (Set.Icc x1 m)) (hinc : StrictMonoOn g (Set.Icc m x2))
    (r : OptResult K) (hr : minimizeBounded L (fun x => some (g x)) (some x1) (some x2) xatol maxiter = .ok r)
    (hs : r.success = true) : |r.x - m| ≤ 2 * (L.sqrt (22 / 10 ^ 17) * |r.x| + xatol / 3) := by
  rw [← sqrtEps_eq]
  apply c44_unimodal_aux <;> assumption

example : StrictAntiOn (fun x : ℝ => (x - 1) ^ 2) (Set.Icc 0 1) ∧ StrictMonoOn (fun x : ℝ => (x - 1) ^ 2) (Set.Icc 1 3) := by
  constructor
  · rintro a ⟨a1, a2⟩ b ⟨b1, b2⟩ hab
    dsimp only; nlinarith
  · rintro a ⟨a1, a2⟩ b ⟨b1, b2⟩ hab
    dsimp only; nlinarith

/-- C44: an interval of one point is accepted at once: one evaluation, at that point. -/
theorem C44_point_interval (L : MinLib K) (hL : LibOk L) (f : K → Option K) (x1 xatol : K) (hx : 0 < xatol) (maxiter : Int) :
    ∃ r, minimizeBounded L f (some x1) (some x1) xatol maxiter = .ok r ∧ r.x = x1 ∧ r.seen = [(x1, f x1)] := by
  have hs := mul_nonneg (sqrtEps_pos hL).le (abs_nonneg x1)
  simp only [minimizeBounded]
  rw [if_neg (lt_irrefl _), minLoop, if_neg]
  · exact ⟨_, rfl, by simp [minInit], by simp [minInit]⟩
  · simp only [minInit, sub_self, mul_zero, add_zero, sub_zero, not_lt, gt_iff_lt, Nurbs.absA_eq]
    rw [show x1 - 1 / 2 * (x1 + x1) = 0 by ring, abs_zero]
    linarith

/-- The step taken: the golden one, or one towards the vertex of the parabola through the three last points, shortened near the ends of the bracket. -/
theorem minStep_full (L : MinLib K) (s : MinState K) : minStep L s = goldenStep L s ∨
    ∃ fx ff fn p q, s.fx = some fx ∧ s.ffulc = some ff ∧ s.fnfc = some fn ∧
      p = (s.xf - s.fulc) * ((s.xf - s.fulc) * (fx - fn)) - (s.xf - s.nfc) * ((s.xf - s.nfc) * (fx - ff)) ∧
      q = 2 * ((s.xf - s.fulc) * (fx - fn) - (s.xf - s.nfc) * (fx - ff)) ∧ q ≠ 0 ∧ |p / q| < 1 / 2 * |s.e| ∧
      (minStep L s = (s.tol1 * L.sgn s.num (s.xm - s.xf), s.rat) ∧ (s.xf - p / q - s.a < s.tol2 ∨ s.b - (s.xf - p / q) < s.tol2) ∨
        minStep L s = (-(p / q), s.rat)) := by
  unfold minStep
  simp only [Nurbs.absA_eq]
  split
  case isFalse => exact Or.inl rfl
  case isTrue =>
    split
    case h_2 => exact Or.inl rfl
    case h_1 fx ff fn h1 h2 h3 =>
      generalize hq' : 2 * ((s.xf - s.fulc) * (fx - fn) - (s.xf - s.nfc) * (fx - ff)) = q
      generalize hp' : (s.xf - s.fulc) * ((s.xf - s.fulc) * (fx - fn)) - (s.xf - s.nfc) * ((s.xf - s.nfc) * (fx - ff)) = p
      generalize hP : (if q > 0 then -p else p) = P
      split
      case isFalse => exact Or.inl rfl
      case isTrue h =>
        refine Or.inr ⟨fx, ff, fn, p, q, h1, h2, h3, hp'.symm, hq'.symm, ?_⟩
        obtain ⟨g1, -, -⟩ := h
        rw [← hP] at g1 ⊢
        have hq : q ≠ 0 := by
          rintro rfl
          simp only [abs_zero, mul_zero, zero_mul] at g1
          exact absurd g1 (not_lt.2 (abs_nonneg _))
        have e : (if q > 0 then -p else p) / |q| = -(p / q) := by
          rcases lt_or_gt_of_ne hq with h | h
          · rw [if_neg (by linarith), abs_of_neg h, div_neg]
          · rw [if_pos h, abs_of_pos h, neg_div]
        have e1 : |if q > 0 then -p else p| = |p| := by split <;> simp
        rw [e1, abs_mul, abs_mul, abs_abs] at g1
        rw [e]
        refine ⟨hq, ?_, ?_⟩
        · rw [abs_div, div_lt_iff₀ (abs_pos.2 hq)]
          rw [abs_of_pos (by norm_num : (0 : K) < 1 / 2)] at g1
          linarith
        · rw [← sub_eq_add_neg]
          split
          case isTrue h => exact Or.inl ⟨rfl, h⟩
          case isFalse => exact Or.inr rfl

/-- **C44**: on a quadratic function the step that is not a golden one leads exactly to the vertex, unless the vertex is nearer than the tolerance to an end of the
bracket. -/
theorem C44_parabola (L : MinLib K) (s : MinState K) (α β m : K) (hx : s.fx = some (α * (s.xf - m) ^ 2 + β))
    (hf : s.ffulc = some (α * (s.fulc - m) ^ 2 + β)) (hn : s.fnfc = some (α * (s.nfc - m) ^ 2 + β)) (hg : minStep L s ≠ goldenStep L s) :
    s.xf + (minStep L s).1 = m ∨ m - s.a < s.tol2 ∨ s.b - m < s.tol2 := by
  rcases minStep_full L s with h | ⟨fx, ff, fn, p, q, h1, h2, h3, hp, hq, hq0, -, h⟩
  · exact absurd h hg
  · rw [hx] at h1
    rw [hf] at h2
    rw [hn] at h3
    cases h1; cases h2; cases h3
    have k : p / q = s.xf - m := by
      rw [div_eq_iff hq0, hp, hq]; ring
    rw [k, sub_sub_cancel] at h
    rcases h with ⟨-, h | h⟩ | h
    · exact Or.inr (Or.inl h)
    · exact Or.inr (Or.inr h)
    · left; rw [h]; ring

/-- **C44**: of two steps in a row that are not golden ones, the second is shorter than half the step before the first, or as long as the tolerance. -/
theorem C44_steps_halve (L : MinLib K) (f : K → Option K) (xatol : K) (s s1 s2 : MinState K) (e1 : s1 = refresh L xatol (minUpdate L f s))
    (e2 : s2 = refresh L xatol (minUpdate L f s1)) (h1 : minStep L s1 ≠ goldenStep L s1) (h2 : minStep L s2 ≠ goldenStep L s2) :
    |(minStep L s2).1| < 1 / 2 * |(minStep L s).1| ∨ (minStep L s2).1 = s2.tol1 * L.sgn s2.num (s2.xm - s2.xf) := by
  have u : ∀ s : MinState K, (refresh L xatol (minUpdate L f s)).rat = (minStep L s).1 ∧ (refresh L xatol (minUpdate L f s)).e = (minStep L s).2 := by
    intro s
    unfold refresh minUpdate
    dsimp only
    split
    · split <;> exact ⟨rfl, rfl⟩
    · split <;> (split; · exact ⟨rfl, rfl⟩
                 split <;> exact ⟨rfl, rfl⟩)
  have r1 : s1.rat = (minStep L s).1 := by rw [e1]; exact (u s).1
  have r2 : s2.e = (minStep L s1).2 := by rw [e2]; exact (u s1).2
  have r3 : (minStep L s1).2 = s1.rat := by
    rcases minStep_full L s1 with h | ⟨_, _, _, _, _, -, -, -, -, -, -, -, ⟨h, -⟩ | h⟩
    · exact absurd h h1
    · rw [h]
    · rw [h]
  rcases minStep_full L s2 with h | ⟨_, _, _, p, q, -, -, -, -, -, -, hlt, ⟨h, -⟩ | h⟩
  · exact absurd h h2
  · exact Or.inr (by rw [h])
  · left
    rw [h, abs_neg, ← r1, ← r3, ← r2]
    exact hlt

/-- Three steps in a row towards vertices of parabolas (the hypotheses of `C44_steps_halve`). -/
example : let L : MinLib ℚ := ⟨fun _ => 0, fun _ x => if 0 ≤ x then 1 else -1⟩
    let f : ℚ → Option ℚ := fun x => some (x ^ 4 + x)
    let s : MinState ℚ := ⟨-3, 3, -2, -1, -1 / 2, 2, 2, f (-1 / 2), f 0, f (-2), f (-1), 0, 1 / 100, 2 / 100, 5, []⟩
    let s1 := refresh L (3 / 100) (minUpdate L f s)
    let s2 := refresh L (3 / 100) (minUpdate L f s1)
    minStep L s1 ≠ goldenStep L s1 ∧ minStep L s2 ≠ goldenStep L s2 := by decide +kernel

/-- A step to the vertex of the function `(x - 4) ^ 2 + 1` (the hypotheses of `C44_parabola`). -/
example : let L : MinLib ℚ := ⟨fun _ => 0, fun _ x => if 0 ≤ x then 1 else -1⟩
    let s : MinState ℚ := ⟨0, 10, 8, 5, 3, 0, 10, some 2, some 0, some 17, some 2, 5, 1 / 100, 2 / 100, 5, []⟩
    s.fx = some (1 * (s.xf - 4) ^ 2 + 1) ∧ s.ffulc = some (1 * (s.fulc - 4) ^ 2 + 1) ∧ s.fnfc = some (1 * (s.nfc - 4) ^ 2 + 1) ∧
      minStep L s ≠ goldenStep L s := by decide +kernel

end Cmm.Num
