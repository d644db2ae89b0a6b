import Verif.Lemmas.RoundingMinimize
import Verif.Props.Minimize
import Mathlib.Analysis.Real.Sqrt
/-!
Properties of cmmcore/minimize_scalar.h in floating-point arithmetic: C140.
-/
namespace Cmm.Num
variable {K : Type} [Field K] [LinearOrder K] [IsStrictOrderedRing K] {R : Rounding K} {u : K}

/-- **C140**: with ordered bounds the call returns; every evaluation point and the result lie in the bounds, the reported value is the function value at the reported
point (one of the evaluated ones), and the number of evaluations is reported and at most `max(maxiter, 2)`. All of this with rounded operations. -/
theorem C140_contract (F : FormatOk R u) (L : MinLib (Fp R)) (hL : LibNear u L) (f : Fp R → Option (Fp R)) (x1 x2 xatol : Fp R) (hx : 0 ≤ xatol.val)
    (maxiter : Int) (h : x1 ≤ x2) :
    ∃ r, minimizeBounded L f (some x1) (some x2) xatol maxiter = .ok r ∧
      (∀ p ∈ r.seen, x1 ≤ p.1 ∧ p.1 ≤ x2 ∧ p.2 = f p.1) ∧ x1 ≤ r.x ∧ r.x ≤ x2 ∧ r.fn = f r.x ∧ (r.x, r.fn) ∈ r.seen ∧
      r.nfev = r.seen.length ∧ r.nit = r.seen.length ∧ 1 ≤ r.nfev ∧ (r.nfev : Int) ≤ max maxiter 2 := by
  obtain ⟨s, flag, h1, I, h2, h3, _⟩ := minimize_run maxiter h (MinInv L f x1 x2 xatol)
    (fun s I hc => by
      obtain ⟨m1, m2, -⟩ := nextPoint_near F hL hx I hc
      exact minInv_next I m1 m2) (minInv_start F hL h)
  exact ⟨_, h1, I.seen, le_trans I.lo_le I.a_le, le_trans I.le_b I.le_hi, I.fx, I.mem, I.num, I.num, h2, h3⟩

/-- **C140**: if the first function value is a number, so is the reported one, and it is the least number seen. No assumption on the arithmetic is needed. -/
theorem C140_least {A : Type} [Arith A] [LinearOrder A] (L : MinLib A) (f : A → Option A) (x1 x2 xatol : A) (maxiter : Int) (r : OptResult A)
    (hr : minimizeBounded L f (some x1) (some x2) xatol maxiter = .ok r) (h0 : (f (x1 + (1 / 2 * (3 - L.sqrt 5)) * (x2 - x1))).isSome) :
    ∃ v, r.fn = some v ∧ ∀ x y, (x, some y) ∈ r.seen → v ≤ y := by
  have h : x1 ≤ x2 := by
    by_contra hc
    simp only [minimizeBounded] at hr
    rw [if_pos (not_le.1 hc)] at hr
    cases hr
  obtain ⟨s, flag, h1, ⟨v, a1, a2⟩, -⟩ := minimize_run (L := L) (f := f) (x1 := x1) (x2 := x2) (xatol := xatol) maxiter h
    (fun s => ∃ v, s.fx = some v ∧ ∀ x y, (x, some y) ∈ s.seen → v ≤ y)
    (fun s hs _ => by obtain ⟨v, a1, a2⟩ := hs; exact least_step xatol a1 a2) (by
      obtain ⟨v, hv⟩ := Option.isSome_iff_exists.1 h0
      have e : (minInit L f x1 x2 xatol).fx = some v := hv
      refine ⟨v, e, fun x y hm => ?_⟩
      have : (x, some y) = (x1 + (1 / 2 * (3 - L.sqrt 5)) * (x2 - x1), (minInit L f x1 x2 xatol).fx) := List.mem_singleton.1 hm
      rw [e, Prod.mk.injEq, Option.some.injEq] at this
      exact le_of_eq this.2.symm)
  rw [h1] at hr
  cases hr
  exact ⟨v, a1, a2⟩

/-- **C140**: what the status says. 0: the result lies in a bracket inside the bounds so small that every number in it is within
`2.01 (1.49e-8 |x| + xatol / 3)` of the result; 1: at least `maxiter` calls were made; 2: some function value was NaN. Nothing else is reported, and `success` means status 0. -/
theorem C140_status (F : FormatOk R u) (L : MinLib (Fp R)) (hL : LibNear u L) (f : Fp R → Option (Fp R)) (x1 x2 xatol : Fp R) (hx : 0 ≤ xatol.val)
    (maxiter : Int) (r : OptResult (Fp R)) (hr : minimizeBounded L f (some x1) (some x2) xatol maxiter = .ok r) :
    (r.success = true ↔ r.status = 0) ∧
    ((r.status = 0 ∧ ∃ a b : Fp R, x1 ≤ a ∧ a ≤ r.x ∧ r.x ≤ b ∧ b ≤ x2 ∧
        ∀ y : K, a.val ≤ y → y ≤ b.val → |r.x.val - y| ≤ 201 / 100 * (149 / 10 ^ 10 * |r.x.val| + xatol.val / 3)) ∨
     (r.status = 1 ∧ maxiter ≤ r.nfev) ∨ (r.status = 2 ∧ ∃ p ∈ r.seen, p.2 = none)) := by
  have h : x1 ≤ x2 := by
    by_contra hc
    simp only [minimizeBounded] at hr
    rw [if_pos (not_le.1 hc)] at hr
    cases hr
  obtain ⟨s, flag, h1, ⟨I, hfu⟩, -, -, h5⟩ := minimize_run maxiter h (fun s => MinInv L f x1 x2 xatol s ∧ (s.fu.isNone → ∃ p ∈ s.seen, p.2 = none))
    (fun s hs hc => by
      obtain ⟨m1, m2, -⟩ := nextPoint_near F hL hx hs.1 hc
      exact ⟨minInv_next hs.1 m1 m2, nan_step xatol⟩)
    ⟨minInv_start F hL h, fun hn => by simp [minInit] at hn⟩
  rw [h1] at hr
  cases hr
  refine ⟨by simp, ?_⟩
  dsimp only
  by_cases hn : s.fx.isNone ∨ s.fu.isNone
  · rw [if_pos hn]
    refine Or.inr (Or.inr ⟨rfl, ?_⟩)
    rcases hn with hn | hn
    · exact ⟨_, I.mem, Option.isNone_iff_eq_none.1 hn⟩
    · exact hfu hn
  · rw [if_neg hn]
    rcases h5 with ⟨rfl, h5⟩ | ⟨rfl, h5⟩
    · exact Or.inl ⟨rfl, s.a, s.b, I.lo_le, I.a_le, I.le_b, I.le_hi, fun y hy1 hy2 => stop_near F hL hx I h5 hy1 hy2⟩
    · exact Or.inr (Or.inl ⟨rfl, h5⟩)

/-- **C140**: on a function that strictly decreases to its minimum at `m` and strictly increases after it (on the numbers of the format within the bounds), with a positive
tolerance, a result reported as a success is within `2.01 (1.49e-8 |x| + xatol / 3)` of the minimum. -/
theorem C140_unimodal (F : FormatOk R u) (L : MinLib (Fp R)) (hL : LibNear u L) (g : Fp R → Fp R) (x1 x2 m xatol : Fp R) (hx : 0 < xatol.val)
    (maxiter : Int) (hm1 : x1 ≤ m) (hm2 : m ≤ x2) (hdec : StrictAntiOn g (Set.Icc x1 m)) (hinc : StrictMonoOn g (Set.Icc m x2))
    (r : OptResult (Fp R)) (hr : minimizeBounded L (fun x => some (g x)) (some x1) (some x2) xatol maxiter = .ok r) (hs : r.success = true) :
    |r.x.val - m.val| ≤ 201 / 100 * (149 / 10 ^ 10 * |r.x.val| + xatol.val / 3) := by
  have h : x1 ≤ x2 := le_trans hm1 hm2
  obtain ⟨s, flag, h1, ⟨I, k1, k2⟩, -, -, h5⟩ := minimize_run maxiter h (fun s => MinInv L (fun x => some (g x)) x1 x2 xatol s ∧ s.a ≤ m ∧ m ≤ s.b)
    (fun s hs hc => by
      obtain ⟨I, k1, k2⟩ := hs
      obtain ⟨m1, m2, m3⟩ := nextPoint_near F hL hx.le I hc
      exact ⟨minInv_next I m1 m2, unimodal_step hdec hinc I k1 k2 m1 m2 (m3 (tol_pos F hL hx I.tol1))⟩)
    ⟨minInv_start F hL h, hm1, hm2⟩
  rw [h1] at hr
  cases hr
  dsimp only at hs ⊢
  rcases h5 with ⟨rfl, h5⟩ | ⟨rfl, h5⟩
  · exact stop_near F hL hx.le I h5 k1 k2
  · rw [decide_eq_true_iff] at hs
    by_cases hn : s.fx.isNone ∨ s.fu.isNone
    · rw [if_pos hn] at hs; cases hs
    · rw [if_neg hn] at hs; cases hs

/-- The library functions for `double`: the square root is rounded to the nearest number. -/
noncomputable def doubleLib : MinLib (Fp (Rounding.float (K := ℝ) 53 (by norm_num))) :=
  ⟨fun x => Fp.round _ (Real.sqrt x.val), fun _ z => if z.val < 0 then -1 else 1⟩

theorem doubleFormat : FormatOk (Rounding.float (K := ℝ) 53 (by norm_num)) (1 / 2 ^ 53) := formatOk_float 53 (by norm_num)

theorem doubleLib_near : LibNear (1 / 2 ^ 53) doubleLib := by
  have F := doubleFormat
  have o : (1 : Fp (Rounding.float (K := ℝ) 53 (by norm_num))).val = 1 := by
    have := F.nat 1 (by norm_num) (by norm_num)
    push_cast at this
    exact this
  refine ⟨fun x hx => ?_, fun n z => ⟨fun h => ?_, fun h => ?_, ?_⟩⟩
  · have hs := Real.sqrt_pos.2 hx
    have b := F.bounds hs.le
    have e : (doubleLib.sqrt x).val = (Rounding.float (K := ℝ) 53 (by norm_num)).rnd (Real.sqrt x.val) := rfl
    have sq := Real.sq_sqrt hx.le
    rw [← e] at b
    generalize (doubleLib.sqrt x).val = z at *
    generalize Real.sqrt x.val = w at *
    rw [← sq]
    norm_num at b ⊢
    refine ⟨by linarith, ?_⟩
    rw [abs_le]
    constructor <;> nlinarith
  · show (if z.val < 0 then (-1 : Fp _) else 1).val = -1
    rw [if_pos h]
    show (Rounding.float (K := ℝ) 53 (by norm_num)).rnd (-(1 : Fp (Rounding.float (K := ℝ) 53 (by norm_num))).val) = -1
    rw [o]
    exact F.neg 1 (by simpa using F.nat 1 (by norm_num) (by norm_num))
  · show (if z.val < 0 then (-1 : Fp _) else 1).val = 1
    rw [if_neg (not_lt.2 h.le), o]
  · show (if z.val < 0 then (-1 : Fp _) else 1).val = 1 ∨ (if z.val < 0 then (-1 : Fp _) else 1).val = -1
    split
    · right
      show (Rounding.float (K := ℝ) 53 (by norm_num)).rnd (-(1 : Fp (Rounding.float (K := ℝ) 53 (by norm_num))).val) = -1
      rw [o]
      exact F.neg 1 (by simpa using F.nat 1 (by norm_num) (by norm_num))
    · exact Or.inl o

/-- `double` meets the assumptions on the format and the library, and there are bounds and tolerances. -/
example : FormatOk (Rounding.float (K := ℝ) 53 (by norm_num)) (1 / 2 ^ 53) ∧ LibNear (1 / 2 ^ 53) doubleLib ∧
    (0 : Fp (Rounding.float (K := ℝ) 53 (by norm_num))) ≤ 1 ∧ 0 < (1 / 2 : Fp (Rounding.float (K := ℝ) 53 (by norm_num))).val := by
  refine ⟨doubleFormat, doubleLib_near, ?_, by rw [doubleFormat.half_val]; norm_num⟩
  exact (Rounding.float (K := ℝ) 53 (by norm_num)).mono 0 1 zero_le_one

/-- The identity has its single minimum at the lower bound (the hypotheses of `C140_unimodal`). -/
example : StrictAntiOn (id : Fp (Rounding.float (K := ℝ) 53 (by norm_num)) → _) (Set.Icc 0 0) ∧
    StrictMonoOn (id : Fp (Rounding.float (K := ℝ) 53 (by norm_num)) → _) (Set.Icc 0 1) := by
  refine ⟨?_, fun _ _ _ _ h => h⟩
  rw [Set.Icc_self]
  intro a ha b hb hab
  rw [Set.mem_singleton_iff.1 ha, Set.mem_singleton_iff.1 hb] at hab
  exact absurd hab (lt_irrefl _)

/-- **C140** for `double`: the whole contract. -/
theorem C140_double (f : Fp (Rounding.float (K := ℝ) 53 (by norm_num)) → Option (Fp (Rounding.float (K := ℝ) 53 (by norm_num))))
    (x1 x2 xatol : Fp (Rounding.float (K := ℝ) 53 (by norm_num))) (hx : 0 ≤ xatol.val) (maxiter : Int) (h : x1 ≤ x2) :
    ∃ r, minimizeBounded doubleLib f (some x1) (some x2) xatol maxiter = .ok r ∧ (∀ p ∈ r.seen, x1 ≤ p.1 ∧ p.1 ≤ x2 ∧ p.2 = f p.1) ∧ (r.x, r.fn) ∈ r.seen ∧
      (r.nfev : Int) ≤ max maxiter 2 := by
  obtain ⟨r, h1, h2, -, -, -, h3, -, -, -, h4⟩ := C140_contract doubleFormat doubleLib doubleLib_near f x1 x2 xatol hx maxiter h
  exact ⟨r, h1, h2, h3, h4⟩

end Cmm.Num
