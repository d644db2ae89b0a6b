import Verif.Lemmas.Rounding
import Verif.Spec.RoundingEval
import Verif.Lemmas.CurveOps
import Verif.Lemmas.Surface
import Mathlib.Tactic.LinearCombination
import Mathlib.Data.Nat.Cast.Order.Ring
/-! Propagation of rounding errors through the evaluation of curves and surfaces. -/
namespace Cmm
variable {K : Type} [Field K] [LinearOrder K] [IsStrictOrderedRing K]

/-- `R` has relative error `u`, and `ρ = 1 / (1 - u)`. -/
structure ErrUnit (R : Rounding K) (u ρ : K) : Prop where
  err : R.RelError u
  u0 : 0 ≤ u
  u1 : u < 1
  inv : ρ * (1 - u) = 1

namespace ErrUnit
variable {R : Rounding K} {u ρ : K} (h : ErrUnit R u ρ)
include h

theorem pos : 0 < ρ := by
  have h1 := h.u1
  rcases lt_or_ge 0 ρ with g | g
  · exact g
  · have : ρ * (1 - u) ≤ 0 := mul_nonpos_of_nonpos_of_nonneg g (by linarith)
    rw [h.inv] at this
    linarith [one_pos (α := K)]

theorem one_add_le : 1 + u ≤ ρ := by
  have h1 := h.u1
  have hp := h.pos
  have e : ρ - (1 + u) = ρ * (u * u) := by linear_combination (1 + u) * h.inv
  have : 0 ≤ ρ * (u * u) := mul_nonneg hp.le (mul_self_nonneg u)
  linarith

theorem one_le : 1 ≤ ρ := by have := h.one_add_le; have := h.u0; linarith

theorem one_le_pow (k : Nat) : 1 ≤ ρ ^ k := one_le_pow₀ h.one_le
theorem pow_pos (k : Nat) : 0 < ρ ^ k := _root_.pow_pos h.pos k
theorem pow_mono {k l : Nat} (hk : k ≤ l) : ρ ^ k ≤ ρ ^ l := pow_le_pow_right₀ h.one_le hk
end ErrUnit

/-- Two numbers that are not negative and differ by at most the factor `ρ ^ k`; `b` is the computed one. -/
def Close (ρ : K) (k : Nat) (a b : K) : Prop := 0 ≤ a ∧ b ≤ ρ ^ k * a ∧ a ≤ ρ ^ k * b

/-- A number of size at most `A` and its computed value with an error of at most `ρ ^ k - 1` of that. -/
def Near (ρ : K) (k : Nat) (A a b : K) : Prop := |a| ≤ A ∧ |b - a| ≤ (ρ ^ k - 1) * A

namespace Close
variable {R : Rounding K} {u ρ : K} (h : ErrUnit R u ρ) {k l : Nat} {a b c d : K}
include h

theorem nonneg (g : Close ρ k a b) : 0 ≤ b := by
  rcases le_or_gt 0 b with h1 | h1
  · exact h1
  · have := mul_neg_of_pos_of_neg (h.pow_pos k) h1
    have := g.1; have := g.2.2; linarith

theorem pos (g : Close ρ k a b) (ha : 0 < a) : 0 < b := by
  rcases lt_or_ge 0 b with h1 | h1
  · exact h1
  · have := mul_nonpos_of_nonneg_of_nonpos (h.pow_pos k).le h1
    have := g.2.2; linarith

theorem refl (ha : 0 ≤ a) : Close ρ k a a :=
  ⟨ha, le_mul_of_one_le_left ha (h.one_le_pow k), le_mul_of_one_le_left ha (h.one_le_pow k)⟩

theorem mono (g : Close ρ k a b) (hk : k ≤ l) : Close ρ l a b :=
  ⟨g.1, g.2.1.trans (mul_le_mul_of_nonneg_right (h.pow_mono hk) g.1),
    g.2.2.trans (mul_le_mul_of_nonneg_right (h.pow_mono hk) (g.nonneg h))⟩

theorem rnd (g : Close ρ k a b) : Close ρ (k + 1) a (R.rnd b) := by
  have hb := g.nonneg h
  have he := h.err b
  rw [abs_of_nonneg hb, abs_le] at he
  have h1 : R.rnd b ≤ ρ * b := by nlinarith [h.one_add_le]
  have h2 : b ≤ ρ * R.rnd b := by
    have : ρ * ((1 - u) * b) ≤ ρ * R.rnd b := mul_le_mul_of_nonneg_left (by linarith) h.pos.le
    rw [← mul_assoc, h.inv, one_mul] at this
    exact this
  refine ⟨g.1, ?_, ?_⟩
  · calc R.rnd b ≤ ρ * b := h1
      _ ≤ ρ * (ρ ^ k * a) := mul_le_mul_of_nonneg_left g.2.1 h.pos.le
      _ = ρ ^ (k + 1) * a := by ring
  · calc a ≤ ρ ^ k * b := g.2.2
      _ ≤ ρ ^ k * (ρ * R.rnd b) := mul_le_mul_of_nonneg_left h2 (h.pow_pos k).le
      _ = ρ ^ (k + 1) * R.rnd b := by ring

omit h in
theorem add (g : Close ρ k a b) (g' : Close ρ k c d) : Close ρ k (a + c) (b + d) :=
  ⟨add_nonneg g.1 g'.1, by linarith [g.2.1, g'.2.1], by linarith [g.2.2, g'.2.2]⟩

theorem mul (g : Close ρ k a b) (g' : Close ρ l c d) : Close ρ (k + l) (a * c) (b * d) := by
  refine ⟨mul_nonneg g.1 g'.1, ?_, ?_⟩
  · calc b * d ≤ (ρ ^ k * a) * (ρ ^ l * c) := mul_le_mul g.2.1 g'.2.1 (g'.nonneg h) (mul_nonneg (h.pow_pos k).le g.1)
      _ = ρ ^ (k + l) * (a * c) := by ring
  · calc a * c ≤ (ρ ^ k * b) * (ρ ^ l * d) := mul_le_mul g.2.2 g'.2.2 g'.1 (mul_nonneg (h.pow_pos k).le (g.nonneg h))
      _ = ρ ^ (k + l) * (b * d) := by ring

theorem inv (g : Close ρ k a b) (ha : 0 < a) : Close ρ k a⁻¹ b⁻¹ := by
  have hb := g.pos h ha
  refine ⟨(inv_pos.mpr ha).le, ?_, ?_⟩
  · rw [← div_eq_mul_inv, le_div_iff₀ ha, inv_mul_le_iff₀ hb, mul_comm]; exact g.2.2
  · rw [← div_eq_mul_inv, le_div_iff₀ hb, inv_mul_le_iff₀ ha, mul_comm]; exact g.2.1

theorem div (g : Close ρ k a b) (g' : Close ρ l c d) (hc : 0 < c) : Close ρ (k + l) (a / c) (b / d) := by
  rw [div_eq_mul_inv, div_eq_mul_inv]; exact g.mul h (g'.inv h hc)

/-- The difference of the two. -/
theorem sub_le (g : Close ρ k a b) : |b - a| ≤ (ρ ^ k - 1) * a := by
  have h1 := h.one_le_pow k
  rw [abs_le]
  refine ⟨?_, by linarith [g.2.1]⟩
  have h2 : ρ ^ k * ((2 - ρ ^ k) * a) ≤ ρ ^ k * b := by
    have : 0 ≤ (ρ ^ k - 1) * (ρ ^ k - 1) * a := mul_nonneg (mul_self_nonneg _) g.1
    nlinarith [g.2.2]
  have := le_of_mul_le_mul_left h2 (h.pow_pos k)
  linarith
end Close

namespace Near
variable {R : Rounding K} {u ρ : K} (h : ErrUnit R u ρ) {k l : Nat} {A B a b c d : K}

theorem size_nonneg (g : Near ρ k A a b) : 0 ≤ A := (abs_nonneg a).trans g.1

include h
theorem refl (ha : |a| ≤ A) : Near ρ k A a a := by
  refine ⟨ha, ?_⟩
  rw [sub_self, abs_zero]
  exact mul_nonneg (by linarith [h.one_le_pow k]) ((abs_nonneg a).trans ha)

theorem mono (g : Near ρ k A a b) (hk : k ≤ l) : Near ρ l A a b :=
  ⟨g.1, g.2.trans (mul_le_mul_of_nonneg_right (by linarith [h.pow_mono hk]) g.size_nonneg)⟩

theorem abs_le_mul (g : Near ρ k A a b) : |b| ≤ ρ ^ k * A := by
  have h1 := abs_add_le (b - a) a
  rw [sub_add_cancel] at h1
  have := g.1; have := g.2
  linarith

theorem rnd (g : Near ρ k A a b) : Near ρ (k + 1) A a (R.rnd b) := by
  refine ⟨g.1, ?_⟩
  have h1 := abs_sub_le (R.rnd b) b a
  have h2 := h.err b
  have h3 : u * |b| ≤ u * (ρ ^ k * A) := mul_le_mul_of_nonneg_left (g.abs_le_mul h) h.u0
  have h4 : ρ ^ k * A * (1 + u) ≤ ρ ^ k * A * ρ :=
    mul_le_mul_of_nonneg_left h.one_add_le (mul_nonneg (h.pow_pos k).le g.size_nonneg)
  have := g.2
  rw [pow_succ]
  linarith

theorem add (g : Near ρ k A a b) (g' : Near ρ k B c d) : Near ρ k (A + B) (a + c) (b + d) := by
  refine ⟨(abs_add_le a c).trans (add_le_add g.1 g'.1), ?_⟩
  have e : b + d - (a + c) = (b - a) + (d - c) := by ring
  rw [e]
  refine (abs_add_le _ _).trans ?_
  have := g.2; have := g'.2
  linarith

/-- Product with a number that is not negative. -/
theorem smul (g : Near ρ k A a b) (g' : Close ρ l c d) : Near ρ (k + l) (c * A) (c * a) (d * b) := by
  have hc := g'.1
  have hd := g'.nonneg h
  refine ⟨?_, ?_⟩
  · rw [abs_mul, abs_of_nonneg hc]; exact mul_le_mul_of_nonneg_left g.1 hc
  · have e : d * b - c * a = d * (b - a) + (d - c) * a := by ring
    rw [e]
    refine (abs_add_le _ _).trans ?_
    rw [abs_mul, abs_mul, abs_of_nonneg hd]
    have h0 : 0 ≤ ρ ^ k - 1 := by linarith [h.one_le_pow k]
    have h1 : d * |b - a| ≤ (ρ ^ l * c) * ((ρ ^ k - 1) * A) :=
      mul_le_mul g'.2.1 g.2 (abs_nonneg _) (mul_nonneg (h.pow_pos l).le hc)
    have h2 : |d - c| * |a| ≤ ((ρ ^ l - 1) * c) * A :=
      mul_le_mul (g'.sub_le h) g.1 (abs_nonneg _) (mul_nonneg (by linarith [h.one_le_pow l]) hc)
    rw [pow_add]
    linarith

theorem div (g : Near ρ k A a b) (g' : Close ρ l c d) (hc : 0 < c) : Near ρ (k + l) (A / c) (a / c) (b / d) := by
  have := g.smul h (g'.inv h hc)
  rw [div_eq_inv_mul, div_eq_inv_mul, div_eq_inv_mul]; exact this
end Near

namespace Nurbs
open Fp
variable {R : Rounding K} {u ρ : K}

omit [IsStrictOrderedRing K] in
theorem scanSpan_val (U : Nat → Fp R) (t : Fp R) (stop span : Nat) :
    scanSpan U t stop span = scanSpan (fun i => (U i).val) t.val stop span := by
  induction hn : stop - span generalizing span with
  | zero =>
    conv_lhs => rw [scanSpan, if_neg (by omega)]
    conv_rhs => rw [scanSpan, if_neg (by omega)]
  | succ n ih =>
    by_cases hc : span < stop ∧ U span ≤ t
    · conv_lhs => rw [scanSpan, if_pos hc]
      conv_rhs => rw [scanSpan, if_pos (by exact hc)]
      exact ih _ (by omega)
    · conv_lhs => rw [scanSpan, if_neg hc]
      conv_rhs => rw [scanSpan, if_neg (by exact hc)]

omit [IsStrictOrderedRing K] in
theorem findSpan_val (n p : Nat) (U : Nat → Fp R) (t : Fp R) :
    findSpan n p t U = findSpan n p t.val (fun i => (U i).val) := by
  rw [findSpan, findSpan, scanSpan_val]

theorem close_sub (h : ErrUnit R u ρ) {a b : Fp R} (hab : b.val ≤ a.val) : Close ρ 1 (a.val - b.val) (a - b).val :=
  (Close.refl h (k := 0) (sub_nonneg.mpr hab)).rnd h

theorem basisInner_close (h : ErrUnit R u ρ) (U : Nat → Fp R) (i : Nat) (t : Fp R) (j k : Nat) :
    ∀ (ns : List K) (ms : List (Fp R)), List.Forall₂ (fun a (b : Fp R) => Close ρ k a b.val) ns ms →
    ∀ (r : Nat) (s : K) (s' : Fp R), Close ρ (k + 5) s s'.val →
      (∀ x, r ≤ x → x < r + ns.length → t.val ≤ (U (i + (x + 1))).val ∧ (U (i + 1 - (j - x))).val ≤ t.val ∧
        (U (i + 1 - (j - x))).val < (U (i + (x + 1))).val) →
      List.Forall₂ (fun a (b : Fp R) => Close ρ (k + 6) a b.val) (basisInner (fun i => (U i).val) i t.val j r s ns)
        (basisInner U i t j r s' ms) := by
  intro ns ms hf
  induction hf with
  | nil => intro r s s' hs _; exact .cons (hs.mono h (by omega)) .nil
  | @cons n m ns ms hnm hf ih =>
    intro r s s' hs hU
    obtain ⟨h1, h2, h3⟩ := hU r (le_refl _) (by simp)
    have c1 := close_sub h h1
    have c2 := close_sub h h2
    have c3 := (c1.add c2).rnd h
    have c4 := (hnm.div h c3 (by linarith)).rnd h
    have c5 := (c1.mul h c4).rnd h
    have c6 := (c2.mul h c4).rnd h
    rw [basisInner, basisInner]
    refine .cons ?_ (ih _ _ _ (c6.mono h (by omega)) fun x a b => hU x (by omega) (by rw [List.length_cons]; omega))
    exact (hs.add (c5.mono h (by omega))).rnd h

/-- The basis functions, with the knots sorted around the span `i`. -/
theorem basisFuns_close (h : ErrUnit R u ρ) (U : Nat → Fp R) (i N : Nat) (t : Fp R)
    (hs : ∀ a b, a ≤ b → b < N → (U a).val ≤ (U b).val) (h1 : (U i).val ≤ t.val) (h2 : t.val ≤ (U (i + 1)).val)
    (h3 : (U i).val < (U (i + 1)).val) (p : Nat) (hp : p ≤ i) (hN : i + p < N) :
    List.Forall₂ (fun a (b : Fp R) => Close ρ (6 * p + 1) a b.val) (basisFuns i t.val (fun i => (U i).val) p)
      (basisFuns i t U p) := by
  induction p with
  | zero => exact .cons ((Close.refl h (k := 0) zero_le_one).rnd h) .nil
  | succ p ih =>
    rw [basisFuns, basisFuns]
    have := basisInner_close h U i t (p + 1) (6 * p + 1) _ _ (ih (by omega) (by omega)) 0 0 0
      (by rw [Fp.zero_val]; exact Close.refl h (le_refl _)) ?_
    · exact this
    · intro x _ hx
      rw [basisFuns_length] at hx
      have g1 := hs (i + 1) (i + (x + 1)) (by omega) (by omega)
      have g2 := hs (i + 1 - (p + 1 - x)) i (by omega) (by omega)
      exact ⟨h2.trans g1, g2.trans h1, g2.trans_lt (h3.trans_le g1)⟩

/-! ### Curves -/

/-- The loop of `curve_point`, one coordinate `f` of the points at a time. -/
theorem curveAcc_near (h : ErrUnit R u ρ) (P : Nat → Vec4 (Fp R)) (M : K) (j : Nat) :
    ∀ (ns : List K) (ms : List (Fp R)), List.Forall₂ (fun a (b : Fp R) => Close ρ j a b.val) ns ms →
    ∀ (k m : Nat) (sw : K) (sw' : Fp R) (r : Vec3 K) (r' : Vec3 (Fp R)), j + 2 ≤ m →
      (∀ x, k ≤ x → x < k + ns.length → 0 < (P x).w.val ∧ Bounded M (Vec4.pos (exact4 (P x)))) →
      Close ρ m sw sw'.val → Near ρ m (sw * M) r.x r'.x.val → Near ρ m (sw * M) r.y r'.y.val → Near ρ m (sw * M) r.z r'.z.val →
      let a := curveAcc (fun i => exact4 (P i)) ns k sw r
      let a' := curveAcc P ms k sw' r'
      let m' := m + ns.length
      Close ρ m' a.1 a'.1.val ∧ Near ρ m' (a.1 * M) a.2.x a'.2.x.val ∧ Near ρ m' (a.1 * M) a.2.y a'.2.y.val ∧
        Near ρ m' (a.1 * M) a.2.z a'.2.z.val := by
  intro ns ms hf
  induction hf with
  | nil => intro k m sw sw' r r' _ _ h1 h2 h3 h4; exact ⟨h1, h2, h3, h4⟩
  | @cons n n' ns ms hn hf ih =>
    intro k m sw sw' r r' hm hP h1 h2 h3 h4
    obtain ⟨hw, bx, by', bz⟩ := hP k (le_refl _) (by simp)
    have cb : Close ρ (j + 1) (n * (P k).w.val) (n' * (P k).w).val := (hn.mul h (Close.refl h (k := 0) hw.le)).rnd h
    have step : ∀ (x x' : K) (p : Fp R), |p.val| ≤ M → Near ρ m (sw * M) x x' →
        Near ρ (m + 1) ((sw + n * (P k).w.val) * M) (x + n * (P k).w.val * p.val)
          (R.rnd (x' + ((n' * (P k).w) * p).val)) := by
      intro x x' p hp hx
      have g := ((Near.refl h (k := 0) hp).smul h cb).rnd h
      rw [add_mul]
      exact (hx.add h (g.mono h (by omega))).rnd h
    have := ih (k + 1) (m + 1) (sw + n * (P k).w.val) (sw' + n' * (P k).w)
      ⟨r.x + n * (P k).w.val * (P k).x.val, r.y + n * (P k).w.val * (P k).y.val, r.z + n * (P k).w.val * (P k).z.val⟩
      ⟨r'.x + n' * (P k).w * (P k).x, r'.y + n' * (P k).w * (P k).y, r'.z + n' * (P k).w * (P k).z⟩ (by omega)
      (fun x a b => hP x (by omega) (by rw [List.length_cons]; omega)) ((h1.add (cb.mono h (by omega))).rnd h)
      (step _ _ _ bx h2) (step _ _ _ by' h3) (step _ _ _ bz h4)
    have e : m + 1 + ns.length = m + (n :: ns).length := by rw [List.length_cons]; omega
    rw [e] at this
    exact this

/-! ### Surfaces -/

/-- A homogeneous point with a weight that is not negative and its computed value; the point itself has no coordinate above `M`. -/
def Near4 (ρ : K) (k : Nat) (M : K) (v : Vec4 K) (v' : Vec4 (Fp R)) : Prop :=
  Close ρ k v.w v'.w.val ∧ Near ρ k (v.w * M) v.x v'.x.val ∧ Near ρ k (v.w * M) v.y v'.y.val ∧ Near ρ k (v.w * M) v.z v'.z.val

theorem Near4.zero (h : ErrUnit R u ρ) (k : Nat) (M : K) : Near4 (R := R) ρ k M 0 0 := by
  have e : (0 : K) * M = 0 := MulZeroClass.zero_mul M
  have g : Near ρ k (0 * M) 0 (0 : Fp R).val := by
    rw [e, Fp.zero_val]; exact Near.refl h (by rw [abs_zero])
  exact ⟨by show Close ρ k 0 (0 : Fp R).val; rw [Fp.zero_val]; exact Close.refl h (le_refl _), g, g, g⟩

theorem acc4_near (h : ErrUnit R u ρ) (g : Nat → Vec4 K) (g' : Nat → Vec4 (Fp R)) (M : K) (j l : Nat) :
    ∀ (ns : List K) (ms : List (Fp R)), List.Forall₂ (fun a (b : Fp R) => Close ρ j a b.val) ns ms →
    ∀ (k m : Nat) (a : Vec4 K) (a' : Vec4 (Fp R)), l + j + 1 ≤ m →
      (∀ x, k ≤ x → x < k + ns.length → Near4 ρ l M (g x) (g' x)) → Near4 ρ m M a a' →
      Near4 ρ (m + ns.length) M (acc4 g ns k a) (acc4 g' ms k a') := by
  intro ns ms hf
  induction hf with
  | nil => intro k m a a' _ _ h1; exact h1
  | @cons n n' ns ms hn hf ih =>
    intro k m a a' hm hg h1
    obtain ⟨gw, gx, gy, gz⟩ := hg k (le_refl _) (by simp)
    have step : ∀ (x x' y : K) (y' : Fp R), Near ρ l ((g k).w * M) y y'.val → Near ρ m (a.w * M) x x' →
        Near ρ (m + 1) ((a.w + (g k).w * n) * M) (x + y * n) (R.rnd (x' + (y' * n').val)) := by
      intro x x' y y' hy hx
      have g1 := (hy.smul h hn).rnd h
      have e : (a.w + (g k).w * n) * M = a.w * M + n * ((g k).w * M) := by ring
      rw [e, mul_comm y n]
      refine (hx.add h ((?_ : Near ρ (l + j + 1) _ _ _).mono h (by omega))).rnd h
      rw [mul_comm n'.val] at g1
      exact g1
    have := ih (k + 1) (m + 1) (a + (g k).smul n) (a' + (g' k).smul n') (by omega)
      (fun x p q => hg x (by omega) (by rw [List.length_cons]; omega))
      ⟨(h1.1.add (((gw.mul h hn).rnd h).mono h (by omega))).rnd h, step _ _ _ _ gx h1.2.1, step _ _ _ _ gy h1.2.2.1,
        step _ _ _ _ gz h1.2.2.2⟩
    have e : m + 1 + ns.length = m + (n :: ns).length := by rw [List.length_cons]; omega
    rw [e] at this
    exact this

/-! ### Exact counterparts -/

omit [IsStrictOrderedRing K] in
theorem ix_knots_exact (l : List (Fp R)) (i : Nat) : ix (l.map Fp.val) i = (ix l i).val := by
  rw [ix, ix, List.getD_eq_getElem?_getD, List.getD_eq_getElem?_getD, List.getElem?_map]
  cases l[i]? with
  | none => exact Fp.zero_val.symm
  | some a => rfl

omit [IsStrictOrderedRing K] in
theorem exact4_zero : exact4 (0 : Vec4 (Fp R)) = 0 := by
  show (⟨(0 : Fp R).val, (0 : Fp R).val, (0 : Fp R).val, (0 : Fp R).val⟩ : Vec4 K) = ⟨0, 0, 0, 0⟩
  rw [Fp.zero_val]

omit [IsStrictOrderedRing K] in
theorem ix_cpts_exact (l : List (Vec4 (Fp R))) (i : Nat) : ix (l.map exact4) i = exact4 (ix l i) := by
  rw [ix, ix, List.getD_eq_getElem?_getD, List.getD_eq_getElem?_getD, List.getElem?_map]
  cases l[i]? with
  | none => exact exact4_zero.symm
  | some a => rfl

omit [IsStrictOrderedRing K] in
theorem cell_exact (l : List (List (Vec4 (Fp R)))) (i j : Nat) : cell (l.map (·.map exact4)) i j = exact4 (cell l i j) := by
  rw [cell, cell, ← ix_cpts_exact, List.getD_eq_getElem?_getD, List.getD_eq_getElem?_getD, List.getElem?_map]
  cases l[i]? <;> rfl

/-- Bernoulli's inequality for the factor `ρ`. -/
theorem _root_.Cmm.ErrUnit.pow_sub_one_le (h : ErrUnit R u ρ) (k n : Nat) (hn : (k * (1 + n * u)) ≤ (n : K)) : ρ ^ k - 1 ≤ n * u := by
  have h1 : 1 - (k : K) * u ≤ (1 - u) ^ k := by
    clear hn
    induction k with
    | zero => simp
    | succ k ih =>
      have h2 : (1 - (k : K) * u) * (1 - u) ≤ (1 - u) ^ k * (1 - u) := mul_le_mul_of_nonneg_right ih (by linarith [h.u1])
      have h3 := mul_nonneg (mul_nonneg (Nat.cast_nonneg (α := K) k) h.u0) h.u0
      rw [pow_succ]; push_cast; linarith
  have h2 : ρ ^ k * (1 - u) ^ k = 1 := by rw [← mul_pow, h.inv, one_pow]
  have h3 := h.pow_pos k
  have h4 : ρ ^ k * (1 - k * u) ≤ 1 := (mul_le_mul_of_nonneg_left h1 h3.le).trans h2.le
  have h5 : 1 ≤ (1 + n * u) * (1 - k * u) := by nlinarith [h.u0]
  have h6 : 0 < 1 - (k : K) * u := by
    have h0 : 0 < 1 + (n : K) * u := by have := mul_nonneg (Nat.cast_nonneg (α := K) n) h.u0; linarith
    by_contra hc
    have := mul_nonpos_of_nonneg_of_nonpos h0.le (not_lt.mp hc)
    linarith [one_pos (α := K)]
  have : ρ ^ k * (1 - k * u) ≤ (1 + n * u) * (1 - k * u) := h4.trans h5
  have := le_of_mul_le_mul_right this h6
  linarith

theorem _root_.Cmm.ErrUnit.pow_le (h : ErrUnit R u ρ) (hu : u ≤ 1 / 2 ^ 16) (k : Nat) (hk : k ≤ 255) : ρ ^ k - 1 ≤ (k + 1) * u := by
  have h1 : k * (k + 1) ≤ 255 * 256 := Nat.mul_le_mul hk (by omega)
  have h2 : (k : K) * (k + 1) ≤ 255 * 256 := by exact_mod_cast h1
  have h3 : (k : K) * (k + 1) * u ≤ 1 := by
    refine (mul_le_mul_of_nonneg_right h2 h.u0).trans ?_
    norm_num at hu
    linarith
  have := h.pow_sub_one_le k (k + 1) (by push_cast; linarith)
  push_cast at this
  exact this

end Nurbs
end Cmm
