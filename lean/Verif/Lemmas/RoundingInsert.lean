import Verif.Lemmas.RoundingEval
import Verif.Lemmas.CurveOps
/-! Propagation of rounding errors through knot insertion. -/
namespace Cmm
variable {K : Type} [Field K] [LinearOrder K] [IsStrictOrderedRing K] {R : Rounding K} {u ρ : K}

theorem ErrUnit.u_le (h : ErrUnit R u ρ) : u ≤ ρ - 1 := by linarith [h.one_add_le]

/-- A relative error measured from the exact value only, seen from both values. -/
theorem Near.close (h : ErrUnit R u ρ) {k : Nat} {a b : K} (g : Near ρ k a a b) (hk : ρ ^ k ≤ 3 / 2) : Close ρ (2 * k) a b := by
  have ha := g.size_nonneg
  have h1 := h.one_le_pow k
  have g2 := abs_le.mp g.2
  have e : ρ ^ (2 * k) = ρ ^ k * ρ ^ k := by rw [two_mul, pow_add]
  set x := ρ ^ k with hx
  have hx2 : x ≤ x * x := by nlinarith
  refine ⟨ha, ?_, ?_⟩
  · rw [e]
    have := mul_le_mul_of_nonneg_right hx2 ha
    linarith
  · rw [e]
    have h2 : (2 - x) * a ≤ b := by linarith
    have h3 : x * x * ((2 - x) * a) ≤ x * x * b := mul_le_mul_of_nonneg_left h2 (by positivity)
    have h4 : 1 ≤ x * x * (2 - x) := by nlinarith [mul_nonneg (sub_nonneg.2 h1) (sub_nonneg.2 hk)]
    have h5 := mul_le_mul_of_nonneg_right h4 ha
    linarith

/-- The coefficient `1 - alpha`. -/
theorem Near.one_sub (h : ErrUnit R u ρ) {α α' : K} (hα : Close ρ 3 α α') (h1 : α ≤ 1) : Near ρ 5 1 (1 - α) (R.rnd (R.rnd 1 - α')) := by
  refine Near.rnd h (k := 4) ⟨by rw [abs_of_nonneg (by linarith)]; linarith [hα.1], ?_⟩
  have e := h.err 1
  rw [abs_one, mul_one] at e
  have e2 := hα.sub_le h
  have h3 := h.one_le_pow 3
  have e3 : (ρ ^ 3 - 1) * α ≤ (ρ ^ 3 - 1) * 1 := mul_le_mul_of_nonneg_left h1 (by linarith)
  have e4 : R.rnd 1 - α' - (1 - α) = (R.rnd 1 - 1) - (α' - α) := by ring
  rw [e4]
  refine (abs_sub _ _).trans ?_
  have h4 : ρ ^ 4 = ρ ^ 3 * ρ := by ring
  have := h.u_le
  have := h.one_le
  nlinarith

/-- One combination `a * alpha + b * (1 - alpha)`. -/
theorem Near.lerp (h : ErrUnit R u ρ) {k : Nat} {M α α' β' a a' b b' : K} (ga : Near ρ k M a a') (gb : Near ρ k M b b')
    (hα : Close ρ 3 α α') (h1 : α ≤ 1) (hβ : Near ρ 5 1 (1 - α) β') :
    Near ρ (k + 10) M (α * a + (1 - α) * b) (R.rnd (R.rnd (a' * α') + R.rnd (b' * β'))) := by
  have hM := ga.size_nonneg
  have hα0 := hα.1
  refine Near.rnd h (k := k + 9) ⟨?_, ?_⟩
  · refine (abs_add_le _ _).trans ?_
    rw [abs_mul, abs_mul, abs_of_nonneg hα0, abs_of_nonneg (by linarith : 0 ≤ 1 - α)]
    have := mul_le_mul_of_nonneg_left ga.1 hα0
    have := mul_le_mul_of_nonneg_left gb.1 (by linarith : 0 ≤ 1 - α)
    linarith
  have x1 := (ga.smul h hα).rnd h
  rw [mul_comm α' a'] at x1
  have x1' := x1.2
  have hk := h.one_le_pow k
  have h5 := h.one_le_pow 5
  have hb5 : |β'| ≤ (1 - α) + (ρ ^ 5 - 1) := by
    have := abs_sub_abs_le_abs_sub β' (1 - α)
    have h2 := hβ.2
    rw [abs_of_nonneg (by linarith : 0 ≤ 1 - α)] at this
    linarith
  have hβ0 : 0 ≤ (1 - α) + (ρ ^ 5 - 1) := by linarith
  have hprod : |b' * β'| ≤ ρ ^ k * M * ((1 - α) + (ρ ^ 5 - 1)) := by
    rw [abs_mul]
    exact mul_le_mul (gb.abs_le_mul h) hb5 (abs_nonneg _) (by positivity)
  have hdiff : |b' * β' - (1 - α) * b| ≤ ((1 - α) * (ρ ^ k - 1) + (ρ ^ 5 - 1) * ρ ^ k) * M := by
    have e : b' * β' - (1 - α) * b = (1 - α) * (b' - b) + (β' - (1 - α)) * b' := by ring
    rw [e]
    refine (abs_add_le _ _).trans ?_
    rw [abs_mul, abs_mul, abs_of_nonneg (by linarith : 0 ≤ 1 - α)]
    have p1 := mul_le_mul_of_nonneg_left gb.2 (by linarith : 0 ≤ 1 - α)
    have p2 : |β' - (1 - α)| * |b'| ≤ ((ρ ^ 5 - 1) * 1) * (ρ ^ k * M) :=
      mul_le_mul hβ.2 (gb.abs_le_mul h) (abs_nonneg _) (by linarith)
    linarith
  have hr := h.err (b' * β')
  have hr2 : u * |b' * β'| ≤ (ρ - 1) * (ρ ^ k * M * ((1 - α) + (ρ ^ 5 - 1))) :=
    mul_le_mul h.u_le hprod (abs_nonneg _) (by linarith [h.one_le])
  have x2 : |R.rnd (b' * β') - (1 - α) * b| ≤ (ρ * ρ ^ k * ((1 - α) + (ρ ^ 5 - 1)) - (1 - α)) * M := by
    have := abs_sub_le (R.rnd (b' * β')) (b' * β') ((1 - α) * b)
    linarith
  have e : R.rnd (a' * α') + R.rnd (b' * β') - (α * a + (1 - α) * b) =
      (R.rnd (a' * α') - α * a) + (R.rnd (b' * β') - (1 - α) * b) := by ring
  rw [e]
  refine (abs_add_le _ _).trans ((add_le_add x1' x2).trans ?_)
  have e4 : ρ ^ (k + 3 + 1) = ρ * ρ ^ k * ρ ^ 3 := by ring
  have e9 : ρ ^ (k + 9) = ρ * ρ ^ k * (ρ ^ 3 * ρ ^ 5) := by ring
  rw [e4, e9]
  have h3 := h.one_le_pow 3
  have hq : 0 ≤ ρ * ρ ^ k := (mul_pos h.pos (h.pow_pos k)).le
  set q := ρ * ρ ^ k
  set c := ρ ^ 3
  set d := ρ ^ 5
  have t1 : 0 ≤ (1 - α) * (c - 1) := mul_nonneg (by linarith) (by linarith)
  have t2 : 0 ≤ (c - 1) * (d - 1) := mul_nonneg (by linarith) (by linarith)
  have t3 : 0 ≤ q * ((1 - α) * (c - 1) + (c - 1) * (d - 1)) := mul_nonneg hq (by linarith)
  have t4 := mul_nonneg t3 hM
  nlinarith

namespace Nurbs
open Fp

/-! ### The work array -/

/-- One coordinate of `lerp4` is computed by this. -/
def lerp1r (α a b : Fp R) : Fp R := a * α + b * (1 - α)

theorem alpha_close (h : ErrUnit R u ρ) {t a b : Fp R} (h1 : a.val ≤ t.val) (h2 : t.val < b.val) :
    Close ρ 3 ((t.val - a.val) / (b.val - a.val)) ((t - a) / (b - a)).val ∧ (t.val - a.val) / (b.val - a.val) ≤ 1 := by
  have c1 := close_sub h h1
  have c2 := close_sub h (h1.trans h2.le)
  refine ⟨(c1.div h c2 (by linarith)).rnd h, ?_⟩
  rw [div_le_one (by linarith)]
  linarith

theorem lerp1r_near (h : ErrUnit R u ρ) {k : Nat} {M α : K} {α' a' b' : Fp R} {a b : K} (hα : Close ρ 3 α α'.val) (h1 : α ≤ 1)
    (ga : Near ρ k M a a'.val) (gb : Near ρ k M b b'.val) : Near ρ (k + 10) M (lerp1 α a b) (lerp1r α' a' b').val :=
  Near.lerp h ga gb hα h1 (Near.one_sub h hα h1)

/-- The triangle of insertion, computed and exact. -/
theorem tri_near (h : ErrUnit R u ρ) {p k : Nat} {U : Nat → Fp R} {t : Fp R} {P : Nat → Fp R} {M : K}
    (hU : ∀ a b, a ≤ b → b ≤ k + p → (U a).val ≤ (U b).val) (h1 : (U k).val ≤ t.val) (h2 : t.val < (U (k + 1)).val)
    (hP : ∀ r, r ≤ k → |(P r).val| ≤ M) (j : Nat) : ∀ m, j ≤ p → m ≤ k → k + j ≤ m + p →
    Near ρ (10 * j) M (tri lerp1 p (fun i => (U i).val) t.val (fun i => (P i).val) j m) (tri lerp1r p U t P j m).val := by
  induction j with
  | zero => intro m _ hm _; exact Near.refl h (hP m hm)
  | succ j ih =>
    intro m hj hm hk
    have l1 : (U m).val ≤ t.val := (hU m k hm (by omega)).trans h1
    have l2 : t.val < (U (m + p - j)).val := h2.trans_le (hU (k + 1) (m + p - j) (by omega) (by omega))
    obtain ⟨hc, hle⟩ := alpha_close h l1 l2
    exact lerp1r_near h hc hle (ih m (by omega) hm (by omega)) (ih (m - 1) (by omega) (by omega) (by omega))

/-- The array of insertion, computed and exact. -/
theorem insArray_near (h : ErrUnit R u ρ) {p k num s n : Nat} {U : Nat → Fp R} {t : Fp R} {P init : Nat → Fp R} {init' : Nat → K} {M : K}
    (hp : p ≤ k) (hs : num + s ≤ p) (hkn : k < n)
    (hU : ∀ a b, a ≤ b → b ≤ k + p → (U a).val ≤ (U b).val) (h1 : (U k).val ≤ t.val) (h2 : t.val < (U (k + 1)).val)
    (hP : ∀ r, r < n → |(P r).val| ≤ M) (x : Nat) (hx : x < n + num) :
    Near ρ (10 * num) M (insArray lerp1 p (fun i => (U i).val) (fun i => (P i).val) t.val num s k init' x)
      (insArray lerp1r p U P t num s k init x).val := by
  have hT := tri_near h hU h1 h2 (fun r hr => hP r (by omega))
  rw [insArray_spec lerp1 hp hs, insArray_spec lerp1r hp hs]
  by_cases c1 : x ≤ k - p
  · rw [if_pos c1, if_pos c1]; exact Near.refl h (hP _ (by omega))
  rw [if_neg c1, if_neg c1]
  by_cases c2 : x ≤ k - p + num
  · rw [if_pos c2, if_pos c2]; exact (hT _ _ (by omega) (by omega) (by omega)).mono h (by omega)
  rw [if_neg c2, if_neg c2]
  by_cases c3 : x < k - s
  · rw [if_pos c3, if_pos c3]; exact (hT _ _ (by omega) (by omega) (by omega)).mono h (by omega)
  rw [if_neg c3, if_neg c3]
  by_cases c4 : x < k - s + num
  · rw [if_pos c4, if_pos c4]; exact (hT _ _ (by omega) (by omega) (by omega)).mono h (by omega)
  · rw [if_neg c4, if_neg c4]; exact Near.refl h (hP _ (by omega))

omit [IsStrictOrderedRing K] in
theorem tri_map_r {φ : Vec4 (Fp R) → Fp R} (hφ : ∀ α a b, φ (lerp4 α a b) = lerp1r α (φ a) (φ b)) (p : Nat) (U : Nat → Fp R) (t : Fp R)
    (P : Nat → Vec4 (Fp R)) (j : Nat) : ∀ m, φ (tri lerp4 p U t P j m) = tri lerp1r p U t (fun r => φ (P r)) j m := by
  induction j with
  | zero => intro m; rfl
  | succ j ih => intro m; rw [tri, hφ, ih, ih]; rfl

omit [IsStrictOrderedRing K] in
theorem insArray_map_r {φ : Vec4 (Fp R) → Fp R} (hφ : ∀ α a b, φ (lerp4 α a b) = lerp1r α (φ a) (φ b)) {p : Nat} {U : Nat → Fp R} {t : Fp R}
    {num s k : Nat} {P init : Nat → Vec4 (Fp R)} (hp : p ≤ k) (hs : num + s ≤ p) (M : Nat) :
    φ (insArray lerp4 p U P t num s k init M) = insArray lerp1r p U (fun r => φ (P r)) t num s k (fun r => φ (init r)) M := by
  rw [insArray_spec lerp4 hp hs, insArray_spec lerp1r hp hs]
  simp only [apply_ite φ, tri_map_r hφ]

/-! ### The multiplicity -/

theorem absA_val (h : ErrUnit R u ρ) (x : Fp R) : Close ρ 1 |x.val| (absA x).val := by
  have e : (absA x).val = max x.val (R.rnd (-x.val)) := by
    unfold absA
    rcases le_total x (-x) with g | g
    · rw [max_eq_right g, max_eq_right (by exact g)]; rfl
    · rw [max_eq_left g, max_eq_left (by exact g)]
  have hz := R.zero
  rw [e]
  rcases le_total 0 x.val with g | g
  · have : R.rnd (-x.val) ≤ 0 := by have := R.mono (-x.val) 0 (by linarith); rwa [hz] at this
    rw [max_eq_left (this.trans g), abs_of_nonneg g]
    exact Close.refl h g
  · have : 0 ≤ R.rnd (-x.val) := by have := R.mono 0 (-x.val) (by linarith); rwa [hz] at this
    rw [max_eq_right (g.trans this), abs_of_nonpos g]
    exact (Close.refl h (k := 0) (by linarith)).rnd h

theorem multTol_val (h : ErrUnit R u ρ) : Close ρ 3 (1 / 10 ^ 12) (multTol : Fp R).val := by
  have c1 : Close ρ 1 1 (R.rnd 1) := (Close.refl h (k := 0) zero_le_one).rnd h
  have c2 : Close ρ 1 (10 ^ 12) (R.rnd ((10 ^ 12 : Nat) : K)) := by
    have e : (10 ^ 12 : K) = ((10 ^ 12 : Nat) : K) := by norm_num
    rw [e]
    exact (Close.refl h (k := 0) (by positivity)).rnd h
  exact (c1.div h c2 (by positivity)).rnd h

theorem findMultiplicity_val (h : ErrUnit R u ρ) (hρ : ρ ^ 5 < 2) {U : List (Fp R)} {t : Fp R} (hsep : ClearOf (2 / 10 ^ 12) (U.map Fp.val) t.val) :
    findMultiplicity t U = (U.map Fp.val).count t.val := by
  have hT := multTol_val (R := R) h
  have hp : (0 : K) < 1 / 10 ^ 12 := by positivity
  have : ∀ x ∈ U, (absA (t - x) ≤ multTol) ↔ x.val = t.val := by
    intro x hx
    constructor
    · intro hle
      by_contra hne
      have hs := hsep x.val (List.mem_map_of_mem hx) hne
      have ca := absA_val h (t - x)
      have cb : Close ρ 2 |t.val - x.val| (absA (t - x)).val := by
        have hr := h.err (t.val - x.val)
        have hv : (t - x).val = R.rnd (t.val - x.val) := rfl
        have cs : Close ρ 1 |t.val - x.val| |(t - x).val| := by
          rw [hv]
          rcases le_total 0 (t.val - x.val) with g | g
          · have := (Close.refl h (k := 0) g).rnd h
            have g' := this.nonneg h
            rw [abs_of_nonneg g, abs_of_nonneg g']; exact this
          · have hn : R.rnd (t.val - x.val) ≤ 0 := by have := R.mono _ 0 g; rwa [R.zero] at this
            rw [abs_of_nonpos g] at hr ⊢
            rw [abs_of_nonpos hn]
            rw [abs_le] at hr
            have h1 := h.one_add_le
            have h2 := h.inv
            have h3 := h.pos
            refine ⟨by linarith, ?_, ?_⟩
            · rw [pow_one]; nlinarith
            · rw [pow_one]
              have : ρ * ((1 - u) * (-(t.val - x.val))) ≤ ρ * (-R.rnd (t.val - x.val)) := mul_le_mul_of_nonneg_left (by linarith) h3.le
              rw [← mul_assoc, h2, one_mul] at this
              exact this
        refine ⟨abs_nonneg _, ca.2.1.trans ?_, cs.2.2.trans ?_⟩
        · have := mul_le_mul_of_nonneg_left cs.2.1 (h.pow_pos 1).le
          calc _ ≤ _ := this
            _ = _ := by ring
        · have := mul_le_mul_of_nonneg_left ca.2.2 (h.pow_pos 1).le
          calc _ ≤ _ := this
            _ = _ := by ring
      have h1 : (absA (t - x)).val ≤ (multTol : Fp R).val := hle
      have h2 := cb.2.2
      have h3 : ρ ^ 2 * (absA (t - x)).val ≤ ρ ^ 2 * (ρ ^ 3 * (1 / 10 ^ 12)) :=
        mul_le_mul_of_nonneg_left (h1.trans hT.2.1) (h.pow_pos 2).le
      have h4 : ρ ^ 2 * (ρ ^ 3 * (1 / 10 ^ 12)) = ρ ^ 5 * (1 / 10 ^ 12 : K) := by ring
      have h5 : ρ ^ 5 * (1 / 10 ^ 12 : K) < 2 * (1 / 10 ^ 12) := mul_lt_mul_of_pos_right hρ hp
      have h6 : (2 : K) / 10 ^ 12 = 2 * (1 / 10 ^ 12) := by ring
      linarith
    · intro he
      have ex : x = t := Subtype.ext he
      rw [ex, MonoArith.sub_self]
      have c := absA_val h (0 : Fp R)
      have h1 := c.2.1
      rw [Fp.zero_val, abs_zero, mul_zero] at h1
      exact h1.trans (hT.nonneg h)
  have e : findMultiplicity t U = U.countP (fun k => decide (absA (t - k) ≤ multTol)) := by
    clear this hsep
    induction U with
    | nil => rfl
    | cons k l ih =>
      rw [findMultiplicity, List.countP_cons, ih]
      by_cases h : absA (t - k) ≤ multTol
      · rw [if_pos h, if_pos (by simpa using h), Nat.add_comm]
      · rw [if_neg h, if_neg (by simpa using h), Nat.add_comm]
  rw [e, List.count_eq_countP, List.countP_map]
  apply List.countP_congr
  intro x hx
  simp [this x hx]

/-! ### Evaluation of a curve whose control points are known approximately -/

/-- The loop of `curve_point` with control points near the exact ones. -/
theorem curveAcc_near_pts (h : ErrUnit R u ρ) (P : Nat → Vec4 K) (P' : Nat → Vec4 (Fp R)) (M : K) (j lw l : Nat) :
    ∀ (ns : List K) (ms : List (Fp R)), List.Forall₂ (fun a (b : Fp R) => Close ρ j a b.val) ns ms →
    ∀ (k m : Nat) (sw : K) (sw' : Fp R) (r : Vec3 K) (r' : Vec3 (Fp R)), j + lw + l + 2 ≤ m →
      (∀ x, k ≤ x → x < k + ns.length → Close ρ lw (P x).w (P' x).w.val ∧ Near ρ l M (P x).x (P' x).x.val ∧
        Near ρ l M (P x).y (P' x).y.val ∧ Near ρ l M (P x).z (P' x).z.val) →
      Close ρ m sw sw'.val → Near ρ m (sw * M) r.x r'.x.val → Near ρ m (sw * M) r.y r'.y.val → Near ρ m (sw * M) r.z r'.z.val →
      let a := curveAcc P ns k sw r
      let a' := curveAcc P' ms k sw' r'
      let m' := m + ns.length
      Close ρ m' a.1 a'.1.val ∧ Near ρ m' (a.1 * M) a.2.x a'.2.x.val ∧ Near ρ m' (a.1 * M) a.2.y a'.2.y.val ∧
        Near ρ m' (a.1 * M) a.2.z a'.2.z.val := by
  intro ns ms hf
  induction hf with
  | nil => intro k m sw sw' r r' _ _ h1 h2 h3 h4; exact ⟨h1, h2, h3, h4⟩
  | @cons n n' ns ms hn hf ih =>
    intro k m sw sw' r r' hm hP h1 h2 h3 h4
    obtain ⟨hw, bx, by', bz⟩ := hP k (le_refl _) (by simp)
    have cb : Close ρ (j + lw + 1) (n * (P k).w) (n' * (P' k).w).val := (hn.mul h hw).rnd h
    have step : ∀ (x x' p : K) (p' : Fp R), Near ρ l M p p'.val → Near ρ m (sw * M) x x' →
        Near ρ (m + 1) ((sw + n * (P k).w) * M) (x + n * (P k).w * p) (R.rnd (x' + ((n' * (P' k).w) * p').val)) := by
      intro x x' p p' hp hx
      have g := (hp.smul h cb).rnd h
      rw [add_mul]
      exact (hx.add h (g.mono h (by omega))).rnd h
    have := ih (k + 1) (m + 1) (sw + n * (P k).w) (sw' + n' * (P' k).w)
      ⟨r.x + n * (P k).w * (P k).x, r.y + n * (P k).w * (P k).y, r.z + n * (P k).w * (P k).z⟩
      ⟨r'.x + n' * (P' k).w * (P' k).x, r'.y + n' * (P' k).w * (P' k).y, r'.z + n' * (P' k).w * (P' k).z⟩ (by omega)
      (fun x a b => hP x (by omega) (by rw [List.length_cons]; omega)) ((h1.add (cb.mono h (by omega))).rnd h)
      (step _ _ _ _ bx h2) (step _ _ _ _ by' h3) (step _ _ _ _ bz h4)
    have e : m + 1 + ns.length = m + (n :: ns).length := by rw [List.length_cons]; omega
    rw [e] at this
    exact this

/-- The computed point of a curve and the exact point of a curve near it. -/
theorem curve_near (h : ErrUnit R u ρ) (c : Curve (Fp R)) (d : Curve K) (V : ValidCurve d) (hw : PositiveWeights d) {lw l : Nat} {M : K}
    (hdeg : c.degree = d.degree) (hk : c.knots.map Fp.val = d.knots) (hl : c.cpts.length = d.cpts.length)
    (hP : ∀ x < d.cpts.length, Close ρ lw (ix d.cpts x).w (ix c.cpts x).w.val ∧ Near ρ l M (ix d.cpts x).x (ix c.cpts x).x.val ∧
        Near ρ l M (ix d.cpts x).y (ix c.cpts x).y.val ∧ Near ρ l M (ix d.cpts x).z (ix c.cpts x).z.val)
    (t : Fp R) (hd : InDomain d t.val) :
    ∃ r r', c.evaluate t = .ok r ∧ d.evaluate t.val = .ok r' ∧ Within ((ρ ^ (14 * d.degree + 9 + 2 * (lw + l)) - 1) * M) r r' := by
  have e : ix d.knots = fun i => (ix c.knots i).val := by rw [← hk]; exact funext (ix_knots_exact c.knots)
  have ek : d.knots.length = c.knots.length := by rw [← hk]; simp
  obtain ⟨i, hi, a1, a2, a3, a4, a5, _, _⟩ := ValidKnots.span V hd.1 hd.2
  obtain ⟨i', hi', _, _, _, hn, hs, hS, he⟩ := curve_eval_sum V hw hd
  obtain rfl : i = i' := by rw [← hi, ← hi']
  have hlen := V.len
  have h8 := V.deg_le
  have hi'' : findSpan (c.cpts.length - 1) c.degree t (ix c.knots) = i := by
    rw [findSpan_val, ← e, ← hi, hl, hdeg]
  have hm := V.mono
  rw [e] at a3 a4 a5 hm
  have hB := basisFuns_close h (ix c.knots) i _ t hm a3 a4 a5 d.degree a1 (by omega)
  have hbl := basisFuns_length i t.val (fun i => (ix c.knots i).val) d.degree
  have z : Near ρ (6 * d.degree + 1 + lw + l + 2) (0 * M) 0 (0 : Fp R).val := by
    rw [Fp.zero_val, zero_mul]; exact Near.refl h (by rw [abs_zero])
  obtain ⟨q1, q2, q3, q4⟩ := curveAcc_near_pts h (ix d.cpts) (ix c.cpts) M (6 * d.degree + 1) lw l _ _ hB (i - d.degree)
    (6 * d.degree + 1 + lw + l + 2) 0 0 0 0 (le_refl _)
    (fun x _ hx => hP x (by rw [hbl] at hx; omega)) (by rw [Fp.zero_val]; exact Close.refl h (le_refl _)) z z z
  rw [hbl] at q1 q2 q3 q4
  rw [e] at he
  rw [curvePointAt] at he
  have hpos : 0 < (curveAcc (ix d.cpts) (basisFuns i t.val (fun i => (ix c.knots i).val) d.degree) (i - d.degree) 0 0).1 := by
    rw [e] at hS
    rw [curveAcc_eq, zero_add]
    exact hS
  have hev : c.evaluate t = .ok (curvePointAt i d.degree (ix c.knots) (ix c.cpts) t) := by
    rw [Curve.evaluate]
    simp only [hi'']
    rw [if_neg (by unfold maxDegree; omega), curvePoint, hi'', hdeg]
  refine ⟨_, _, hev, he, ?_⟩
  have fin : ∀ {x x' : K}, Near ρ (6 * d.degree + 1 + lw + l + 2 + (d.degree + 1)) ((curveAcc (ix d.cpts)
        (basisFuns i t.val (fun i => (ix c.knots i).val) d.degree) (i - d.degree) 0 0).1 * M) x x' →
      |R.rnd (x' / (curveAcc (ix c.cpts) (basisFuns i t (ix c.knots) d.degree) (i - d.degree) 0 0).1.val) -
        x / (curveAcc (ix d.cpts) (basisFuns i t.val (fun i => (ix c.knots i).val) d.degree) (i - d.degree) 0 0).1| ≤
        (ρ ^ (14 * d.degree + 9 + 2 * (lw + l)) - 1) * M :=
    fun q => by
      have g := ((q.div h q1 hpos).rnd h).2
      rw [mul_div_cancel_left₀ _ (ne_of_gt hpos)] at g
      have e2 : 6 * d.degree + 1 + lw + l + 2 + (d.degree + 1) + (6 * d.degree + 1 + lw + l + 2 + (d.degree + 1)) + 1 =
        14 * d.degree + 9 + 2 * (lw + l) := by omega
      rw [e2] at g
      exact g
  exact ⟨fin q2, fin q3, fin q4⟩

omit [IsStrictOrderedRing K] in
theorem knotInsertionKv_val (U : List (Fp R)) (t : Fp R) (k num : Nat) :
    (knotInsertionKv U t k num).map Fp.val = knotInsertionKv (U.map Fp.val) t.val k num := by
  induction num with
  | zero => rfl
  | succ n ih => rw [knotInsertionKv, knotInsertionKv, ← ih, List.map_insertIdx]

end Nurbs
end Cmm
