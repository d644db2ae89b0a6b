import Verif.Spec.RoundingIntegrate
import Verif.Lemmas.RoundingMinimize
import Verif.Lemmas.FloatLength
/-! Adaptive integration in floating-point arithmetic. -/
namespace Cmm.Num
open Cmm.Nurbs (absA)
variable {K : Type} [Field K] [LinearOrder K] [IsStrictOrderedRing K]

/-- `y` is `x` after `k` relative errors, in terms of a bound `A` of `|x|`. -/
def Near (u : K) (k : Nat) (y x A : K) : Prop := |x| ≤ A ∧ |y - x| ≤ ((1 + u) ^ k - 1) * A

namespace Near
variable {u y x A y' x' A' : K} {k k' : Nat}

theorem pow_ge (h0 : 0 ≤ u) (k : Nat) : 1 ≤ (1 + u) ^ k := one_le_pow₀ (by linarith)

theorem refl (h : |x| ≤ A) : Near u 0 x x A := ⟨h, by simp⟩

theorem weaken (h0 : 0 ≤ u) (h : Near u k y x A) (hk : k ≤ k') : Near u k' y x A := by
  refine ⟨h.1, le_trans h.2 (mul_le_mul_of_nonneg_right ?_ (le_trans (abs_nonneg _) h.1))⟩
  have := pow_le_pow_right₀ (show 1 ≤ 1 + u by linarith) hk
  linarith

theorem abs_le (h : Near u k y x A) : |y| ≤ (1 + u) ^ k * A := by
  have : |y| ≤ |x| + |y - x| := by
    have := abs_add_le x (y - x)
    rwa [show x + (y - x) = y by ring] at this
  linarith [h.1, h.2]

theorem add (h : Near u k y x A) (h' : Near u k y' x' A') : Near u k (y + y') (x + x') (A + A') := by
  refine ⟨le_trans (abs_add_le _ _) (add_le_add h.1 h'.1), ?_⟩
  rw [show y + y' - (x + x') = (y - x) + (y' - x') by ring, mul_add]
  exact le_trans (abs_add_le _ _) (add_le_add h.2 h'.2)

theorem mul (h : Near u k y x A) (h' : Near u k' y' x' A') : Near u (k + k') (y * y') (x * x') (A * A') := by
  have a0 := le_trans (abs_nonneg _) h.1
  refine ⟨by rw [abs_mul]; exact mul_le_mul h.1 h'.1 (abs_nonneg _) a0, ?_⟩
  rw [show y * y' - x * x' = (y - x) * y' + x * (y' - x') by ring]
  have e1 : |(y - x) * y'| ≤ ((1 + u) ^ k - 1) * A * ((1 + u) ^ k' * A') := by
    rw [abs_mul]; exact mul_le_mul h.2 h'.abs_le (abs_nonneg _) (le_trans (abs_nonneg _) h.2)
  have e2 : |x * (y' - x')| ≤ A * (((1 + u) ^ k' - 1) * A') := by
    rw [abs_mul]; exact mul_le_mul h.1 h'.2 (abs_nonneg _) a0
  refine le_trans (abs_add_le _ _) (le_trans (add_le_add e1 e2) (le_of_eq ?_))
  rw [pow_add]; ring

theorem rnd {R : Rounding K} (hR : R.RelError u) (h0 : 0 ≤ u) (h : Near u k y x A) : Near u (k + 1) (R.rnd y) x A := by
  refine ⟨h.1, ?_⟩
  have e1 := le_trans (hR y) (mul_le_mul_of_nonneg_left h.abs_le h0)
  have e2 := abs_add_le (R.rnd y - y) (y - x)
  rw [show R.rnd y - y + (y - x) = R.rnd y - x by ring] at e2
  have e3 := h.2
  rw [pow_succ]
  linarith

end Near

variable {R : Rounding K} {u : K}

namespace BinaryFormat
variable (F : BinaryFormat R u)
include F

omit [IsStrictOrderedRing K] in
theorem four_val : (4 : Fp R).val = 4 := by have := F.nat15 4 (by norm_num) (by norm_num); push_cast at this; exact this
omit [IsStrictOrderedRing K] in
theorem six_val : (6 : Fp R).val = 6 := by have := F.nat15 6 (by norm_num) (by norm_num); push_cast at this; exact this
omit [IsStrictOrderedRing K] in
theorem twelve_val : (12 : Fp R).val = 12 := by have := F.nat15 12 (by norm_num) (by norm_num); push_cast at this; exact this

theorem mid_mem {a b : Fp R} (h : a ≤ b) : a ≤ midF a b ∧ midF a b ≤ b := by
  have h : a.val ≤ b.val := h
  have e : (midF a b).val = R.rnd (1 / 2 * R.rnd (a.val + b.val)) := by
    show R.rnd ((1 / 2 : Fp R).val * R.rnd (a.val + b.val)) = _
    rw [F.toFormatOk.half_val]
  have l := R.mono (2 * a.val) (a.val + b.val) (by linarith)
  have g := R.mono (a.val + b.val) (2 * b.val) (by linarith)
  rw [show R.rnd (2 * a.val) = 2 * a.val from F.double _ a.2] at l
  rw [show R.rnd (2 * b.val) = 2 * b.val from F.double _ b.2] at g
  constructor
  · show a.val ≤ (midF a b).val
    rw [e]
    have := R.mono a.val (1 / 2 * R.rnd (a.val + b.val)) (by linarith)
    rwa [show R.rnd a.val = a.val from a.2] at this
  · show (midF a b).val ≤ b.val
    rw [e]
    have := R.mono (1 / 2 * R.rnd (a.val + b.val)) b.val (by linarith)
    rwa [show R.rnd b.val = b.val from b.2] at this

/-- The computed value of one panel of Simpson's rule. -/
theorem panel_near {h x y z : Fp R} {d w B : K} (hd : Near u 1 h.val d w) (hx : |x.val| ≤ B) (hy : |y.val| ≤ B) (hz : |z.val| ≤ B) :
    Near u 6 ((h / 12) * (x + 4 * y + z) : Fp R).val (d / 12 * (x.val + 4 * y.val + z.val)) (w / 12 * (6 * B)) := by
  have h0 := F.nonneg
  have E := F.err
  have c12 : Near u 0 (1 / 12 : K) (1 / 12) (1 / 12) := Near.refl (by rw [abs_of_pos (by norm_num)])
  have c4 : Near u 0 (4 : K) 4 4 := Near.refl (by rw [abs_of_pos (by norm_num)])
  have n1 : Near u 2 (h / 12 : Fp R).val (d / 12) (w / 12) := by
    have := (hd.mul c12).rnd E h0
    show Near u 2 (R.rnd (h.val / (12 : Fp R).val)) _ _
    rw [F.twelve_val]
    simpa [div_eq_mul_inv] using this
  have n2 : Near u 1 (4 * y : Fp R).val (4 * y.val) (4 * B) := by
    show Near u 1 (R.rnd ((4 : Fp R).val * y.val)) _ _
    rw [F.four_val]
    exact (c4.mul (Near.refl hy)).rnd E h0
  have n3 : Near u 2 (x + 4 * y : Fp R).val (x.val + 4 * y.val) (B + 4 * B) :=
    (((Near.refl hx).weaken h0 (by norm_num : 0 ≤ 1)).add n2).rnd E h0
  have n4 : Near u 3 (x + 4 * y + z : Fp R).val (x.val + 4 * y.val + z.val) (B + 4 * B + B) :=
    (n3.add ((Near.refl hz).weaken h0 (by norm_num : 0 ≤ 2))).rnd E h0
  have n5 := (n1.mul n4).rnd E h0
  rw [show B + 4 * B + B = 6 * B by ring] at n5
  exact n5

theorem rule_near (f : Fp R → Fp R) {a b : Fp R} {B : K} (h : a ≤ b) (hB : ∀ x, a ≤ x → x ≤ b → |(f x).val| ≤ B) :
    Near u 7 ((b - a) / 12 * (f a + 4 * f (midF a (midF a b)) + f (midF a b)) + (b - a) / 12 * (f (midF a b) + 4 * f (midF (midF a b) b) + f b) : Fp R).val
      (twoPanelF f a b) ((b.val - a.val) * B) := by
  obtain ⟨m1, m2⟩ := F.mid_mem h
  obtain ⟨l1, l2⟩ := F.mid_mem m1
  obtain ⟨r1, r2⟩ := F.mid_mem m2
  have hv : a.val ≤ b.val := h
  have nd : Near u 1 (b - a : Fp R).val (b.val - a.val) (b.val - a.val) :=
    (Near.refl (by rw [abs_of_nonneg (by linarith)])).rnd F.err F.nonneg
  have e := ((F.panel_near nd (hB a le_rfl h) (hB _ l1 (l2.trans m2)) (hB _ m1 m2)).add
    (F.panel_near nd (hB _ m1 m2) (hB _ (m1.trans r1) r2) (hB b h le_rfl))).rnd F.err F.nonneg
  rw [show (b.val - a.val) * B = (b.val - a.val) / 12 * (6 * B) + (b.val - a.val) / 12 * (6 * B) by ring]
  unfold twoPanelF
  rw [show (b.val - a.val) / 12 * ((f a).val + 4 * (f (midF a (midF a b))).val + 2 * (f (midF a b)).val + 4 * (f (midF (midF a b) b)).val + (f b).val)
    = (b.val - a.val) / 12 * ((f a).val + 4 * (f (midF a (midF a b))).val + (f (midF a b)).val)
      + (b.val - a.val) / 12 * ((f (midF a b)).val + 4 * (f (midF (midF a b) b)).val + (f b).val) by ring]
  exact e

theorem rule_nonneg (f : Fp R → Fp R) {a b : Fp R} (h : a ≤ b) (hf : ∀ x, a ≤ x → x ≤ b → 0 ≤ (f x).val) :
    0 ≤ ((b - a) / 12 * (f a + 4 * f (midF a (midF a b)) + f (midF a b)) + (b - a) / 12 * (f (midF a b) + 4 * f (midF (midF a b) b) + f b) : Fp R).val := by
  obtain ⟨m1, m2⟩ := F.mid_mem h
  obtain ⟨l1, l2⟩ := F.mid_mem m1
  obtain ⟨r1, r2⟩ := F.mid_mem m2
  have hv : a.val ≤ b.val := h
  have N := fun (y : K) (hy : 0 ≤ y) => F.toFormatOk.rnd_nonneg hy
  have n0 : 0 ≤ ((b - a) / 12 : Fp R).val := by
    refine N _ (div_nonneg (N _ (by linarith)) ?_)
    rw [F.twelve_val]; norm_num
  have n4 : ∀ y : Fp R, 0 ≤ y.val → 0 ≤ (4 * y : Fp R).val := fun y hy => N _ (mul_nonneg (by rw [F.four_val]; norm_num) hy)
  refine N _ (add_nonneg (N _ (mul_nonneg n0 (N _ (add_nonneg (N _ (add_nonneg ?_ (n4 _ ?_))) ?_))))
    (N _ (mul_nonneg n0 (N _ (add_nonneg (N _ (add_nonneg ?_ (n4 _ ?_))) ?_)))))
  · exact hf a le_rfl h
  · exact hf _ l1 (l2.trans m2)
  · exact hf _ m1 m2
  · exact hf _ m1 m2
  · exact hf _ (m1.trans r1) r2
  · exact hf b h le_rfl

end BinaryFormat

/-- The value accumulated for an accepted interval, for any arithmetic. -/
def leafVal {A : Type} [Arith A] (f : A → A) (a b : A) : A :=
  (b - a) / 12 * (f a + 4 * f (1 / 2 * (a + 1 / 2 * (a + b))) + f (1 / 2 * (a + b))) +
    (b - a) / 12 * (f (1 / 2 * (a + b)) + 4 * f (1 / 2 * (1 / 2 * (a + b) + b)) + f b)

/-- The points evaluated by one call. -/
def leafCalls {A : Type} [Arith A] (a b : A) : List A := [1 / 2 * (a + 1 / 2 * (a + b)), 1 / 2 * (1 / 2 * (a + b) + b)]

/-- A relation between the state before and after a call holds if it holds for an accepted interval and is passed on from the two halves; for any arithmetic. -/
theorem adaptive_ind {A : Type} [Arith A] [LinearOrder A] (f : A → A) (d : Nat) (P : Nat → A → A → Quad A → Quad A → Prop)
    (leaf : ∀ k a b x acc, k ≤ d → P k a b acc ⟨acc.result + leafVal f a b, acc.error + absA x, acc.calls ++ leafCalls a b, acc.leaves ++ [(a, b)]⟩)
    (node : ∀ k a b acc q1 q2, k + 1 ≤ d → P (k + 1) a (1 / 2 * (a + b)) ⟨acc.result, acc.error, acc.calls ++ leafCalls a b, acc.leaves⟩ q1 →
      P (k + 1) (1 / 2 * (a + b)) b q1 q2 → P k a b acc q2) :
    ∀ (r : Nat) (a b S tol : A) (acc : Quad A) (k : Nat), d - k ≤ r → k ≤ d →
      P k a b acc (adaptiveSimpson f a b (f a) (f b) (f (1 / 2 * (a + b))) S tol acc k d)
  | r, a, b, S, tol, acc, k, hr, hk => by
    rw [adaptiveSimpson]
    simp only
    split
    · exact leaf k a b _ acc hk
    · rename_i h
      have hk' : k + 1 ≤ d := by
        by_contra hc
        exact h (Or.inl (by omega))
      cases r with
      | zero => omega
      | succ r =>
        exact node k a b acc _ _ hk' (adaptive_ind f d P leaf node r _ _ _ _ _ (k + 1) (by omega) hk') (adaptive_ind f d P leaf node r _ _ _ _ _ (k + 1) (by omega) hk')

theorem integrate_ind {A : Type} [Arith A] [LinearOrder A] (f : A → A) (d : Nat) (P : Nat → A → A → Quad A → Quad A → Prop)
    (leaf : ∀ k a b x acc, k ≤ d → P k a b acc ⟨acc.result + leafVal f a b, acc.error + absA x, acc.calls ++ leafCalls a b, acc.leaves ++ [(a, b)]⟩)
    (node : ∀ k a b acc q1 q2, k + 1 ≤ d → P (k + 1) a (1 / 2 * (a + b)) ⟨acc.result, acc.error, acc.calls ++ leafCalls a b, acc.leaves⟩ q1 →
      P (k + 1) (1 / 2 * (a + b)) b q1 q2 → P k a b acc q2) (t0 t1 tol : A) :
    P 0 t0 t1 ⟨0, 0, [t0, t1, 1 / 2 * (t0 + t1)], []⟩ (integrate f t0 t1 tol d) :=
  adaptive_ind f d P leaf node d t0 t1 _ _ _ 0 (by omega) (by omega)

theorem tiles_append {A : Type} {a b c : A} : ∀ {l l' : List (A × A)}, Tiles a b l → Tiles b c l' → Tiles a c (l ++ l')
  | [], _, h, h' => by cases h; exact h'
  | _ :: _, _, h, h' => ⟨h.1, tiles_append h.2 h'⟩

/-- The evaluation points and intervals, for any arithmetic. -/
theorem integrate_any {A : Type} [Arith A] [LinearOrder A] (f : A → A) (d : Nat) (t0 t1 tol : A) :
    let q := integrate f t0 t1 tol d
    Tiles t0 t1 q.leaves ∧ 1 ≤ q.leaves.length ∧ q.leaves.length ≤ 2 ^ d ∧ q.calls.length ≤ 4 * 2 ^ d + 1 ∧ 5 ≤ q.calls.length := by
  have := integrate_ind f d (fun k a b acc q => ∃ c l, q.calls = acc.calls ++ c ∧ q.leaves = acc.leaves ++ l ∧ Tiles a b l ∧ 2 ≤ c.length ∧
      c.length + 2 ≤ 4 * 2 ^ (d - k) ∧ 1 ≤ l.length ∧ l.length ≤ 2 ^ (d - k)) ?_ ?_ t0 t1 tol
  · obtain ⟨c, l, h1, h2, h3, h4, h5, h6, h7⟩ := this
    simp only [h1, h2]
    refine ⟨h3, by simpa using h6, by simpa using h7, ?_, ?_⟩ <;> simp at h5 ⊢ <;> omega
  · intro k a b x acc hk
    have := Nat.one_le_two_pow (n := d - k)
    exact ⟨_, _, rfl, rfl, ⟨rfl, rfl⟩, by simp [leafCalls], by simp [leafCalls]; omega, by simp, by simpa using this⟩
  · rintro k a b acc q1 q2 hk ⟨c1, l1, e1, e2, t1, p1, p2, p3, p4⟩ ⟨c2, l2, e3, e4, t2, p5, p6, p7, p8⟩
    refine ⟨leafCalls a b ++ c1 ++ c2, l1 ++ l2, by rw [e3, e1]; simp, by rw [e4, e2]; simp, tiles_append t1 t2, by simp; omega, ?_, by simp; omega, ?_⟩
    · rw [show d - k = (d - (k + 1)) + 1 by omega, pow_succ]; simp [leafCalls]; omega
    · rw [show d - k = (d - (k + 1)) + 1 by omega, pow_succ]; simp; omega

/-- The evaluation points, intervals and signs with rounded operations. -/
theorem integrate_inside (F : BinaryFormat R u) (f : Fp R → Fp R) (d : Nat) (t0 t1 tol : Fp R) (h : t0 ≤ t1) :
    let q := integrate f t0 t1 tol d
    (∀ x ∈ q.calls, t0 ≤ x ∧ x ≤ t1) ∧ (∀ p ∈ q.leaves, t0 ≤ p.1 ∧ p.1 ≤ p.2 ∧ p.2 ≤ t1) ∧ 0 ≤ q.error.val ∧
    ((∀ x, t0 ≤ x → x ≤ t1 → 0 ≤ (f x).val) → 0 ≤ q.result.val) := by
  have := integrate_ind f d (fun _ a b acc q => t0 ≤ a → a ≤ b → b ≤ t1 →
      (∀ x ∈ acc.calls, t0 ≤ x ∧ x ≤ t1) ∧ (∀ p ∈ acc.leaves, t0 ≤ p.1 ∧ p.1 ≤ p.2 ∧ p.2 ≤ t1) ∧ 0 ≤ acc.error.val ∧
        ((∀ x, t0 ≤ x → x ≤ t1 → 0 ≤ (f x).val) → 0 ≤ acc.result.val) →
      (∀ x ∈ q.calls, t0 ≤ x ∧ x ≤ t1) ∧ (∀ p ∈ q.leaves, t0 ≤ p.1 ∧ p.1 ≤ p.2 ∧ p.2 ≤ t1) ∧ 0 ≤ q.error.val ∧
        ((∀ x, t0 ≤ x → x ≤ t1 → 0 ≤ (f x).val) → 0 ≤ q.result.val)) ?_ ?_ t0 t1 tol
  · refine this le_rfl h le_rfl ⟨?_, by simp, ?_, fun _ => ?_⟩
    · obtain ⟨m1, m2⟩ := F.mid_mem h
      simp only [List.mem_cons, List.not_mem_nil, or_false]
      rintro x (rfl | rfl | rfl)
      · exact ⟨le_rfl, h⟩
      · exact ⟨h, le_rfl⟩
      · exact ⟨m1, m2⟩
    · exact le_of_eq R.zero.symm
    · exact le_of_eq R.zero.symm
  · intro k a b x acc _ ha hab hb ⟨c, l, e, g⟩
    obtain ⟨m1, m2⟩ := F.mid_mem hab
    obtain ⟨l1, l2⟩ := F.mid_mem m1
    obtain ⟨r1, r2⟩ := F.mid_mem m2
    refine ⟨?_, ?_, ?_, fun hf => ?_⟩
    · intro y hy
      rcases List.mem_append.1 hy with hy | hy
      · exact c y hy
      · rcases List.mem_cons.1 hy with rfl | hy
        · exact ⟨ha.trans l1, (l2.trans m2).trans hb⟩
        · rcases List.mem_cons.1 hy with rfl | hy
          · exact ⟨ha.trans (m1.trans r1), r2.trans hb⟩
          · cases hy
    · intro p hp
      rcases List.mem_append.1 hp with hp | hp
      · exact l p hp
      · rw [List.mem_singleton.1 hp]; exact ⟨ha, hab, hb⟩
    · exact F.toFormatOk.rnd_nonneg (add_nonneg e (by rw [F.toFormatOk.absA_val]; exact abs_nonneg _))
    · exact F.toFormatOk.rnd_nonneg (add_nonneg (g hf) (F.rule_nonneg f hab fun x h1 h2 => hf x (ha.trans h1) (h2.trans hb)))
  · intro k a b acc q1 q2 _ i1 i2 ha hab hb ⟨c, l, e⟩
    obtain ⟨m1, m2⟩ := F.mid_mem hab
    obtain ⟨l1, l2⟩ := F.mid_mem m1
    obtain ⟨r1, r2⟩ := F.mid_mem m2
    refine i2 (ha.trans m1) m2 hb (i1 ha m1 (m2.trans hb) ⟨?_, l, e⟩)
    intro y hy
    rcases List.mem_append.1 hy with hy | hy
    · exact c y hy
    · rcases List.mem_cons.1 hy with rfl | hy
      · exact ⟨ha.trans l1, (l2.trans m2).trans hb⟩
      · rcases List.mem_cons.1 hy with rfl | hy
        · exact ⟨ha.trans (m1.trans r1), r2.trans hb⟩
        · cases hy

/-- The accumulated value with rounded operations. -/
theorem integrate_fp (F : BinaryFormat R u) (f : Fp R → Fp R) (d : Nat) (t0 t1 tol : Fp R) (h : t0 ≤ t1) {B : K} (hB : ∀ x, t0 ≤ x → x ≤ t1 → |(f x).val| ≤ B) :
    let q := integrate f t0 t1 tol d
    Near u (q.leaves.length + 7) q.result.val (compositeF f q.leaves) ((t1.val - t0.val) * B) := by
  have h0 := F.nonneg
  have := integrate_ind f d (fun _ a b acc q => t0 ≤ a → a ≤ b → b ≤ t1 →
      Near u (acc.leaves.length + 7) acc.result.val (compositeF f acc.leaves) ((a.val - t0.val) * B) →
      Near u (q.leaves.length + 7) q.result.val (compositeF f q.leaves) ((b.val - t0.val) * B)) ?_ ?_ t0 t1 tol
  · refine this le_rfl h le_rfl ?_
    have e : (0 : Fp R).val = 0 := R.zero
    rw [e]
    simpa [compositeF] using (Near.refl (u := u) (x := (0 : K)) (A := 0) (by simp)).weaken h0 (by omega : 0 ≤ 7)
  · intro k a b x acc _ ha hab hb n
    have r := F.rule_near f hab (B := B) fun x h1 h2 => hB x (ha.trans h1) (h2.trans hb)
    have := (n.add (r.weaken h0 (by omega : 7 ≤ acc.leaves.length + 7))).rnd F.err h0
    rw [show (b.val - t0.val) * B = (a.val - t0.val) * B + (b.val - a.val) * B by ring]
    rw [show compositeF f (acc.leaves ++ [(a, b)]) = compositeF f acc.leaves + twoPanelF f a b by simp [compositeF]]
    rw [show (acc.leaves ++ [(a, b)]).length + 7 = acc.leaves.length + 7 + 1 by simp]
    exact this
  · intro k a b acc q1 q2 _ i1 i2 ha hab hb n
    obtain ⟨m1, m2⟩ := F.mid_mem hab
    exact i2 (ha.trans m1) m2 hb (i1 ha m1 (m2.trans hb) n)

/-- The rule without rounding lies between the bounds of the integrand. -/
theorem compositeF_bounds (F : BinaryFormat R u) (f : Fp R → Fp R) {m M : K} : ∀ (l : List (Fp R × Fp R)) (t0 t1 : Fp R), Tiles t0 t1 l →
    (∀ p ∈ l, p.1 ≤ p.2) → (∀ p ∈ l, ∀ x, p.1 ≤ x → x ≤ p.2 → m ≤ (f x).val ∧ (f x).val ≤ M) →
    m * (t1.val - t0.val) ≤ compositeF f l ∧ compositeF f l ≤ M * (t1.val - t0.val)
  | [], t0, t1, h, _, _ => by cases h; simp [compositeF]
  | p :: l, t0, t1, h, ho, hf => by
    obtain ⟨i1, i2⟩ := compositeF_bounds F f l p.2 t1 h.2 (fun q hq => ho q (List.mem_cons_of_mem _ hq)) fun q hq => hf q (List.mem_cons_of_mem _ hq)
    have e : compositeF f (p :: l) = twoPanelF f p.1 p.2 + compositeF f l := by simp [compositeF]
    rw [e, ← h.1]
    have hp := ho p List.mem_cons_self
    have hv : p.1.val ≤ p.2.val := hp
    have g := hf p List.mem_cons_self
    obtain ⟨m1, m2⟩ := F.mid_mem hp
    obtain ⟨l1, l2⟩ := F.mid_mem m1
    obtain ⟨r1, r2⟩ := F.mid_mem m2
    have g1 := g _ le_rfl hp
    have g2 := g _ l1 (l2.trans m2)
    have g3 := g _ m1 m2
    have g4 := g _ (m1.trans r1) r2
    have g5 := g _ hp le_rfl
    have w : 0 ≤ (p.2.val - p.1.val) / 12 := by linarith
    have k1 : (p.2.val - p.1.val) / 12 * (12 * m) ≤ twoPanelF f p.1 p.2 := mul_le_mul_of_nonneg_left (by linarith) w
    have k2 : twoPanelF f p.1 p.2 ≤ (p.2.val - p.1.val) / 12 * (12 * M) := mul_le_mul_of_nonneg_left (by linarith) w
    constructor <;> linarith

/-- Many small relative errors add up. -/
theorem pow_error (h0 : 0 ≤ u) : ∀ n : Nat, (n : K) * u ≤ 1 / 2 → (1 + u) ^ n - 1 ≤ 2 * n * u
  | 0, _ => by simp
  | n + 1, h => by
    push_cast at h ⊢
    have i := pow_error h0 n (by linarith)
    rw [pow_succ]
    have : (1 + u) ^ n ≤ 2 := by linarith
    have := mul_le_mul_of_nonneg_right this h0
    linarith

section float
variable [FloorRing K]

theorem ulp_double (p : Nat) {x : K} (hx : 0 < x) : ulp p (2 * x) = 2 * ulp p x := by
  have hl : Int.log 2 (2 * x) = Int.log 2 x + 1 := by
    have h2 : 0 < 2 * x := by linarith
    have a1 := Int.zpow_log_le_self (b := 2) (by norm_num) hx
    have a2 := Int.lt_zpow_succ_log_self (b := 2) (by norm_num) x
    push_cast at a1 a2
    apply le_antisymm
    · have : Int.log 2 (2 * x) < Int.log 2 x + 1 + 1 := by
        rw [← Int.lt_zpow_iff_log_lt (by norm_num) h2]
        push_cast
        rw [zpow_add_one₀ (by norm_num)]
        linarith
      omega
    · rw [← Int.zpow_le_iff_le_log (by norm_num) h2]
      push_cast
      rw [zpow_add_one₀ (by norm_num)]
      linarith
  rw [ulp, ulp, hl, show Int.log 2 x + 1 - (p - 1 : ℤ) = 1 + (Int.log 2 x - (p - 1 : ℤ)) by ring, zpow_add₀ (by norm_num), zpow_one]

theorem nearestPos_double (p : Nat) {x : K} (hx : 0 < x) : nearestPos p (2 * x) = 2 * nearestPos p x := by
  rw [nearestPos, nearestPos, ulp_double p hx, mul_div_mul_left _ _ (by norm_num)]
  ring

/-- Doubling is exact. -/
theorem nearest_double (p : Nat) (x : K) : nearest p (2 * x) = 2 * nearest p x := by
  unfold nearest
  rcases lt_trichotomy x 0 with h | h | h
  · rw [if_pos (by linarith), if_pos h, show -(2 * x) = 2 * -x by ring, nearestPos_double p (by linarith)]; ring
  · rw [h]; simp [nearestPos_zero]
  · rw [if_neg (by linarith), if_neg (by linarith), nearestPos_double p h]

/-- Rounding to nearest with at least 40 binary digits is such a format. -/
theorem binaryFormat_float (p : Nat) (hp : 40 ≤ p) : BinaryFormat (Rounding.float (K := K) p (by omega)) (1 / 2 ^ p) where
  toFormatOk := formatOk_float p hp
  nat15 n h1 h2 := nearest_nat p n h1 (lt_of_le_of_lt h2 (lt_of_lt_of_le (by norm_num : 15 < 2 ^ 40) (Nat.pow_le_pow_right (by norm_num) hp)))
  double x hx := by
    have hx : nearest p x = x := hx
    show nearest p (2 * x) = 2 * x
    rw [nearest_double, hx]

end float

/-! ### The inverse by Newton's method -/

/-- How the loop ends, for any arithmetic. -/
theorem newton_any {A : Type} [Arith A] [LinearOrder A] (t0 I : A) (f : A → A) (tol : A) (d : Nat) : ∀ (k : Nat) (t r : A),
    newtonFrom t0 I f tol d k t = .converged r →
    ∃ s, r = s - ((integrate f t0 s tol d).result - I) / f s ∧ absA (r - s) < tol ∧ ¬ absA (f s) < 1 / ((10 ^ 10 : Nat) : A)
  | 0, t, r, h => by cases h
  | k + 1, t, r, h => by
    rw [newtonFrom] at h
    simp only at h
    split at h
    · cases h
    · split at h
      · cases h
        exact ⟨t, rfl, by assumption, by assumption⟩
      · exact newton_any t0 I f tol d k _ r h

end Cmm.Num
