import Verif.Spec.RoundingCcx
import Verif.Lemmas.CcxSlope
import Verif.Lemmas.RoundingIntegrate
import Verif.Props.RoundingDecompose
/-! Lemmas for curve-curve intersection in floating-point arithmetic (C144). -/
namespace Cmm.Ccx
open Cmm.Nurbs
variable {K : Type} [Field K] [LinearOrder K] [IsStrictOrderedRing K]

/-! ### Boxes -/
section box
variable {R : Rounding K}

/-- The box without rounding. -/
def exactBox (b : AABB (Fp R)) : AABB K := ⟨⟨b.min.x.val, b.min.y.val, b.min.z.val⟩, ⟨b.max.x.val, b.max.y.val, b.max.z.val⟩⟩

omit [IsStrictOrderedRing K] in
theorem exactBox_intersects (a b : AABB (Fp R)) : a.intersects b = (exactBox a).intersects (exactBox b) := rfl

omit [IsStrictOrderedRing K] in
theorem val_max (x y : Fp R) : (max x y).val = max x.val y.val := by
  rcases le_total x y with h | h
  · rw [max_eq_right h, max_eq_right (show x.val ≤ y.val from h)]
  · rw [max_eq_left h, max_eq_left (show y.val ≤ x.val from h)]

omit [IsStrictOrderedRing K] in
theorem val_min (x y : Fp R) : (min x y).val = min x.val y.val := by
  rcases le_total x y with h | h
  · rw [min_eq_left h, min_eq_left (show x.val ≤ y.val from h)]
  · rw [min_eq_right h, min_eq_right (show y.val ≤ x.val from h)]

omit [IsStrictOrderedRing K] in
theorem toVec3_unit {q : Vec4 (Fp R)} (h : q.w.val = 1) : q.toVec3 = ⟨q.x, q.y, q.z⟩ := by
  have d : ∀ x : Fp R, x / q.w = x := by
    intro x
    show Fp.round R (x.val / q.w.val) = x
    rw [h, div_one, Fp.round_val]
  unfold Vec4.toVec3
  rw [d, d, d]

omit [IsStrictOrderedRing K] in
theorem foldl_exact : ∀ (l : List (Vec4 (Fp R))) (b : AABB (Fp R)), (∀ q ∈ l, q.w.val = 1) →
    exactBox (l.foldl (fun b q => b.expand q.toVec3) b) = (l.map exact4).foldl (fun b q => b.expand q.toVec3) (exactBox b)
  | [], _, _ => rfl
  | q :: l, b, h => by
    rw [List.foldl_cons, List.map_cons, List.foldl_cons, foldl_exact l _ fun x hx => h x (List.mem_cons_of_mem _ hx)]
    congr 1
    have hq := h q List.mem_cons_self
    have e : (exact4 q).toVec3 = ⟨q.x.val, q.y.val, q.z.val⟩ := by
      show (⟨q.x.val / q.w.val, q.y.val / q.w.val, q.z.val / q.w.val⟩ : Vec3 K) = _
      rw [hq, div_one, div_one, div_one]
    rw [toVec3_unit hq, e]
    unfold AABB.expand exactBox
    simp only [val_max, val_min]

omit [IsStrictOrderedRing K] in
/-- The computed box is the exact one. -/
theorem bbox_exact {c : Curve (Fp R)} (h : ∀ q ∈ c.exact.cpts, q.w = 1) {b : AABB (Fp R)} (hb : c.bbox = .ok b) : c.exact.bbox = .ok (exactBox b) := by
  have h' : ∀ q ∈ c.cpts, q.w.val = 1 := fun q hq => h (exact4 q) (List.mem_map_of_mem hq)
  unfold Curve.bbox at hb ⊢
  show (match c.cpts.map exact4 with | [] => Res.ub | p :: ps => _) = _
  match hc : c.cpts with
  | [] => rw [hc] at hb; simp at hb
  | p :: ps =>
    rw [hc] at hb h'
    have hb := Res.ok.inj hb
    rw [← hb, foldl_exact _ _ h']
    have hp := h' p List.mem_cons_self
    have e : (exact4 p).toVec3 = ⟨p.x.val, p.y.val, p.z.val⟩ := by
      show (⟨p.x.val / p.w.val, p.y.val / p.w.val, p.z.val / p.w.val⟩ : Vec3 K) = _
      rw [hp, div_one, div_one, div_one]
    show Res.ok _ = Res.ok _
    congr 2
    rw [toVec3_unit hp, e]
    rfl

theorem bbox_some {c : Curve (Fp R)} (V : ValidCurve c.exact) : ∃ b, c.bbox = .ok b := by
  have hen := V.enough
  unfold Curve.bbox
  match hc : c.cpts with
  | [] => simp [Curve.exact, hc] at hen
  | p :: ps => exact ⟨_, rfl⟩

theorem pow5_upper {u : K} (h0 : 0 ≤ u) (h1 : u ≤ 1 / 2 ^ 20) : (1 + u) ^ 5 ≤ 1 + 6 * u := by
  have hu' : u ≤ 1 / 1048576 := by norm_num at h1 ⊢; exact h1
  have h2 : u * u ≤ u * (1 / 1048576) := mul_le_mul_of_nonneg_left hu' h0
  have h3 : u * u * u ≤ u * (1 / 1048576) := le_trans (mul_le_of_le_one_right (mul_nonneg h0 h0) (by linarith)) h2
  have h4 : u * u * u * u ≤ u * (1 / 1048576) := le_trans (mul_le_of_le_one_right (by positivity) (by linarith)) h3
  have h5 : u * u * u * u * u ≤ u * (1 / 1048576) := le_trans (mul_le_of_le_one_right (by positivity) (by linarith)) h4
  have e : (1 + u) ^ 5 = 1 + 5 * u + 10 * (u * u) + 10 * (u * u * u) + 5 * (u * u * u * u) + u * u * u * u * u := by ring
  rw [e]
  linarith

theorem pow5_lower {u : K} (h0 : 0 ≤ u) (h1 : u ≤ 1 / 2 ^ 20) : 1 - 5 * u ≤ (1 - u) ^ 5 := by
  have hu' : u ≤ 1 / 1048576 := by norm_num at h1 ⊢; exact h1
  have := one_add_mul_le_pow (show -2 ≤ -u by linarith) 5
  push_cast at this
  rw [← sub_eq_add_neg] at this
  linarith

/-- The rounded square of the diagonal. -/
theorem sqLength_bounds {u : K} (hu : R.RelError u) (h0 : 0 ≤ u) (h1 : u ≤ 1 / 2 ^ 20) (b : AABB (Fp R)) :
    0 ≤ (b.max - b.min).sqLength.val ∧
    (1 - 5 * u) * ((exactBox b).max - (exactBox b).min).sqLength ≤ (b.max - b.min).sqLength.val ∧
    (b.max - b.min).sqLength.val ≤ (1 + 6 * u) * ((exactBox b).max - (exactBox b).min).sqLength := by
  have pos : ∀ {x : K}, 0 ≤ x → (1 - u) * x ≤ R.rnd x ∧ R.rnd x ≤ (1 + u) * x := by
    intro x hx
    have := hu x
    rw [abs_of_nonneg hx] at this
    have := abs_le.1 this
    constructor <;> linarith
  have hu' : u ≤ 1 / 1048576 := by norm_num at h1 ⊢; exact h1
  have sq : ∀ D : K, (1 - u) ^ 3 * (D * D) ≤ R.rnd (R.rnd D * R.rnd D) ∧ R.rnd (R.rnd D * R.rnd D) ≤ (1 + u) ^ 3 * (D * D) := by
    intro D
    have h := abs_le.1 (hu D)
    have ab : |R.rnd D * R.rnd D| = R.rnd D * R.rnd D := abs_mul_self _
    obtain ⟨a1, a2⟩ := pos (mul_self_nonneg (R.rnd D))
    have hb1 : (1 - u) * |D| ≤ |R.rnd D| := by
      have := abs_sub_abs_le_abs_sub D (R.rnd D)
      rw [abs_sub_comm] at this
      have := hu D
      linarith
    have hb2 : |R.rnd D| ≤ (1 + u) * |D| := by
      have := abs_sub_abs_le_abs_sub (R.rnd D) D
      have := hu D
      linarith
    have s1 : ((1 - u) * |D|) ^ 2 ≤ R.rnd D * R.rnd D := by
      rw [← abs_mul_abs_self (R.rnd D), ← sq]
      exact pow_le_pow_left₀ (mul_nonneg (by linarith) (abs_nonneg _)) hb1 2
    have s2 : R.rnd D * R.rnd D ≤ ((1 + u) * |D|) ^ 2 := by
      rw [← abs_mul_abs_self (R.rnd D), ← sq]
      exact pow_le_pow_left₀ (abs_nonneg _) hb2 2
    have e1 : ((1 - u) * |D|) ^ 2 = (1 - u) ^ 2 * (D * D) := by rw [mul_pow, sq_abs, sq D]
    have e2 : ((1 + u) * |D|) ^ 2 = (1 + u) ^ 2 * (D * D) := by rw [mul_pow, sq_abs, sq D]
    rw [e1] at s1
    rw [e2] at s2
    have m1 := mul_le_mul_of_nonneg_left s1 (show 0 ≤ 1 - u by linarith)
    have m2 := mul_le_mul_of_nonneg_left s2 (show 0 ≤ 1 + u by linarith)
    constructor
    · refine le_trans (le_of_eq ?_) (m1.trans a1); ring
    · refine (a2.trans m2).trans (le_of_eq ?_); ring
  have e : (b.max - b.min).sqLength.val = R.rnd (R.rnd (R.rnd (R.rnd (b.max.x.val - b.min.x.val) * R.rnd (b.max.x.val - b.min.x.val)) +
      R.rnd (R.rnd (b.max.y.val - b.min.y.val) * R.rnd (b.max.y.val - b.min.y.val))) + R.rnd (R.rnd (b.max.z.val - b.min.z.val) * R.rnd (b.max.z.val - b.min.z.val))) := rfl
  have e' : ((exactBox b).max - (exactBox b).min).sqLength = (b.max.x.val - b.min.x.val) * (b.max.x.val - b.min.x.val) +
      (b.max.y.val - b.min.y.val) * (b.max.y.val - b.min.y.val) + (b.max.z.val - b.min.z.val) * (b.max.z.val - b.min.z.val) := rfl
  rw [e, e']
  generalize b.max.x.val - b.min.x.val = X
  generalize b.max.y.val - b.min.y.val = Y
  generalize b.max.z.val - b.min.z.val = Z
  obtain ⟨x1, x2⟩ := sq X
  obtain ⟨y1, y2⟩ := sq Y
  obtain ⟨z1, z2⟩ := sq Z
  have hX := mul_self_nonneg X
  have hY := mul_self_nonneg Y
  have hZ := mul_self_nonneg Z
  generalize X * X = A at *
  generalize Y * Y = B at *
  generalize Z * Z = C at *
  generalize R.rnd (R.rnd X * R.rnd X) = x at *
  generalize R.rnd (R.rnd Y * R.rnd Y) = y at *
  generalize R.rnd (R.rnd Z * R.rnd Z) = z at *
  have u1 : 0 ≤ (1 - u) ^ 3 := pow_nonneg (by linarith) 3
  have x0 : 0 ≤ x := le_trans (mul_nonneg u1 hX) x1
  have y0 : 0 ≤ y := le_trans (mul_nonneg u1 hY) y1
  have z0 : 0 ≤ z := le_trans (mul_nonneg u1 hZ) z1
  obtain ⟨p1, p2⟩ := pos (add_nonneg x0 y0)
  have q0 : 0 ≤ R.rnd (x + y) := le_trans (mul_nonneg (by linarith) (add_nonneg x0 y0)) p1
  obtain ⟨r1, r2⟩ := pos (add_nonneg q0 z0)
  refine ⟨le_trans (mul_nonneg (by linarith) (add_nonneg q0 z0)) r1, le_trans ?_ r1, r2.trans ?_⟩
  · have k1 : (1 - u) ^ 4 * (A + B + C) ≤ R.rnd (x + y) + z := by
      have : (1 - u) * ((1 - u) ^ 3 * (A + B)) ≤ R.rnd (x + y) := le_trans (mul_le_mul_of_nonneg_left (by linarith) (by linarith)) p1
      have : (1 - u) * ((1 - u) ^ 3 * C) ≤ z := le_trans (mul_le_of_le_one_left (mul_nonneg u1 hZ) (by linarith)) z1
      linarith
    have k2 := mul_le_mul_of_nonneg_left k1 (show 0 ≤ 1 - u by linarith)
    have k3 := pow5_lower h0 h1
    refine le_trans (mul_le_mul_of_nonneg_right k3 (by linarith)) (le_trans (le_of_eq ?_) k2)
    ring
  · have k1 : R.rnd (x + y) + z ≤ (1 + u) ^ 4 * (A + B + C) := by
      have : R.rnd (x + y) ≤ (1 + u) * ((1 + u) ^ 3 * (A + B)) := p2.trans (mul_le_mul_of_nonneg_left (by linarith) (by linarith))
      have : z ≤ (1 + u) * ((1 + u) ^ 3 * C) := z2.trans (le_mul_of_one_le_left (mul_nonneg (pow_nonneg (by linarith) 3) hZ) (by linarith))
      linarith
    have k2 := mul_le_mul_of_nonneg_left k1 (show 0 ≤ 1 + u by linarith)
    have k3 := pow5_upper h0 h1
    refine k2.trans (le_trans (le_of_eq ?_) (mul_le_mul_of_nonneg_right k3 (by linarith)))
    ring

/-- A box found small has sides of at most the tolerance, up to rounding. -/
theorem small_sides {u : K} (hu : R.RelError u) (h0 : 0 ≤ u) (h1 : u ≤ 1 / 2 ^ 20) {sqrt : Fp R → Fp R} (hs : SqrtNear u sqrt) {tol : Fp R} {b : AABB (Fp R)}
    (h : small sqrt tol b = true) : 0 < tol.val ∧ ((exactBox b).max - (exactBox b).min).sqLength ≤ ((1 + 8 * u) * tol.val) ^ 2 := by
  obtain ⟨p0, p1, -⟩ := sqLength_bounds hu h0 h1 b
  obtain ⟨q0, q1⟩ := hs _ p0
  have h : (sqrt (b.max - b.min).sqLength).val < tol.val := of_decide_eq_true h
  generalize (b.max - b.min).sqLength = S at *
  have hE : 0 ≤ ((exactBox b).max - (exactBox b).min).sqLength := by
    unfold Vec3.sqLength
    exact add_nonneg (add_nonneg (mul_self_nonneg _) (mul_self_nonneg _)) (mul_self_nonneg _)
  generalize ((exactBox b).max - (exactBox b).min).sqLength = E at *
  have hu' : u ≤ 1 / 1048576 := by norm_num at h1 ⊢; exact h1
  refine ⟨lt_of_le_of_lt q0 h, ?_⟩
  have t2 : (sqrt S).val ^ 2 ≤ tol.val ^ 2 := pow_le_pow_left₀ q0 h.le 2
  have k1 := (abs_le.1 q1).1
  have k2 : (1 - 3 * u) * ((1 - 5 * u) * E) ≤ (1 - 3 * u) * S.val := mul_le_mul_of_nonneg_left p1 (by linarith)
  have k3 : (1 - 8 * u) * E ≤ (1 - 3 * u) * ((1 - 5 * u) * E) := by
    rw [← mul_assoc]
    exact mul_le_mul_of_nonneg_right (by nlinarith) hE
  have k4 : (1 - 8 * u) * E ≤ tol.val ^ 2 := by linarith
  have k5 : 1 ≤ (1 + 8 * u) ^ 2 * (1 - 8 * u) := by
    have hu2 : u * u ≤ u * (1 / 1048576) := mul_le_mul_of_nonneg_left hu' h0
    have e : (1 + 8 * u) ^ 2 * (1 - 8 * u) = 1 + 8 * u - 64 * (u * u) - 512 * (u * u) * u := by ring
    rw [e]
    have : (u * u) * u ≤ (u * u) * 1 := mul_le_mul_of_nonneg_left (by linarith) (mul_nonneg h0 h0)
    linarith
  calc E = 1 * E := (one_mul _).symm
    _ ≤ (1 + 8 * u) ^ 2 * (1 - 8 * u) * E := mul_le_mul_of_nonneg_right k5 hE
    _ = (1 + 8 * u) ^ 2 * ((1 - 8 * u) * E) := by ring
    _ ≤ (1 + 8 * u) ^ 2 * tol.val ^ 2 := mul_le_mul_of_nonneg_left k4 (by positivity)
    _ = ((1 + 8 * u) * tol.val) ^ 2 := by ring

/-- A box that is small by some margin is found small. -/
theorem small_of {u : K} (hu : R.RelError u) (h0 : 0 ≤ u) (h1 : u ≤ 1 / 2 ^ 20) {sqrt : Fp R → Fp R} (hs : SqrtNear u sqrt) {tol : Fp R} (ht : 0 < tol.val)
    {b : AABB (Fp R)} (h : (1 + 10 * u) * ((exactBox b).max - (exactBox b).min).sqLength < tol.val ^ 2) : small sqrt tol b = true := by
  obtain ⟨p0, -, p1⟩ := sqLength_bounds hu h0 h1 b
  obtain ⟨q0, q1⟩ := hs _ p0
  refine decide_eq_true ?_
  show (sqrt (b.max - b.min).sqLength).val < tol.val
  generalize (b.max - b.min).sqLength = S at *
  have hE : 0 ≤ ((exactBox b).max - (exactBox b).min).sqLength := by
    unfold Vec3.sqLength
    exact add_nonneg (add_nonneg (mul_self_nonneg _) (mul_self_nonneg _)) (mul_self_nonneg _)
  generalize ((exactBox b).max - (exactBox b).min).sqLength = E at *
  have hu' : u ≤ 1 / 1048576 := by norm_num at h1 ⊢; exact h1
  have k1 := (abs_le.1 q1).2
  have k2 : (1 + 3 * u) * S.val ≤ (1 + 3 * u) * ((1 + 6 * u) * E) := mul_le_mul_of_nonneg_left p1 (by linarith)
  have k3 : (1 + 3 * u) * ((1 + 6 * u) * E) ≤ (1 + 10 * u) * E := by
    rw [← mul_assoc]
    refine mul_le_mul_of_nonneg_right ?_ hE
    have hu2 : u * u ≤ u * (1 / 1048576) := mul_le_mul_of_nonneg_left hu' h0
    nlinarith
  refine lt_of_pow_lt_pow_left₀ 2 ht.le ?_
  linarith

end box

/-! ### Halving -/
section halve
variable [FloorRing K]

omit [FloorRing K] in
theorem steps_near {R : Rounding K} {u M d : K} {a : Curve (Fp R)} {e : Curve K} (N : PieceNear u M a e) (S : StepsLe d e) :
    StepsLe (d + 2 * (((1 - u)⁻¹ ^ (10 * e.degree) - 1) * M)) a.exact := by
  intro i hi
  have el : a.exact.cpts.length = e.cpts.length := by rw [← N.length]; simp [Curve.exact]
  rw [el] at hi
  obtain ⟨s1, s2, s3⟩ := S i hi
  obtain ⟨-, x1, x2, x3⟩ := N.near i (by omega)
  obtain ⟨-, y1, y2, y3⟩ := N.near (i + 1) hi
  have g : ∀ j, ix a.exact.cpts j = exact4 (ix a.cpts j) := fun j => ix_cpts_exact _ _
  rw [g, g]
  have key : ∀ {A B C D E : K}, |A - B| ≤ E → |C - D| ≤ E → |D - B| ≤ d → |C - A| ≤ d + 2 * E := by
    intro A B C D E h1 h2 h3
    rw [abs_le] at *
    constructor <;> linarith
  exact ⟨key x1.2 y1.2 s1, key x2.2 y2.2 s2, key x3.2 y3.2 s3⟩

omit [IsStrictOrderedRing K] [FloorRing K] in
theorem filter_lt_bezier {n : Nat} {lo hi t : K} (h1 : lo < t) (h2 : t < hi) :
    (List.replicate n lo ++ List.replicate n hi).filter (fun x => decide (x < t)) = List.replicate n lo ∧
    (List.replicate n lo ++ List.replicate n hi).filter (fun x => decide (t < x)) = List.replicate n hi := by
  constructor <;> simp [List.filter_append, List.filter_replicate, h1, h2, not_lt.2 h1.le, not_lt.2 h2.le]

omit [FloorRing K] in
/-- Steps of a Bézier curve are slopes. -/
theorem steps_slope {c : Curve K} {lo hi d : K} (h : lo < hi) (hk : c.knots = List.replicate (c.degree + 1) lo ++ List.replicate (c.degree + 1) hi)
    (hl : c.cpts.length = c.degree + 1) : StepsLe d c ↔ SlopeLe (d / (hi - lo)) c := by
  have e : ∀ i, i + 1 < c.cpts.length → d / (hi - lo) * (ix c.knots (i + c.degree + 1) - ix c.knots (i + 1)) = d := by
    intro i hi'
    rw [hk, ix_bezier _ (by omega), ix_bezier _ (by omega), if_neg (by omega), if_pos (by omega), div_mul_cancel₀ _ (by linarith)]
  constructor
  · intro S i hi'
    rw [e i hi']
    exact S i hi'
  · intro S i hi'
    have := S i hi'
    rw [e i hi'] at this
    exact this

/-- One halving of a computed Bézier piece. -/
theorem halve_near (p : Nat) (hp : 20 ≤ p) {c : Curve K} {q : Curve (Fp (Rounding.float (K := K) p (by omega)))} {lo hi e B : K} (N : BezierNear c q lo hi e B) (t : Fp _)
    (h1 : lo + 2 / 10 ^ 12 < t.val) (h2 : t.val < hi - 2 / 10 ^ 12) {d : K} (S : StepsLe d q.exact) :
    ∃ x y, q.split t false = .ok (x, y) ∧
      (BezierNear c x lo t.val (e + ((1 - 1 / 2 ^ p)⁻¹ ^ (10 * c.degree) - 1) * B) ((1 - 1 / 2 ^ p)⁻¹ ^ (10 * c.degree) * B) ∧
        StepsLe (d / (hi - lo) * (t.val - lo) + 2 * (((1 - 1 / 2 ^ p)⁻¹ ^ (10 * c.degree) - 1) * B)) x.exact) ∧
      (BezierNear c y t.val hi (e + ((1 - 1 / 2 ^ p)⁻¹ ^ (10 * c.degree) - 1) * B) ((1 - 1 / 2 ^ p)⁻¹ ^ (10 * c.degree) * B) ∧
        StepsLe (d / (hi - lo) * (hi - t.val) + 2 * (((1 - 1 / 2 ^ p)⁻¹ ^ (10 * c.degree) - 1) * B)) y.exact) := by
  have ht : (0 : K) < 2 / 10 ^ 12 := by positivity
  have htt : (1 : K) / 10 ^ 12 < 2 / 10 ^ 12 := by rw [div_lt_div_iff_of_pos_right (by positivity)]; norm_num
  have hu := float_error (K := K) p (by omega)
  have hu0 : (0 : K) ≤ 1 / 2 ^ p := by positivity
  have hu1 := float_small (K := K) p hp
  have H := float_unit (K := K) p hp
  have el : q.exact.cpts.length = q.cpts.length := by simp [Curve.exact]
  have ed : q.exact.degree = q.degree := rfl
  have hW : EqualWeights q.exact := ⟨1, one_pos, N.weights⟩
  have kq := N.knots
  have dq := N.degree
  have pq := N.points
  have kn1 : ix q.exact.knots q.degree = lo := by rw [kq, ix_bezier _ (by omega), if_pos (by omega)]
  have kn2 : ix q.exact.knots q.cpts.length = hi := by rw [kq, ix_bezier _ (by omega), if_neg (by omega)]
  have hlt : lo < t.val := by linarith
  have hgt : t.val < hi := by linarith
  have hclear : ClearOf (2 / 10 ^ 12) q.exact.knots t.val := by
    intro x hx _
    rw [kq] at hx
    rcases List.mem_append.1 hx with hx | hx
    · rw [List.eq_of_mem_replicate hx, abs_of_pos (by linarith)]; linarith
    · rw [List.eq_of_mem_replicate hx, abs_of_neg (by linarith)]; linarith
  have hcount : q.exact.knots.count t.val ≤ q.degree := by
    rw [List.count_eq_zero.2]
    · omega
    · rw [kq]
      intro hx
      rcases List.mem_append.1 hx with hx | hx
      · exact absurd (List.eq_of_mem_replicate hx) (ne_of_gt hlt)
      · exact absurd (List.eq_of_mem_replicate hx) (ne_of_lt hgt)
  obtain ⟨i1, i2⟩ := N.interval
  obtain ⟨x, y, ex, ey, hs, hse, Nx, Ny, hB0, -, hdom, hex, hey, ⟨hkx, hky⟩, hone, ⟨mx1, mx2⟩, my1, my2⟩ := split_near hu hu0 hu1 q N.valid hW t
    (by rw [kn1]; exact hlt) (by rw [kn2]; exact hgt) (by rw [i1]; exact h1) (by rw [i2]; exact h2) hclear hcount B N.bounded
  obtain ⟨wx, wy⟩ := C142_unit_weights p hp q N.valid N.weights t (by rw [kn1]; exact hlt.le) (by rw [kn2]; exact hgt) hclear hcount x y hs
  obtain ⟨wx', wy'⟩ := hone 1 N.weights
  obtain ⟨-, _, -, -, -, ⟨_, _, hxx⟩, ⟨_, _, hyy⟩⟩ := split_inv hs
  have dx : x.degree = c.degree := by rw [hxx]; exact dq
  have dy : y.degree = c.degree := by rw [hyy]; exact dq
  have dx' : ex.degree = c.degree := by rw [← Nx.degree, dx]
  have dy' : ey.degree = c.degree := by rw [← Ny.degree, dy]
  obtain ⟨Vx, Dx, Bx, Ex⟩ := unit_near H hB0 Nx wx wx'
  obtain ⟨Vy, Dy, By, Ey⟩ := unit_near H hB0 Ny wy wy'
  have Sl := (steps_slope (c := q.exact) (d := d) (hlt.trans hgt) (by rw [ed, dq]; exact kq) (by rw [el, ed, dq]; exact pq)).1 S
  have kn1' : ix q.exact.knots q.exact.degree = lo := kn1
  have kn2' : ix q.exact.knots q.exact.cpts.length = hi := by rw [el]; exact kn2
  obtain ⟨Slx, Sly⟩ := split_slope q.exact N.valid hW t.val (by rw [kn1']; exact hlt) (by rw [kn2']; exact hgt) (by rw [show q.exact.lo = lo from i1]; linarith)
    (by rw [show q.exact.hi = hi from i2]; linarith) (fun x hx hne => lt_trans htt (hclear x hx hne)) hcount Sl hse
  have Gx := Nx.length
  have Gy := Ny.length
  obtain ⟨f1, f2⟩ := filter_lt_bezier (n := c.degree + 1) hlt hgt
  rw [kq, f1, dq] at hkx
  rw [kq, f2, dq] at hky
  have lx : ex.cpts.length = c.degree + 1 := by
    have := Nx.valid.len
    rw [hkx, List.length_append, List.length_replicate, List.length_replicate] at this
    omega
  have ly : ey.cpts.length = c.degree + 1 := by
    have := Ny.valid.len
    rw [hky, List.length_append, List.length_replicate, List.length_replicate] at this
    omega
  have Stx : StepsLe (d / (hi - lo) * (t.val - lo)) ex := by
    refine (steps_slope (lo := lo) (hi := t.val) hlt (by rw [dx']; exact hkx) (by rw [dx']; exact lx)).2 ?_
    rw [mul_div_assoc, div_self (by linarith), mul_one]
    exact Slx
  have Sty : StepsLe (d / (hi - lo) * (hi - t.val)) ey := by
    refine (steps_slope (lo := t.val) (hi := hi) hgt (by rw [dy']; exact hky) (by rw [dy']; exact ly)).2 ?_
    rw [mul_div_assoc, div_self (by linarith), mul_one]
    exact Sly
  have Sx := steps_near Nx Stx
  have Sy := steps_near Ny Sty
  rw [dx'] at Bx Ex Sx
  rw [dy'] at By Ey Sy
  rw [kn1', kn2'] at hdom
  have kx : x.exact.knots = List.replicate (c.degree + 1) lo ++ List.replicate (c.degree + 1) t.val := Nx.knots.trans hkx
  have ky : y.exact.knots = List.replicate (c.degree + 1) t.val ++ List.replicate (c.degree + 1) hi := Ny.knots.trans hky
  have bnd : ∀ {a b : K}, a ≤ b → ∀ z ∈ List.replicate (c.degree + 1) a ++ List.replicate (c.degree + 1) b, a ≤ z ∧ z ≤ b := by
    intro a b hab z hz
    rcases List.mem_append.1 hz with hz | hz
    · rw [List.eq_of_mem_replicate hz]; exact ⟨le_rfl, hab⟩
    · rw [List.eq_of_mem_replicate hz]; exact ⟨hab, le_rfl⟩
  have kx0 : x.knots.map Fp.val = _ := kx
  have ky0 : y.knots.map Fp.val = _ := ky
  have tri : ∀ {x y z E F : K}, |x - y| ≤ E → |y - z| ≤ F → |x - z| ≤ F + E := by
    intro x y z E F h1 h2
    have := abs_sub_le x y z
    linarith
  refine ⟨x, y, hs, ⟨⟨Vx, wx, Bx, ⟨?_, ?_⟩, dx, by rw [Gx, lx], kx, fun s => (Dx s).trans (hdom s).1, fun s s1 s2 => ?_⟩, Sx⟩,
    ⟨Vy, wy, By, ⟨?_, ?_⟩, dy, by rw [Gy, ly], ky, fun s => (Dy s).trans (hdom s).2, fun s s1 s2 => ?_⟩, Sy⟩
  · exact min_val mx1 (by rw [kx0]; simp) fun z hz => (bnd hlt.le z (by rw [← kx0]; exact hz)).1
  · exact max_val mx2 (by rw [kx0]; simp) fun z hz => (bnd hlt.le z (by rw [← kx0]; exact hz)).2
  · have hd := (hdom s).1.2 ⟨s1, s2⟩
    obtain ⟨r, r', e1, e2, g1, g2, g3⟩ := Ex s hd
    obtain ⟨r1, r2, e3, e4, g4, g5, g6⟩ := N.near s s1 (by linarith)
    rw [hex s hd, e3] at e2
    cases e2
    exact ⟨r, r2, e1, e4, tri g1 g4, tri g2 g5, tri g3 g6⟩
  · exact min_val my1 (by rw [ky0]; simp) fun z hz => (bnd hgt.le z (by rw [← ky0]; exact hz)).1
  · exact max_val my2 (by rw [ky0]; simp) fun z hz => (bnd hgt.le z (by rw [← ky0]; exact hz)).2
  · have hd := (hdom s).2.2 ⟨s1, s2⟩
    obtain ⟨r, r', e1, e2, g1, g2, g3⟩ := Ey s hd
    obtain ⟨r1, r2, e3, e4, g4, g5, g6⟩ := N.near s (by linarith) s2
    rw [hey s hd, e3] at e2
    cases e2
    exact ⟨r, r2, e1, e4, tri g1 g4, tri g2 g5, tri g3 g6⟩

omit [FloorRing K] in
/-- The computed middle of an interval. -/
theorem middle_near {R : Rounding K} {u L : K} (F : Num.FormatOk R u) (a b : Fp R) (ha : |a.val| ≤ L) (hb : |b.val| ≤ L) (hab : a.val ≤ b.val) :
    |((b - a) * (1 / 2) + a).val - (a.val + b.val) / 2| ≤ 4 * u * L := by
  have e : ((b - a) * (1 / 2) + a).val = R.rnd (R.rnd (R.rnd (b.val - a.val) * (1 / 2)) + a.val) := by
    show R.rnd (R.rnd (R.rnd (b.val - a.val) * (1 / 2 : Fp R).val) + a.val) = _
    rw [F.half_val]
  rw [e]
  have u0 := F.nonneg
  have u1 : u ≤ 1 / 1000 := F.small.trans (by norm_num)
  rw [abs_le] at ha hb
  have hL : 0 ≤ L := by linarith
  have hd := F.err (b.val - a.val)
  rw [abs_of_nonneg (by linarith : (0 : K) ≤ b.val - a.val)] at hd
  have hd2 : |R.rnd (b.val - a.val) - (b.val - a.val)| ≤ u * (2 * L) := hd.trans (mul_le_mul_of_nonneg_left (by linarith) u0)
  generalize R.rnd (b.val - a.val) = d at *
  have uL : u * L ≤ 1 / 1000 * L := mul_le_mul_of_nonneg_right u1 hL
  have uL0 : 0 ≤ u * L := mul_nonneg u0 hL
  have uuL : u * (u * L) ≤ 1 / 1000 * (u * L) := mul_le_mul_of_nonneg_right u1 uL0
  rw [abs_le] at hd2
  have hh := F.err (d * (1 / 2))
  have dabs : |d * (1 / 2)| ≤ L + u * L := by rw [abs_le]; constructor <;> linarith
  have hh2 : |R.rnd (d * (1 / 2)) - d * (1 / 2)| ≤ u * (L + u * L) := hh.trans (mul_le_mul_of_nonneg_left dabs u0)
  generalize R.rnd (d * (1 / 2)) = h at *
  have ex1 : u * (L + u * L) = u * L + u * (u * L) := by ring
  rw [ex1, abs_le] at hh2
  have hs := F.err (h + a.val)
  have sabs : |h + a.val| ≤ L + 3 * (u * L) := by rw [abs_le]; constructor <;> linarith
  have hs2 : |R.rnd (h + a.val) - (h + a.val)| ≤ u * (L + 3 * (u * L)) := hs.trans (mul_le_mul_of_nonneg_left sabs u0)
  have ex2 : u * (L + 3 * (u * L)) = u * L + 3 * (u * (u * L)) := by ring
  rw [ex2, abs_le] at hs2
  rw [abs_le, mul_assoc]
  constructor <;> linarith

/-- A computed piece of the curve `c` after `n` halvings that can be halved `k` more times. -/
structure Part (p : Nat) (hp : 40 ≤ p) (c : Curve K) (L M S W : K) (n k : Nat) (q : Curve (Fp (Rounding.float (K := K) p (by omega)))) : Prop where
  near : BezierNear c q q.lo.val q.hi.val (((1 - 1 / 2 ^ p)⁻¹ ^ (10 * c.degree * n) - 1) * M) ((1 - 1 / 2 ^ p)⁻¹ ^ (10 * c.degree * n) * M)
  inside : c.lo ≤ q.lo.val ∧ q.hi.val ≤ c.hi
  wide : 3 * 2 ^ k / 10 ^ 12 - 8 * (1 / 2 ^ p) * L < q.hi.val - q.lo.val
  narrow : q.hi.val - q.lo.val ≤ W / 2 ^ n + 8 * (1 / 2 ^ p) * L
  steps : StepsLe (S * (q.hi.val - q.lo.val) + 2 * (((1 - 1 / 2 ^ p)⁻¹ ^ (10 * c.degree * n) - 1) * M)) q.exact

omit [FloorRing K] [IsStrictOrderedRing K] in
theorem StepsLe.mono {d d' : K} {c : Curve K} (h : StepsLe d c) (hd : d ≤ d') : StepsLe d' c :=
  fun i hi => ⟨(h i hi).1.trans hd, (h i hi).2.1.trans hd, (h i hi).2.2.trans hd⟩

theorem Part.halve {p : Nat} {hp : 40 ≤ p} {c : Curve K} {L M S W : K} {n k : Nat} {q : Curve (Fp (Rounding.float (K := K) p (by omega)))}
    (h : Part p hp c L M S W n (k + 1) q) (hM : 0 ≤ M) (hL : |c.lo| ≤ L ∧ |c.hi| ≤ L) (hu : 8 * (1 / 2 ^ p) * L ≤ 1 / 10 ^ 12) :
    ∃ x y, q.split ((q.hi - q.lo) * (1 / 2) + q.lo) false = .ok (x, y) ∧ Part p hp c L M S W (n + 1) k x ∧ Part p hp c L M S W (n + 1) k y := by
  obtain ⟨N, ⟨i1, i2⟩, hw, hn, st⟩ := h
  have H := float_unit (K := K) p (by omega)
  have F := Num.formatOk_float (K := K) p hp
  obtain ⟨l1, l2⟩ := hL
  rw [abs_le] at l1 l2
  have hL0 : 0 ≤ L := by linarith
  have pk : (1 : K) ≤ 2 ^ k := one_le_pow₀ (by norm_num)
  have pk2 : (3 : K) * 2 ^ (k + 1) / 10 ^ 12 = 2 * (3 * 2 ^ k / 10 ^ 12) := by rw [pow_succ]; ring
  have pk3 : (3 : K) / 10 ^ 12 ≤ 3 * 2 ^ k / 10 ^ 12 := by
    rw [div_le_div_iff_of_pos_right (by positivity)]
    linarith
  have three : (3 : K) / 10 ^ 12 = 3 * (1 / 10 ^ 12) := by ring
  have two : (2 : K) / 10 ^ 12 = 2 * (1 / 10 ^ 12) := by ring
  have pos : (0 : K) < 1 / 10 ^ 12 := by positivity
  rw [pk2] at hw
  rw [three] at pk3
  have wpos : 0 < q.hi.val - q.lo.val := by linarith
  have hm := middle_near F q.lo q.hi (L := L) (abs_le.2 ⟨by linarith, by linarith⟩) (abs_le.2 ⟨by linarith, by linarith⟩) (by linarith)
  rw [abs_le] at hm
  have e8 : 8 * (1 / 2 ^ p) * L = 2 * (4 * (1 / 2 ^ p) * L) := by ring
  rw [e8] at hw hn hu
  generalize hE : (4 : K) * (1 / 2 ^ p) * L = E at *
  generalize ht : (q.hi - q.lo) * (1 / 2) + q.lo = t at *
  generalize hA : (3 : K) * 2 ^ k / 10 ^ 12 = A at *
  obtain ⟨x, y, hs, ⟨Nx, Sx⟩, Ny, Sy⟩ := halve_near p (by omega) N t (by rw [two]; linarith) (by rw [two]; linarith) st
  obtain ⟨x1, x2⟩ := Nx.interval
  obtain ⟨y1, y2⟩ := Ny.interval
  have ρ1 := H.one_le_pow (10 * c.degree * n)
  have pw : (1 - 1 / 2 ^ p : K)⁻¹ ^ (10 * c.degree * (n + 1)) = (1 - 1 / 2 ^ p)⁻¹ ^ (10 * c.degree) * (1 - 1 / 2 ^ p)⁻¹ ^ (10 * c.degree * n) := by
    rw [← pow_add]; congr 1; ring
  have pwB : (1 - 1 / 2 ^ p : K)⁻¹ ^ (10 * c.degree * (n + 1)) * M = (1 - 1 / 2 ^ p)⁻¹ ^ (10 * c.degree) * ((1 - 1 / 2 ^ p)⁻¹ ^ (10 * c.degree * n) * M) := by
    rw [pw, mul_assoc]
  have pwE : ((1 - 1 / 2 ^ p : K)⁻¹ ^ (10 * c.degree * (n + 1)) - 1) * M =
      ((1 - 1 / 2 ^ p)⁻¹ ^ (10 * c.degree * n) - 1) * M + ((1 - 1 / 2 ^ p)⁻¹ ^ (10 * c.degree) - 1) * ((1 - 1 / 2 ^ p)⁻¹ ^ (10 * c.degree * n) * M) := by
    rw [pw]; ring
  have half : W / 2 ^ (n + 1) = W / 2 ^ n / 2 := by rw [pow_succ, div_div]
  have E0 : 0 ≤ ((1 - 1 / 2 ^ p : K)⁻¹ ^ (10 * c.degree * n) - 1) * M := mul_nonneg (by linarith) hM
  have sz : ∀ v, 0 ≤ v → v ≤ q.hi.val - q.lo.val → ∀ g : K,
      (S * (q.hi.val - q.lo.val) + 2 * (((1 - 1 / 2 ^ p)⁻¹ ^ (10 * c.degree * n) - 1) * M)) / (q.hi.val - q.lo.val) * v + 2 * g ≤
      S * v + 2 * (((1 - 1 / 2 ^ p)⁻¹ ^ (10 * c.degree * n) - 1) * M + g) := by
    intro v v0 v1 g
    generalize ((1 - 1 / 2 ^ p : K)⁻¹ ^ (10 * c.degree * n) - 1) * M = Q at *
    have : (S * (q.hi.val - q.lo.val) + 2 * Q) / (q.hi.val - q.lo.val) * v = S * v + 2 * Q * (v / (q.hi.val - q.lo.val)) := by
      field_simp
    rw [this]
    have : 2 * Q * (v / (q.hi.val - q.lo.val)) ≤ 2 * Q * 1 := mul_le_mul_of_nonneg_left ((div_le_one wpos).2 v1) (by linarith)
    linarith
  refine ⟨x, y, hs, ⟨?_, ?_, ?_, ?_, ?_⟩, ⟨?_, ?_, ?_, ?_, ?_⟩⟩
  · rw [x1, x2, pwB, pwE]; exact Nx
  · rw [x1, x2]; exact ⟨i1, by linarith⟩
  · rw [x1, x2, e8, hA]; linarith
  · rw [x1, x2, half, e8]; linarith
  · rw [x1, x2, pwE]; exact Sx.mono (sz _ (by linarith) (by linarith) _)
  · rw [y1, y2, pwB, pwE]; exact Ny
  · rw [y1, y2]; exact ⟨by linarith, i2⟩
  · rw [y1, y2, e8, hA]; linarith
  · rw [y1, y2, half, e8]; linarith
  · rw [y1, y2, pwE]; exact Sy.mono (sz _ (by linarith) (by linarith) _)

omit [FloorRing K] in
theorem interval_bezier {c : Curve K} {n : Nat} (hk : c.knots = List.replicate (n + 1) c.lo ++ List.replicate (n + 1) c.hi) (h : c.lo ≤ c.hi) : IntervalOk c := by
  have hne : c.knots ≠ [] := by rw [hk]; simp
  have hm : ∀ x ∈ c.knots, c.lo ≤ x ∧ x ≤ c.hi := by
    intro x hx
    rw [hk] at hx
    rcases List.mem_append.1 hx with hx | hx
    · rw [List.eq_of_mem_replicate hx]; exact ⟨le_rfl, h⟩
    · rw [List.eq_of_mem_replicate hx]; exact ⟨h, le_rfl⟩
  obtain ⟨m, e1, m1, m2⟩ := minElement_ok hne
  obtain ⟨m', e2, m3, m4⟩ := maxElement_ok hne
  have a : m = c.lo := le_antisymm (m2 _ (by rw [hk]; simp)) (hm m m1).1
  have b : m' = c.hi := le_antisymm (hm m' m3).2 (m4 _ (by rw [hk]; simp))
  subst a b
  unfold IntervalOk Curve.updateInterval
  rw [e1, e2]
  rfl

theorem Part.box {p : Nat} {hp : 40 ≤ p} {c : Curve K} {L M S W : K} {n k : Nat} {q : Curve (Fp (Rounding.float (K := K) p (by omega)))}
    (h : Part p hp c L M S W n k q) (hM : 0 ≤ M) (hS : 0 ≤ S) (hlt : q.lo.val < q.hi.val) :
    ∃ b, q.bbox = .ok b ∧
      (∀ s, q.lo.val ≤ s → s ≤ q.hi.val → ∃ r, q.exact.evaluate s = .ok r ∧ InBox r (exactBox b)) ∧
      ((exactBox b).max - (exactBox b).min).sqLength ≤ 3 * (c.degree * (S * (q.hi.val - q.lo.val) + 2 * (((1 - 1 / 2 ^ p)⁻¹ ^ (10 * c.degree * n) - 1) * M))) ^ 2 := by
  obtain ⟨N, -, -, -, st⟩ := h
  have H := float_unit (K := K) p (by omega)
  obtain ⟨b, hb⟩ := bbox_some N.valid
  have he := bbox_exact N.weights hb
  obtain ⟨b', hb', hin⟩ := C27_own_box_unit_weights q.exact N.valid N.weights
  rw [he] at hb'
  cases hb'
  refine ⟨b, hb, fun s h1 h2 => hin s ((N.domain s).2 ⟨h1, h2⟩), ?_⟩
  have ed : q.exact.degree = q.degree := rfl
  have el : q.exact.cpts.length = q.cpts.length := by simp [Curve.exact]
  have kn : q.exact.knots = List.replicate (q.exact.degree + 1) q.lo.val ++ List.replicate (q.exact.degree + 1) q.hi.val := by rw [ed, N.degree]; exact N.knots
  have hw : 0 < q.hi.val - q.lo.val := by linarith
  have d0 : 0 ≤ S * (q.hi.val - q.lo.val) + 2 * (((1 - 1 / 2 ^ p)⁻¹ ^ (10 * c.degree * n) - 1) * M) :=
    add_nonneg (mul_nonneg hS hw.le) (mul_nonneg (by norm_num) (mul_nonneg (by linarith [H.one_le_pow (10 * c.degree * n)]) hM))
  obtain ⟨b', hb', hsz⟩ := slope_box N.valid N.weights (interval_bezier (c := q.exact) (n := q.exact.degree) kn hlt.le) (div_nonneg d0 hw.le)
    ((steps_slope hlt kn (by rw [el, ed, N.degree]; exact N.points)).1 st)
  rw [he] at hb'
  cases hb'
  rw [show q.exact.hi - q.exact.lo = q.hi.val - q.lo.val from rfl, div_mul_cancel₀ _ hw.ne', ed, N.degree] at hsz
  exact hsz

/-- What a call may do to the list of reports. -/
def Extends {R : Rounding K} (e : K) (tol : Fp R) (c1 c2 : Curve (Fp R)) (acc res : List (Fp R × Fp R)) : Prop :=
  ∃ new, res = acc ++ new ∧ (∀ p ∈ new, MeetsWithin e c1 c2 p) ∧
    (acc.IsChain (fun a b => ¬ (absA (a.1 - b.1) ≤ tol ∧ absA (a.2 - b.2) ≤ tol)) → res.IsChain (fun a b => ¬ (absA (a.1 - b.1) ≤ tol ∧ absA (a.2 - b.2) ≤ tol)))

omit [FloorRing K] [IsStrictOrderedRing K] in
theorem Extends.refl {R : Rounding K} (e : K) (tol : Fp R) (c1 c2 : Curve (Fp R)) (acc : List (Fp R × Fp R)) : Extends e tol c1 c2 acc acc :=
  ⟨[], by simp, by simp, id⟩

omit [FloorRing K] [IsStrictOrderedRing K] in
theorem Extends.trans {R : Rounding K} {e : K} {tol : Fp R} {c1 c2 : Curve (Fp R)} {a b c : List (Fp R × Fp R)} (h : Extends e tol c1 c2 a b)
    (h' : Extends e tol c1 c2 b c) : Extends e tol c1 c2 a c := by
  obtain ⟨n, rfl, g, k⟩ := h
  obtain ⟨n', rfl, g', k'⟩ := h'
  refine ⟨n ++ n', by simp, fun p hp => ?_, fun h => k' (k h)⟩
  rcases List.mem_append.1 hp with hp | hp
  · exact g p hp
  · exact g' p hp

omit [FloorRing K] [IsStrictOrderedRing K] in
theorem report_extends {R : Rounding K} {e : K} {tol : Fp R} {c1 c2 : Curve (Fp R)} {a b : Fp R} (h : MeetsWithin e c1 c2 (a, b)) (acc : List (Fp R × Fp R)) :
    Extends e tol c1 c2 acc (report tol acc a b) := by
  unfold report
  cases hl : acc.getLast? with
  | none =>
    have : acc = [] := List.getLast?_eq_none_iff.1 hl
    subst this
    exact ⟨[(a, b)], rfl, by simpa using h, fun _ => by simp⟩
  | some q =>
    simp only
    by_cases hq : absA (q.1 - a) ≤ tol ∧ absA (q.2 - b) ≤ tol
    · rw [if_pos hq]; exact Extends.refl _ _ _ _ _
    · rw [if_neg hq]
      refine ⟨[(a, b)], rfl, by simpa using h, fun k => ?_⟩
      refine List.isChain_append.2 ⟨k, by simp, ?_⟩
      intro x hx y hy
      rw [hl] at hx
      simp only [Option.mem_def, Option.some.injEq, List.head?_cons] at hx hy
      subst hx hy
      exact hq

/-- Parts whose computed boxes meet and are found small are close. -/
theorem parts_meet {p : Nat} {hp : 40 ≤ p} {c1 c2 q1 q2 : Curve (Fp (Rounding.float (K := K) p (Nat.one_le_of_lt hp)))} {L1 L2 M1 M2 S1 S2 W1 W2 : K} {n N k : Nat} (hn : n ≤ N)
    (h1 : Part p hp c1.exact L1 M1 S1 W1 n k q1) (h2 : Part p hp c2.exact L2 M2 S2 W2 n k q2) (hM1 : 0 ≤ M1) (hM2 : 0 ≤ M2) (hS1 : 0 ≤ S1) (hS2 : 0 ≤ S2)
    (hlt1 : q1.lo.val < q1.hi.val) (hlt2 : q2.lo.val < q2.hi.val)
    {sqrt : Fp _ → Fp _} (hs : SqrtNear (1 / 2 ^ p) sqrt) {tol : Fp _} {b1 b2 : AABB (Fp _)} (e1 : q1.bbox = .ok b1) (e2 : q2.bbox = .ok b2)
    (hi : b1.intersects b2 = true) (s1 : small sqrt tol b1 = true) (s2 : small sqrt tol b2 = true) :
    MeetsWithin (2 * ((1 + 8 * (1 / 2 ^ p)) * tol.val) + ((1 - 1 / 2 ^ p)⁻¹ ^ (10 * c1.degree * N) - 1) * M1 + ((1 - 1 / 2 ^ p)⁻¹ ^ (10 * c2.degree * N) - 1) * M2) c1 c2
      (1 / 2 * (q1.lo + q1.hi), 1 / 2 * (q2.lo + q2.hi)) := by
  have H := float_unit (K := K) p (by omega)
  have F := Num.binaryFormat_float (K := K) p hp
  have hu0 : (0 : K) ≤ 1 / 2 ^ p := by positivity
  obtain ⟨b1', f1, in1, -⟩ := h1.box hM1 hS1 hlt1
  obtain ⟨b2', f2, in2, -⟩ := h2.box hM2 hS2 hlt2
  obtain rfl : b1' = b1 := Res.ok.inj (f1.symm.trans e1)
  obtain rfl : b2' = b2 := Res.ok.inj (f2.symm.trans e2)
  obtain ⟨t0, z1⟩ := small_sides (float_error p (by omega)) hu0 (float_small p (by omega)) hs s1
  obtain ⟨-, z2⟩ := small_sides (float_error p (by omega)) hu0 (float_small p (by omega)) hs s2
  obtain ⟨m1, m1'⟩ := Num.BinaryFormat.mid_mem F (show q1.lo ≤ q1.hi from hlt1.le)
  obtain ⟨m2, m2'⟩ := Num.BinaryFormat.mid_mem F (show q2.lo ≤ q2.hi from hlt2.le)
  obtain ⟨P, P', x1, x2, x3, x4, x5⟩ := h1.near.near _ m1 m1'
  obtain ⟨Q, Q', y1, y2, y3, y4, y5⟩ := h2.near.near _ m2 m2'
  obtain ⟨r, g1, g2⟩ := in1 _ m1 m1'
  obtain ⟨r', g3, g4⟩ := in2 _ m2 m2'
  obtain rfl : r = P := Res.ok.inj (g1.symm.trans x1)
  obtain rfl : r' = Q := Res.ok.inj (g3.symm.trans y1)
  have err1 : ((1 - 1 / 2 ^ p : K)⁻¹ ^ (10 * c1.degree * n) - 1) * M1 ≤ ((1 - 1 / 2 ^ p)⁻¹ ^ (10 * c1.degree * N) - 1) * M1 :=
    mul_le_mul_of_nonneg_right (by linarith [H.pow_mono (Nat.mul_le_mul_left (10 * c1.degree) hn)]) hM1
  have err2 : ((1 - 1 / 2 ^ p : K)⁻¹ ^ (10 * c2.degree * n) - 1) * M2 ≤ ((1 - 1 / 2 ^ p)⁻¹ ^ (10 * c2.degree * N) - 1) * M2 :=
    mul_le_mul_of_nonneg_right (by linarith [H.pow_mono (Nat.mul_le_mul_left (10 * c2.degree) hn)]) hM2
  have T0 : 0 ≤ (1 + 8 * (1 / 2 ^ p)) * tol.val := by positivity
  generalize (1 + 8 * (1 / 2 ^ p)) * tol.val = T at *
  have side : ∀ {x y z : K}, x * x + y * y + z * z ≤ T ^ 2 → |x| ≤ T ∧ |y| ≤ T ∧ |z| ≤ T := by
    intro x y z h
    have := mul_self_nonneg x
    have := mul_self_nonneg y
    have := mul_self_nonneg z
    refine ⟨abs_le_of_sq_le_sq ?_ T0, abs_le_of_sq_le_sq ?_ T0, abs_le_of_sq_le_sq ?_ T0⟩ <;> rw [pow_two] <;> linarith
  obtain ⟨a1, a2, a3⟩ := side z1
  obtain ⟨a4, a5, a6⟩ := side z2
  have key : ∀ {l1 r1 l2 r2 x y x' y' E1 E2 : K}, |r1 - l1| ≤ T → |r2 - l2| ≤ T → l1 ≤ r2 → l2 ≤ r1 → l1 ≤ x → x ≤ r1 → l2 ≤ y → y ≤ r2 →
      |x - x'| ≤ E1 → |y - y'| ≤ E2 → |x' - y'| ≤ 2 * T + E1 + E2 := by
    intro l1 r1 l2 r2 x y x' y' E1 E2 h1 h2 h3 h4 h5 h6 h7 h8 h9 h10
    rw [abs_le] at *
    constructor <;> linarith
  rw [exactBox_intersects] at hi
  simp only [AABB.intersects, Bool.and_eq_true, decide_eq_true_eq] at hi
  obtain ⟨⟨⟨⟨⟨i1, i2⟩, i3⟩, i4⟩, i5⟩, i6⟩ := hi
  obtain ⟨v1, v2, v3, v4, v5, v6⟩ := g2
  obtain ⟨w1, w2, w3, w4, w5, w6⟩ := g4
  refine ⟨⟨?_, ?_⟩, ⟨?_, ?_⟩, P', Q', x2, y2, ?_, ?_, ?_⟩
  · exact le_trans (show c1.lo.val ≤ q1.lo.val from h1.inside.1) m1
  · exact le_trans m1' (show q1.hi.val ≤ c1.hi.val from h1.inside.2)
  · exact le_trans (show c2.lo.val ≤ q2.lo.val from h2.inside.1) m2
  · exact le_trans m2' (show q2.hi.val ≤ c2.hi.val from h2.inside.2)
  · exact key a1 a4 i1 i2 v1 v2 w1 w2 (x3.trans err1) (y3.trans err2)
  · exact key a2 a5 i3 i4 v3 v4 w3 w4 (x4.trans err1) (y4.trans err2)
  · exact key a3 a6 i5 i6 v5 v6 w5 w6 (x5.trans err1) (y5.trans err2)

theorem Part.lt {p : Nat} {hp : 40 ≤ p} {c : Curve K} {L M S W : K} {n k : Nat} {q : Curve (Fp (Rounding.float (K := K) p (by omega)))}
    (h : Part p hp c L M S W n k q) (hu : 8 * (1 / 2 ^ p) * L ≤ 1 / 10 ^ 12) : q.lo.val < q.hi.val := by
  have := h.wide
  have pk : (1 : K) ≤ 2 ^ k := one_le_pow₀ (by norm_num)
  have pk3 : (3 : K) / 10 ^ 12 ≤ 3 * 2 ^ k / 10 ^ 12 := by
    rw [div_le_div_iff_of_pos_right (by positivity)]
    linarith
  have three : (3 : K) / 10 ^ 12 = 3 * (1 / 10 ^ 12) := by ring
  have pos : (0 : K) < 1 / 10 ^ 12 := by positivity
  linarith

section search
variable {p : Nat} {hp : 40 ≤ p} {c1 c2 : Curve (Fp (Rounding.float (K := K) p (Nat.one_le_of_lt hp)))} {L1 L2 M1 M2 S1 S2 W1 W2 : K}

/-- The search, as long as the parts are wide enough to be halved. -/
theorem float_search (hM1 : 0 ≤ M1) (hM2 : 0 ≤ M2) (hS1 : 0 ≤ S1) (hS2 : 0 ≤ S2) (hL1 : |c1.exact.lo| ≤ L1 ∧ |c1.exact.hi| ≤ L1) (hL2 : |c2.exact.lo| ≤ L2 ∧ |c2.exact.hi| ≤ L2)
    (hu1 : 8 * (1 / 2 ^ p) * L1 ≤ 1 / 10 ^ 12) (hu2 : 8 * (1 / 2 ^ p) * L2 ≤ 1 / 10 ^ 12)
    {sqrt : Fp (Rounding.float (K := K) p (Nat.one_le_of_lt hp)) → Fp _} (hs : SqrtNear (1 / 2 ^ p) sqrt) (tol : Fp _) (N : Nat) :
    ∀ fuel n q1 q2 acc, Part p hp c1.exact L1 M1 S1 W1 n fuel q1 → Part p hp c2.exact L2 M2 S2 W2 n fuel q2 → n + fuel ≤ N + 1 →
      ccx sqrt tol fuel q1 q2 acc = none ∨ ∃ res, ccx sqrt tol fuel q1 q2 acc = some (.ok res) ∧
        Extends (2 * ((1 + 8 * (1 / 2 ^ p)) * tol.val) + ((1 - 1 / 2 ^ p)⁻¹ ^ (10 * c1.degree * N) - 1) * M1 + ((1 - 1 / 2 ^ p)⁻¹ ^ (10 * c2.degree * N) - 1) * M2) tol c1 c2 acc res := by
  intro fuel
  induction fuel with
  | zero => intros; left; rfl
  | succ fuel ih =>
    intro n q1 q2 acc h1 h2 hn
    have lt1 := h1.lt hu1
    have lt2 := h2.lt hu2
    obtain ⟨b1, e1, -⟩ := h1.box hM1 hS1 lt1
    obtain ⟨b2, e2, -⟩ := h2.box hM2 hS2 lt2
    rw [ccx, e1, e2]
    simp only
    by_cases hi : b1.intersects b2 = true
    · rw [if_pos hi]
      by_cases hsm : (small sqrt tol b1 && small sqrt tol b2) = true
      · rw [if_pos hsm]
        right
        rw [Bool.and_eq_true] at hsm
        exact ⟨_, rfl, report_extends (parts_meet (by omega) h1 h2 hM1 hM2 hS1 hS2 lt1 lt2 hs e1 e2 hi hsm.1 hsm.2) acc⟩
      · rw [if_neg hsm]
        obtain ⟨a1, d1, sp1, pa1, pd1⟩ := h1.halve hM1 hL1 hu1
        obtain ⟨a2, d2, sp2, pa2, pd2⟩ := h2.halve hM2 hL2 hu2
        rw [sp1, sp2]
        simp only [andThen]
        refine andThen_step (ih (n + 1) a1 a2 acc pa1 pa2 (by omega)) fun r1 k1 => ?_
        refine andThen_step (ih (n + 1) d1 d2 r1 pd1 pd2 (by omega)) fun r2 k2 => ?_
        refine andThen_step (ih (n + 1) a1 d2 r2 pa1 pd2 (by omega)) fun r3 k3 => ?_
        rcases ih (n + 1) d1 a2 r3 pd1 pa2 (by omega) with h | ⟨r4, h, k4⟩
        · exact Or.inl h
        · exact Or.inr ⟨r4, h, ((k1.trans k2).trans k3).trans k4⟩
    · rw [if_neg hi]
      exact Or.inr ⟨acc, rfl, Extends.refl _ _ _ _ _⟩

/-- Parts halved often enough are found small. -/
theorem Part.small {c : Curve K} {L M S W : K} {n k : Nat} {q : Curve (Fp (Rounding.float (K := K) p (Nat.one_le_of_lt hp)))} (h : Part p hp c L M S W n k q)
    (hM : 0 ≤ M) (hS : 0 ≤ S) (hu : 8 * (1 / 2 ^ p) * L ≤ 1 / 10 ^ 12) {sqrt : Fp (Rounding.float (K := K) p (Nat.one_le_of_lt hp)) → Fp _} (hs : SqrtNear (1 / 2 ^ p) sqrt)
    {tol : Fp _} (ht : 0 < tol.val)
    (hm : 3 * (1 + 10 * (1 / 2 ^ p)) * (c.degree * (S * (W / 2 ^ n + 8 * (1 / 2 ^ p) * L) + 2 * (((1 - 1 / 2 ^ p)⁻¹ ^ (10 * c.degree * n) - 1) * M))) ^ 2 < tol.val ^ 2)
    {b : AABB (Fp _)} (hb : q.bbox = .ok b) : Ccx.small sqrt tol b = true := by
  have H := float_unit (K := K) p (by omega)
  have lt := h.lt hu
  obtain ⟨b', e, -, hz⟩ := h.box hM hS lt
  obtain rfl : b' = b := Res.ok.inj (e.symm.trans hb)
  refine small_of (float_error p (by omega)) (by positivity) (float_small p (by omega)) hs ht (lt_of_le_of_lt ?_ hm)
  have E0 : 0 ≤ ((1 - 1 / 2 ^ p : K)⁻¹ ^ (10 * c.degree * n) - 1) * M := mul_nonneg (by linarith [H.one_le_pow (10 * c.degree * n)]) hM
  have k1 := mul_le_mul_of_nonneg_left h.narrow hS
  have w0 : 0 ≤ S * (q.hi.val - q.lo.val) := mul_nonneg hS (by linarith)
  generalize ((1 - 1 / 2 ^ p : K)⁻¹ ^ (10 * c.degree * n) - 1) * M = E at *
  have k2 : (c.degree * (S * (q.hi.val - q.lo.val) + 2 * E)) ^ 2 ≤ (c.degree * (S * (W / 2 ^ n + 8 * (1 / 2 ^ p) * L) + 2 * E)) ^ 2 :=
    pow_le_pow_left₀ (mul_nonneg (Nat.cast_nonneg _) (by linarith)) (mul_le_mul_of_nonneg_left (by linarith) (Nat.cast_nonneg _)) 2
  have u0 : (0 : K) ≤ 1 + 10 * (1 / 2 ^ p) := by positivity
  have k3 := mul_le_mul_of_nonneg_left (hz.trans (mul_le_mul_of_nonneg_left k2 (by norm_num : (0 : K) ≤ 3))) u0
  refine k3.trans (le_of_eq ?_)
  ring

theorem float_returns (hM1 : 0 ≤ M1) (hM2 : 0 ≤ M2) (hS1 : 0 ≤ S1) (hS2 : 0 ≤ S2) (hL1 : |c1.exact.lo| ≤ L1 ∧ |c1.exact.hi| ≤ L1) (hL2 : |c2.exact.lo| ≤ L2 ∧ |c2.exact.hi| ≤ L2)
    (hu1 : 8 * (1 / 2 ^ p) * L1 ≤ 1 / 10 ^ 12) (hu2 : 8 * (1 / 2 ^ p) * L2 ≤ 1 / 10 ^ 12)
    {sqrt : Fp (Rounding.float (K := K) p (Nat.one_le_of_lt hp)) → Fp _} (hs : SqrtNear (1 / 2 ^ p) sqrt) {tol : Fp _} (ht : 0 < tol.val) (N : Nat)
    (hm1 : 3 * (1 + 10 * (1 / 2 ^ p)) * (c1.exact.degree * (S1 * (W1 / 2 ^ N + 8 * (1 / 2 ^ p) * L1) + 2 * (((1 - 1 / 2 ^ p)⁻¹ ^ (10 * c1.exact.degree * N) - 1) * M1))) ^ 2 < tol.val ^ 2)
    (hm2 : 3 * (1 + 10 * (1 / 2 ^ p)) * (c2.exact.degree * (S2 * (W2 / 2 ^ N + 8 * (1 / 2 ^ p) * L2) + 2 * (((1 - 1 / 2 ^ p)⁻¹ ^ (10 * c2.exact.degree * N) - 1) * M2))) ^ 2 < tol.val ^ 2) :
    ∀ m n q1 q2 acc, n + m = N → Part p hp c1.exact L1 M1 S1 W1 n (m + 1) q1 → Part p hp c2.exact L2 M2 S2 W2 n (m + 1) q2 → ∃ res, ccx sqrt tol (m + 1) q1 q2 acc = some (.ok res) := by
  intro m
  induction m with
  | zero =>
    intro n q1 q2 acc hn h1 h2
    obtain rfl : n = N := by omega
    obtain ⟨b1, e1, -⟩ := h1.box hM1 hS1 (h1.lt hu1)
    obtain ⟨b2, e2, -⟩ := h2.box hM2 hS2 (h2.lt hu2)
    rw [ccx, e1, e2]
    simp only
    by_cases hi : b1.intersects b2 = true
    · rw [if_pos hi, if_pos]
      · exact ⟨_, rfl⟩
      · rw [Bool.and_eq_true]
        exact ⟨h1.small hM1 hS1 hu1 hs ht hm1 e1, h2.small hM2 hS2 hu2 hs ht hm2 e2⟩
    · rw [if_neg hi]; exact ⟨_, rfl⟩
  | succ m ih =>
    intro n q1 q2 acc hn h1 h2
    obtain ⟨b1, e1, -⟩ := h1.box hM1 hS1 (h1.lt hu1)
    obtain ⟨b2, e2, -⟩ := h2.box hM2 hS2 (h2.lt hu2)
    rw [ccx, e1, e2]
    simp only
    by_cases hi : b1.intersects b2 = true
    · rw [if_pos hi]
      by_cases hsm : (Ccx.small sqrt tol b1 && Ccx.small sqrt tol b2) = true
      · rw [if_pos hsm]; exact ⟨_, rfl⟩
      · rw [if_neg hsm]
        obtain ⟨a1, d1, sp1, pa1, pd1⟩ := h1.halve hM1 hL1 hu1
        obtain ⟨a2, d2, sp2, pa2, pd2⟩ := h2.halve hM2 hL2 hu2
        rw [sp1, sp2]
        simp only [andThen]
        obtain ⟨r1, x1⟩ := ih (n + 1) a1 a2 acc (by omega) pa1 pa2
        obtain ⟨r2, x2⟩ := ih (n + 1) d1 d2 r1 (by omega) pd1 pd2
        obtain ⟨r3, x3⟩ := ih (n + 1) a1 d2 r2 (by omega) pa1 pd2
        obtain ⟨r4, x4⟩ := ih (n + 1) d1 a2 r3 (by omega) pd1 pa2
        simp only [x1, x2, x3]
        exact ⟨r4, x4⟩
    · rw [if_neg hi]; exact ⟨_, rfl⟩

/-- The curve itself is its only part before the first halving. -/
theorem part_self {c : Curve (Fp (Rounding.float (K := K) p (Nat.one_le_of_lt hp)))} {L M d : K} {k : Nat} (B : FloatBezier L M c) (hL : 0 ≤ L)
    (hw : 3 * 2 ^ k / 10 ^ 12 < c.hi.val - c.lo.val) (S : StepsLe d c.exact) :
    Part p hp c.exact L M (d / (c.hi.val - c.lo.val)) (c.hi.val - c.lo.val) 0 k c := by
  have ed : c.exact.degree = c.degree := rfl
  have el : c.exact.cpts.length = c.cpts.length := by simp [Curve.exact]
  obtain ⟨V, ⟨kn, len⟩, hw1, hb, -⟩ := B
  have w0 : 0 < c.hi.val - c.lo.val := lt_of_le_of_lt (by positivity) hw
  have dom : ∀ t, InDomain c.exact t ↔ c.lo.val ≤ t ∧ t ≤ c.hi.val := by
    intro t
    unfold InDomain
    rw [kn, ix_bezier _ (by omega), ix_bezier _ (by omega), if_pos (by omega), if_neg (by omega)]
    rfl
  have uL : 0 ≤ 8 * (1 / 2 ^ p) * L := by positivity
  refine ⟨⟨V, hw1, ?_, ⟨rfl, rfl⟩, rfl, by rw [← el]; exact len, kn, dom, fun t h1 h2 => ?_⟩, ⟨le_rfl, le_rfl⟩, by linarith, ?_, ?_⟩
  · rw [Nat.mul_zero, pow_zero, one_mul]; exact hb
  · have E := curve_eval_equal V one_ne_zero hw1 ((dom t).2 ⟨h1, h2⟩)
    refine ⟨_, _, E, E, ?_, ?_, ?_⟩ <;> rw [sub_self, abs_zero, Nat.mul_zero, pow_zero, sub_self, zero_mul]
  · rw [pow_zero, div_one]; linarith
  · rw [div_mul_cancel₀ _ w0.ne', Nat.mul_zero, pow_zero, sub_self, zero_mul, mul_zero, add_zero]; exact S

/-- Wide enough to be halved `k` times leaves only so many halvings. -/
theorem halvings_lt {L w : K} {k : Nat} (hu : 8 * (1 / 2 ^ p) * L ≤ 1 / 10 ^ 12) (hw : 3 * 2 ^ k / 10 ^ 12 < w) (hL : w ≤ 2 * L) : k < p := by
  have h2 : (0 : K) < 2 ^ p := by positivity
  have h1 : (3 * 2 ^ k : K) < 2 * L * 10 ^ 12 := by
    rw [div_lt_iff₀ (by positivity)] at hw
    exact lt_of_lt_of_le hw (mul_le_mul_of_nonneg_right hL (by positivity))
  have h3 : 8 * L * 10 ^ 12 ≤ 2 ^ p := by
    have := mul_le_mul_of_nonneg_right hu (mul_nonneg h2.le (by positivity : (0 : K) ≤ 10 ^ 12))
    field_simp at this
    linarith
  have h4 : (2 : K) ^ k < 2 ^ p := by
    have : (0 : K) < 2 ^ k := by positivity
    linarith
  exact (pow_lt_pow_iff_right₀ (by norm_num : (1 : K) < 2)).1 h4

omit [LinearOrder K] [IsStrictOrderedRing K] [FloorRing K] [Field K] in
theorem big_power : ∀ {p : Nat}, 40 ≤ p → 160 * p ≤ 2 ^ p := by
  intro p hp
  induction p, hp using Nat.le_induction with
  | base => norm_num
  | succ n hn ih => rw [pow_succ]; omega

/-- The accumulated error in rounding units. -/
theorem units (hp : 40 ≤ p) {deg N : Nat} (hd : deg ≤ 8) (hN : N ≤ p) : (1 - 1 / 2 ^ p : K)⁻¹ ^ (10 * deg * N) - 1 ≤ 20 * deg * N / 2 ^ p := by
  have H := float_unit (K := K) p (by omega)
  have hb : 20 * deg * N ≤ 2 ^ p := by
    have := big_power hp
    have := Nat.mul_le_mul (Nat.mul_le_mul_left 20 hd) hN
    omega
  have hb' : ((20 * deg * N : Nat) : K) ≤ 2 ^ p := by exact_mod_cast hb
  have h2 : (0 : K) < 2 ^ p := by positivity
  have := H.pow_sub_one_le (10 * deg * N) (20 * deg * N) ?_
  · refine this.trans (le_of_eq ?_)
    push_cast
    ring
  · have h1 : ((20 * deg * N : Nat) : K) * (1 / 2 ^ p) ≤ 1 := by rw [mul_one_div, div_le_one h2]; exact hb'
    have h0 : (0 : K) ≤ ((10 * deg * N : Nat) : K) := Nat.cast_nonneg _
    have := mul_le_mul_of_nonneg_left h1 h0
    have e : ((20 * deg * N : Nat) : K) = 2 * ((10 * deg * N : Nat) : K) := by push_cast; ring
    rw [mul_add, mul_one]
    linarith

end search
end halve
end Cmm.Ccx
