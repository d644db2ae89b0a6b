import Verif.Model.Hull2d
import Verif.Spec.Hull2d
import Verif.Lemmas.Hull
/-!
Lemmas about the Graham scan.
-/
namespace Cmm.Geom
variable {K : Type} [Field K] [LinearOrder K] [IsStrictOrderedRing K]

omit [LinearOrder K] [IsStrictOrderedRing K] in
theorem zipWith_addw {V : Type} (f : V → K) : ∀ (u w : List K) (pts : List V), u.length = pts.length → w.length = pts.length →
    (List.zipWith (fun a v => a * f v) (List.zipWith (· + ·) u w) pts).sum =
      (List.zipWith (fun a v => a * f v) u pts).sum + (List.zipWith (fun a v => a * f v) w pts).sum
  | u, w, [], h1, h2 => by simp
  | [], w, v :: pts, h1, h2 => by simp at h1
  | a :: u, [], v :: pts, h1, h2 => by simp at h2
  | a :: u, b :: w, v :: pts, h1, h2 => by
    simp only [List.zipWith_cons_cons, List.sum_cons]
    rw [zipWith_addw f u w pts (by simpa using h1) (by simpa using h2)]; ring

omit [LinearOrder K] [IsStrictOrderedRing K] in
theorem zipWith_sumw : ∀ (u w : List K), u.length = w.length → (List.zipWith (· + ·) u w).sum = u.sum + w.sum
  | [], [], _ => by simp
  | [], b :: w, h => by simp at h
  | a :: u, [], h => by simp at h
  | a :: u, b :: w, h => by
    simp only [List.zipWith_cons_cons, List.sum_cons]
    rw [zipWith_sumw u w (by simpa using h)]; ring

omit [LinearOrder K] [IsStrictOrderedRing K] in
theorem zipWith_scalew {V : Type} (f : V → K) (c : K) : ∀ (w : List K) (pts : List V),
    (List.zipWith (fun a v => a * f v) (w.map (c * ·)) pts).sum = c * (List.zipWith (fun a v => a * f v) w pts).sum
  | [], _ => by simp
  | a :: w, [] => by simp
  | a :: w, v :: pts => by
    simp only [List.map_cons, List.zipWith_cons_cons, List.sum_cons, zipWith_scalew f c w pts]; ring

omit [LinearOrder K] [IsStrictOrderedRing K] in
theorem sum_scalew (c : K) : ∀ w : List K, (w.map (c * ·)).sum = c * w.sum
  | [] => by simp
  | a :: w => by simp only [List.map_cons, List.sum_cons, sum_scalew c w]; ring

omit [LinearOrder K] [IsStrictOrderedRing K] in
theorem zipWith_zero {V : Type} (f : V → K) : ∀ pts : List V, (List.zipWith (fun a v => a * f v) (pts.map fun _ => (0 : K)) pts).sum = 0
  | [] => by simp
  | v :: pts => by rw [List.map_cons, List.zipWith_cons_cons, List.sum_cons, zipWith_zero f pts, zero_mul, zero_add]

omit [LinearOrder K] [IsStrictOrderedRing K] in
theorem sum_zero {V : Type} : ∀ pts : List V, (pts.map fun _ => (0 : K)).sum = 0
  | [] => by simp
  | v :: pts => by simp

theorem nonneg_zipWith : ∀ (u w : List K), (∀ x ∈ u, 0 ≤ x) → (∀ x ∈ w, 0 ≤ x) → ∀ x ∈ List.zipWith (· + ·) u w, 0 ≤ x
  | [], _, _, _ => by simp
  | a :: u, [], _, _ => by simp
  | a :: u, b :: w, hu, hw => by
    intro x hx
    rcases List.mem_cons.1 hx with rfl | hx
    · exact add_nonneg (hu a List.mem_cons_self) (hw b List.mem_cons_self)
    · exact nonneg_zipWith u w (fun y hy => hu y (List.mem_cons_of_mem _ hy)) (fun y hy => hw y (List.mem_cons_of_mem _ hy)) x hx

theorem hull2_weights {l2 : List (Vec2 K)} : ∀ (w : List K) (l1 : List (Vec2 K)), w.length = l1.length → (∀ x ∈ w, 0 ≤ x) →
    (∀ v ∈ l1, InHull2 l2 v) → ∃ u : List K, u.length = l2.length ∧ (∀ x ∈ u, 0 ≤ x) ∧ u.sum = w.sum ∧
      (List.zipWith (fun a v => a * v.x) w l1).sum = (List.zipWith (fun a v => a * v.x) u l2).sum ∧
      (List.zipWith (fun a v => a * v.y) w l1).sum = (List.zipWith (fun a v => a * v.y) u l2).sum
  | [], _, _, _, _ => by
    refine ⟨l2.map fun _ => 0, by simp, by simp, by rw [sum_zero]; rfl, ?_, ?_⟩
    · rw [zipWith_zero (fun v : Vec2 K => v.x)]; simp
    · rw [zipWith_zero (fun v : Vec2 K => v.y)]; simp
  | a :: w, [], h, _, _ => by simp at h
  | a :: w, v :: l1, h, hw, hv => by
    obtain ⟨u, hl, hu, hs, hx, hy⟩ := hull2_weights w l1 (by simpa using h) (fun x hx => hw x (List.mem_cons_of_mem _ hx))
      (fun x hx => hv x (List.mem_cons_of_mem _ hx))
    obtain ⟨c, cl, cn, cs, cx, cy⟩ := hv v List.mem_cons_self
    have ha := hw a List.mem_cons_self
    refine ⟨List.zipWith (· + ·) (c.map (a * ·)) u, by simp [hl, cl], ?_, ?_, ?_, ?_⟩
    · apply nonneg_zipWith _ _ _ hu
      intro x hx
      obtain ⟨y, hy, rfl⟩ := List.mem_map.1 hx
      exact mul_nonneg ha (cn y hy)
    · rw [zipWith_sumw _ _ (by simp [hl, cl]), sum_scalew, cs, hs, List.sum_cons, mul_one]
    · rw [zipWith_addw (fun v : Vec2 K => v.x) _ _ _ (by simp [cl]) hl, zipWith_scalew (fun v : Vec2 K => v.x), ← cx, ← hx]
      simp
    · rw [zipWith_addw (fun v : Vec2 K => v.y) _ _ _ (by simp [cl]) hl, zipWith_scalew (fun v : Vec2 K => v.y), ← cy, ← hy]
      simp

/-- A hull that contains some points contains their hull. -/
theorem hull2_mono {l1 l2 : List (Vec2 K)} {p : Vec2 K} (h : ∀ v ∈ l1, InHull2 l2 v) (hp : InHull2 l1 p) : InHull2 l2 p := by
  obtain ⟨w, hl, hw, hs, hx, hy⟩ := hp
  obtain ⟨u, ul, un, us, ux, uy⟩ := hull2_weights w l1 hl hw h
  exact ⟨u, ul, un, us.trans hs, hx.trans ux, hy.trans uy⟩

theorem hull2_mem {p : Vec2 K} : ∀ {l : List (Vec2 K)}, p ∈ l → InHull2 l p
  | v :: l, h => by
    rcases List.mem_cons.1 h with rfl | h
    · refine ⟨1 :: l.map fun _ => 0, by simp, ?_, ?_, ?_, ?_⟩
      · intro x hx
        rcases List.mem_cons.1 hx with rfl | hx
        · exact zero_le_one
        · obtain ⟨_, _, rfl⟩ := List.mem_map.1 hx
          exact le_refl _
      · rw [List.sum_cons, sum_zero, add_zero]
      · rw [List.zipWith_cons_cons, List.sum_cons, zipWith_zero (fun v : Vec2 K => v.x)]; ring
      · rw [List.zipWith_cons_cons, List.sum_cons, zipWith_zero (fun v : Vec2 K => v.y)]; ring
    · obtain ⟨w, hl, hw, hs, hx, hy⟩ := hull2_mem h
      refine ⟨0 :: w, by simp [hl], ?_, ?_, ?_, ?_⟩
      · intro x hx
        rcases List.mem_cons.1 hx with rfl | hx
        · exact le_refl _
        · exact hw x hx
      · rw [List.sum_cons, zero_add, hs]
      · rw [List.zipWith_cons_cons, List.sum_cons, zero_mul, zero_add, hx]
      · rw [List.zipWith_cons_cons, List.sum_cons, zero_mul, zero_add, hy]

theorem hull2_three {a b c p : Vec2 K} (u v w : K) (hu : 0 ≤ u) (hv : 0 ≤ v) (hw : 0 ≤ w) (hs : u + v + w = 1)
    (hx : p.x = u * a.x + v * b.x + w * c.x) (hy : p.y = u * a.y + v * b.y + w * c.y) : InHull2 [a, b, c] p := by
  refine ⟨[u, v, w], rfl, by simp [hu, hv, hw], ?_, ?_, ?_⟩
  · simp only [List.sum_cons, List.sum_nil]; linear_combination hs
  · simp only [List.zipWith_cons_cons, List.zipWith_nil_right, List.sum_cons, List.sum_nil]; linear_combination hx
  · simp only [List.zipWith_cons_cons, List.zipWith_nil_right, List.sum_cons, List.sum_nil]; linear_combination hy

omit [LinearOrder K] [IsStrictOrderedRing K] in
theorem turn_rel1 (o a b c d : Vec2 K) : turn a b d * turn o b c = turn a b c * turn o b d + turn o a b * turn b c d := by
  unfold turn; ring

omit [LinearOrder K] [IsStrictOrderedRing K] in
theorem turn_rel2 (o a b c d : Vec2 K) : turn a c d * turn o b c = turn a b c * turn o c d + turn b c d * turn o a c := by
  unfold turn; ring

/-- Four points in angular order around `o` with left turns at the first three and at the last three. -/
theorem turn_abd {o a b c d : Vec2 K} (h1 : 0 < turn o a b) (h2 : 0 < turn o b c) (h3 : 0 < turn o b d) (h4 : 0 < turn a b c)
    (h5 : 0 < turn b c d) : 0 < turn a b d :=
  (mul_pos_iff_of_pos_right h2).1 (by rw [turn_rel1]; exact add_pos (mul_pos h4 h3) (mul_pos h1 h5))

theorem turn_acd {o a b c d : Vec2 K} (h1 : 0 < turn o a c) (h2 : 0 < turn o b c) (h3 : 0 < turn o c d) (h4 : 0 < turn a b c)
    (h5 : 0 < turn b c d) : 0 < turn a c d :=
  (mul_pos_iff_of_pos_right h2).1 (by rw [turn_rel2]; exact add_pos (mul_pos h4 h3) (mul_pos h5 h1))

/-- The point is not before `o` in the order by height, then from left to right. -/
def Above (o q : Vec2 K) : Prop := o.y < q.y ∨ (o.y = q.y ∧ o.x ≤ q.x)

omit [LinearOrder K] [IsStrictOrderedRing K] in
theorem turn_anti (o a b : Vec2 K) : turn o b a = -turn o a b := by unfold turn; ring

omit [LinearOrder K] [IsStrictOrderedRing K] in
theorem turn_self (o a : Vec2 K) : turn o a a = 0 := by unfold turn; ring

omit [LinearOrder K] [IsStrictOrderedRing K] in
theorem turn_y (o a b c : Vec2 K) : (b.y - o.y) * turn o a c = turn o a b * (c.y - o.y) + turn o b c * (a.y - o.y) := by
  unfold turn; ring

omit [LinearOrder K] [IsStrictOrderedRing K] in
theorem turn_x (o a b c : Vec2 K) : (b.x - o.x) * turn o a c = turn o a b * (c.x - o.x) + turn o b c * (a.x - o.x) := by
  unfold turn; ring

theorem turn_trans {o a b c : Vec2 K} (ha : Above o a) (hb : Above o b) (hc : Above o c) (h1 : 0 < turn o a b) (h2 : 0 < turn o b c) :
    0 < turn o a c := by
  have hy := turn_y o a b c
  have ay : 0 ≤ a.y - o.y := by rcases ha with h | ⟨h, _⟩ <;> linarith
  have cy : 0 ≤ c.y - o.y := by rcases hc with h | ⟨h, _⟩ <;> linarith
  rcases hb with hb | ⟨hb, hb'⟩
  · have h3 : 0 < b.y - o.y := by linarith
    apply (mul_pos_iff_of_pos_left h3).1
    rw [hy]
    rcases cy.lt_or_eq with h | h
    · exact add_pos_of_pos_of_nonneg (mul_pos h1 h) (mul_nonneg h2.le ay)
    · exfalso
      have hcx : 0 ≤ c.x - o.x := by
        rcases hc with hc | ⟨_, hc⟩ <;> linarith
      have : turn o b c = -((b.y - o.y) * (c.x - o.x)) := by unfold turn; rw [← h]; ring
      rw [this] at h2
      have := mul_nonneg h3.le hcx
      linarith
  · exfalso
    have : turn o a b = -((a.y - o.y) * (b.x - o.x)) := by unfold turn; rw [← hb]; ring
    rw [this] at h1
    have := mul_nonneg ay (sub_nonneg.2 hb')
    linarith

/-- Squared distance from `o`. -/
def norm2 (o a : Vec2 K) : K := (o.x - a.x) * (o.x - a.x) + (o.y - a.y) * (o.y - a.y)

theorem norm2_nonneg (o a : Vec2 K) : 0 ≤ norm2 o a := add_nonneg (mul_self_nonneg _) (mul_self_nonneg _)

theorem norm2_eq_zero {o a : Vec2 K} : norm2 o a = 0 ↔ a = o := by
  constructor
  · intro h
    unfold norm2 at h
    have h1 := mul_self_nonneg (o.x - a.x)
    have h2 := mul_self_nonneg (o.y - a.y)
    have hx : o.x - a.x = 0 := mul_self_eq_zero.1 (by linarith)
    have hy : o.y - a.y = 0 := mul_self_eq_zero.1 (by linarith)
    ext <;> linarith
  · rintro rfl; unfold norm2; ring

/-- A point in the same direction and not farther is on the segment. -/
theorem on_ray {o a b : Vec2 K} (ha : Above o a) (hb : Above o b) (h0 : turn o a b = 0) (hn : norm2 o a ≤ norm2 o b) :
    ∃ t, 0 ≤ t ∧ t ≤ 1 ∧ a.x = o.x + t * (b.x - o.x) ∧ a.y = o.y + t * (b.y - o.y) := by
  by_cases hbo : b = o
  · subst hbo
    have : a = b := norm2_eq_zero.1 (le_antisymm (hn.trans (le_of_eq (norm2_eq_zero.2 rfl))) (norm2_nonneg _ _))
    subst this
    exact ⟨0, le_refl _, zero_le_one, by ring, by ring⟩
  · have hpos : 0 < norm2 o b := lt_of_le_of_ne (norm2_nonneg _ _) (fun h => hbo (norm2_eq_zero.1 h.symm))
    obtain ⟨t, ht⟩ : ∃ t, t * norm2 o b = (a.x - o.x) * (b.x - o.x) + (a.y - o.y) * (b.y - o.y) :=
      ⟨_, div_mul_cancel₀ _ hpos.ne'⟩
    have ex : a.x = o.x + t * (b.x - o.x) := by
      apply mul_right_cancel₀ hpos.ne'
      unfold turn at h0; unfold norm2 at *
      linear_combination -(b.x - o.x) * ht + (-(b.y - o.y)) * h0 * (-1)
    have ey : a.y = o.y + t * (b.y - o.y) := by
      apply mul_right_cancel₀ hpos.ne'
      unfold turn at h0; unfold norm2 at *
      linear_combination -(b.y - o.y) * ht + (-(b.x - o.x)) * h0
    have e2 : norm2 o a = t * t * norm2 o b := by unfold norm2; rw [ex, ey]; ring
    have t0 : 0 ≤ t := by
      by_contra hneg
      rw [not_le] at hneg
      rcases hb with hb | ⟨hb, hb'⟩
      · have := mul_neg_of_neg_of_pos hneg (sub_pos.2 hb)
        rcases ha with ha | ⟨ha, _⟩ <;> linarith
      · have hx : 0 < b.x - o.x := by
          rcases hb'.lt_or_eq with h | h
          · linarith
          · exact absurd (Vec2.ext h.symm hb.symm) hbo
        have h3 := mul_neg_of_neg_of_pos hneg hx
        have : t * (b.y - o.y) = 0 := by rw [hb]; ring
        rcases ha with ha | ⟨_, ha⟩ <;> linarith
    refine ⟨t, t0, ?_, ex, ey⟩
    by_contra h1
    rw [not_le] at h1
    have h2 : 1 < t * t := by nlinarith
    have := mul_lt_mul_of_pos_right h2 hpos
    linarith

/-- If the middle of three points in angular order is not a left turn, it is in the triangle with `o`. -/
theorem in_triangle {o n t q : Vec2 K} (h1 : 0 < turn o n t) (h2 : 0 < turn o t q) (h3 : 0 < turn o n q) (h : turn n t q ≤ 0) :
    InHull2 [o, n, q] t := by
  obtain ⟨α, ha⟩ : ∃ α, α * turn o n q = turn o t q := ⟨_, div_mul_cancel₀ _ h3.ne'⟩
  obtain ⟨β, hb⟩ : ∃ β, β * turn o n q = turn o n t := ⟨_, div_mul_cancel₀ _ h3.ne'⟩
  have e : turn n t q = turn o n t + turn o t q - turn o n q := by unfold turn; ring
  have a0 : 0 ≤ α := ((mul_pos_iff_of_pos_right h3).1 (by rw [ha]; exact h2)).le
  have b0 : 0 ≤ β := ((mul_pos_iff_of_pos_right h3).1 (by rw [hb]; exact h1)).le
  have hs : α + β ≤ 1 := by
    by_contra hc
    rw [not_le] at hc
    have := mul_lt_mul_of_pos_right hc h3
    linarith [add_mul α β (turn o n q)]
  refine hull2_three (1 - α - β) α β (by linarith) a0 b0 (by ring) ?_ ?_
  · apply mul_right_cancel₀ h3.ne'
    have : t.x * turn o n q = o.x * turn o n q + turn o t q * (n.x - o.x) + turn o n t * (q.x - o.x) := by
      linear_combination turn_x o n t q
    rw [this, ← ha, ← hb]; ring
  · apply mul_right_cancel₀ h3.ne'
    have : t.y * turn o n q = o.y * turn o n q + turn o t q * (n.y - o.y) + turn o n t * (q.y - o.y) := by
      linear_combination turn_y o n t q
    rw [this, ← ha, ← hb]; ring

end Cmm.Geom

namespace Cmm.Hull2d
open Cmm.Geom
variable {K : Type} [Field K] [LinearOrder K] [IsStrictOrderedRing K]

theorem eps_eq : (eps : K) = 1 / 10 ^ 9 := by simp only [eps]; push_cast; norm_num

theorem eps_pos : (0 : K) < eps := by rw [eps_eq]; positivity

omit [IsStrictOrderedRing K] in
theorem absA_abs (x : K) : Nurbs.absA x = |x| := by rw [Nurbs.absA, ← abs_eq_max_neg]

/-- What `orientation` says about a triangle that is flat or large enough. -/
theorem orientation_iff {p q r : Vec2 K} (h : turn p q r = 0 ∨ eps ≤ |turn p q r|) :
    (orientation p q r = 0 ↔ turn p q r = 0) ∧ (orientation p q r = 2 ↔ 0 < turn p q r) := by
  have e : (q.y - p.y) * (r.x - q.x) - (q.x - p.x) * (r.y - q.y) = -turn p q r := by unfold turn; ring
  unfold orientation
  dsimp only
  rw [e, absA_abs, abs_neg]
  have he := eps_pos (K := K)
  split
  · rename_i h1
    have h0 : turn p q r = 0 := by
      rcases h with h | h
      · exact h
      · exact absurd h1 (not_lt.2 h)
    simp [h0]
  · rename_i h1
    have h0 : turn p q r ≠ 0 := by
      intro h0
      rw [h0, abs_zero] at h1
      exact h1 he
    split
    · rename_i h2
      simp only [h0, iff_self, OfNat.one_ne_ofNat, false_iff, not_lt, one_ne_zero, true_and]
      linarith
    · rename_i h2
      simp only [h0, OfNat.ofNat_ne_zero, true_and, true_iff]
      rw [not_lt] at h2
      exact lt_of_le_of_ne (by linarith) (Ne.symm h0)

/-- The exact form of the comparator. -/
theorem comparator_iff {o a b : Vec2 K} (h : turn o a b = 0 ∨ eps ≤ |turn o a b|) :
    comparator o a b = true ↔ 0 < turn o a b ∨ (turn o a b = 0 ∧ norm2 o a < norm2 o b) := by
  obtain ⟨h0, h2⟩ := orientation_iff h
  unfold comparator
  dsimp only
  split
  · rename_i hz
    have := h0.1 hz
    simp only [decide_eq_true_eq, this, lt_irrefl, true_and, false_or]
    rfl
  · rename_i hz
    rw [decide_eq_true_iff, h2]
    constructor
    · exact Or.inl
    · rintro (h | ⟨h, _⟩)
      · exact h
      · exact absurd (h0.2 h) hz

theorem lt_trans_pts {o a b c : Vec2 K} (ha : Above o a) (hb : Above o b) (hc : Above o c)
    (h1 : 0 < turn o a b ∨ (turn o a b = 0 ∧ norm2 o a < norm2 o b)) (h2 : 0 < turn o b c ∨ (turn o b c = 0 ∧ norm2 o b < norm2 o c)) :
    0 < turn o a c ∨ (turn o a c = 0 ∧ norm2 o a < norm2 o c) := by
  rcases h1 with h1 | ⟨h1, n1⟩ <;> rcases h2 with h2 | ⟨h2, n2⟩
  · exact Or.inl (turn_trans ha hb hc h1 h2)
  · -- b is on the segment from o to c and not o
    obtain ⟨t, t0, t1, ex, ey⟩ := on_ray hb hc h2 n2.le
    left
    have e : turn o a b = t * turn o a c := by unfold turn; rw [ex, ey]; ring
    rw [e] at h1
    by_contra hn
    rw [not_lt] at hn
    have := mul_nonpos_of_nonneg_of_nonpos t0 hn
    linarith
  · obtain ⟨t, t0, t1, ex, ey⟩ := on_ray ha hb h1 n1.le
    have e : turn o a c = t * turn o b c := by unfold turn; rw [ex, ey]; ring
    rcases t0.lt_or_eq with h | h
    · left; rw [e]; exact mul_pos h h2
    · right
      subst h
      have hao : a = o := by ext <;> [rw [ex]; rw [ey]] <;> ring
      refine ⟨by rw [e]; ring, ?_⟩
      rw [norm2_eq_zero.2 hao]
      apply lt_of_le_of_ne (norm2_nonneg _ _)
      intro hc0
      have hco := norm2_eq_zero.1 hc0.symm
      rw [hco] at h2
      have : turn o b o = 0 := by unfold turn; ring
      linarith
  · obtain ⟨t, t0, t1, ex, ey⟩ := on_ray ha hb h1 n1.le
    right
    refine ⟨?_, n1.trans n2⟩
    have e : turn o a c = t * turn o b c := by unfold turn; rw [ex, ey]; ring
    rw [e, h2, mul_zero]

/-- Two points neither of which comes first are the same point. -/
theorem incomp_eq {o a b : Vec2 K} (ha : Above o a) (hb : Above o b)
    (h1 : ¬ (0 < turn o a b ∨ (turn o a b = 0 ∧ norm2 o a < norm2 o b))) (h2 : ¬ (0 < turn o b a ∨ (turn o b a = 0 ∧ norm2 o b < norm2 o a))) :
    a = b := by
  rw [turn_anti o a b] at h2
  push Not at h1 h2
  have h0 : turn o a b = 0 := le_antisymm h1.1 (by linarith [h2.1])
  have n1 := h1.2 h0
  have n2 := h2.2 (by rw [h0, neg_zero])
  obtain ⟨t, t0, t1, ex, ey⟩ := on_ray ha hb h0 n2
  obtain ⟨s, s0, s1, fx, fy⟩ := on_ray hb ha (by rw [turn_anti, h0, neg_zero]) n1
  have e : norm2 o a = t * t * norm2 o b := by unfold norm2; rw [ex, ey]; ring
  have e' : norm2 o a = norm2 o b := le_antisymm n2 n1
  by_cases hz : norm2 o b = 0
  · rw [norm2_eq_zero.1 hz, norm2_eq_zero.1 (e'.trans hz)]
  · have : t * t = 1 := mul_right_cancel₀ hz (by rw [← e, e', one_mul])
    have ht : t = 1 := le_antisymm t1 (by nlinarith)
    subst ht
    ext
    · rw [ex]; ring
    · rw [ey]; ring

/-- On points above `o` that are resolved the comparator is a strict weak ordering. -/
theorem comparator_strictWeak {o : Vec2 K} {l : List (Vec2 K)} (ha : ∀ q ∈ l, Above o q)
    (hr : ∀ a ∈ l, ∀ b ∈ l, turn o a b = 0 ∨ eps ≤ |turn o a b|) : StrictWeak (comparator o) l where
  irrefl a h := by
    rw [← Bool.not_eq_true, comparator_iff (hr a h a h), turn_self]
    simp
  trans a h1 b h2 c h3 h4 h5 := by
    rw [comparator_iff (hr a h1 b h2)] at h4
    rw [comparator_iff (hr b h2 c h3)] at h5
    rw [comparator_iff (hr a h1 c h3)]
    exact lt_trans_pts (ha a h1) (ha b h2) (ha c h3) h4 h5
  incomp a h1 b h2 c h3 h4 h5 h6 h7 := by
    rw [← Bool.not_eq_true, comparator_iff (hr a h1 b h2)] at h4
    rw [← Bool.not_eq_true, comparator_iff (hr b h2 a h1)] at h5
    have := incomp_eq (ha a h1) (ha b h2) h4 h5
    subst this
    exact ⟨h6, h7⟩

/-- Later points of the sorted list come after the earlier ones in angle, or in distance. -/
def Sorted (o : Vec2 K) (l : List (Vec2 K)) : Prop :=
  l.Pairwise fun a b => 0 ≤ turn o a b ∧ (turn o a b = 0 → norm2 o a ≤ norm2 o b)

theorem farthest_spec {o : Vec2 K} : ∀ (l : List (Vec2 K)), (∀ q ∈ l, Above o q) →
    (∀ a ∈ l, ∀ b ∈ l, turn o a b = 0 ∨ eps ≤ |turn o a b|) → Sorted o l →
    (∀ d ∈ farthest o l, d ∈ l) ∧ (farthest o l).Pairwise (fun a b => 0 < turn o a b) ∧
      ∀ p ∈ l, ∃ d ∈ farthest o l, InHull2 [o, o, d] p
  | [], _, _, _ => by simp [farthest]
  | [a], _, _, _ => by
    refine ⟨by simp [farthest], by simp [farthest], fun p hp => ?_⟩
    simp only [List.mem_cons, List.not_mem_nil, or_false] at hp
    subst hp
    exact ⟨p, by simp [farthest], hull2_mem (by simp)⟩
  | a :: b :: l, ha, hr, hs => by
    obtain ⟨i1, i2, i3⟩ := farthest_spec (b :: l) (fun q hq => ha q (List.mem_cons_of_mem _ hq))
      (fun x hx y hy => hr x (List.mem_cons_of_mem _ hx) y (List.mem_cons_of_mem _ hy)) (List.Pairwise.tail hs)
    have hab := List.rel_of_pairwise_cons hs (a := a) (a' := b) List.mem_cons_self
    obtain ⟨h0, -⟩ := orientation_iff (hr a List.mem_cons_self b (by simp))
    unfold farthest
    split
    · rename_i hz
      have hz := h0.1 hz
      refine ⟨fun d hd => List.mem_cons_of_mem _ (i1 d hd), i2, fun p hp => ?_⟩
      rcases List.mem_cons.1 hp with rfl | hp
      · obtain ⟨d, hd, hb⟩ := i3 b List.mem_cons_self
        refine ⟨d, hd, ?_⟩
        obtain ⟨t, t0, t1, ex, ey⟩ := on_ray (ha p List.mem_cons_self) (ha b (by simp)) hz (hab.2 hz)
        have : InHull2 [o, o, b] p := hull2_three (1 - t) 0 t (by linarith) le_rfl t0 (by ring) (by rw [ex]; ring) (by rw [ey]; ring)
        refine hull2_mono (fun v hv => ?_) this
        simp only [List.mem_cons, List.not_mem_nil, or_false] at hv
        rcases hv with rfl | rfl | rfl
        · exact hull2_mem (by simp)
        · exact hull2_mem (by simp)
        · exact hb
      · exact i3 p hp
    · rename_i hz
      have hpos : 0 < turn o a b := lt_of_le_of_ne hab.1 (fun h => hz (h0.2 h.symm))
      refine ⟨fun d hd => ?_, ?_, fun p hp => ?_⟩
      · rcases List.mem_cons.1 hd with rfl | hd
        · exact List.mem_cons_self
        · exact List.mem_cons_of_mem _ (i1 d hd)
      · refine List.pairwise_cons.2 ⟨fun d hd => ?_, i2⟩
        rcases List.mem_cons.1 (i1 d hd) with rfl | hdl
        · exact hpos
        · have hbd := List.rel_of_pairwise_cons (List.Pairwise.tail hs) hdl
          have Ha := ha a List.mem_cons_self
          have Hb := ha b (by simp)
          have Hd := ha d (by simp [hdl])
          rcases hbd.1.lt_or_eq with h | h
          · exact turn_trans Ha Hb Hd hpos h
          · obtain ⟨t, t0, t1, ex, ey⟩ := on_ray Hb Hd h.symm (hbd.2 h.symm)
            have e : turn o a b = t * turn o a d := by unfold turn; rw [ex, ey]; ring
            by_contra hn
            rw [not_lt] at hn
            have := mul_nonpos_of_nonneg_of_nonpos t0 hn
            linarith
      · rcases List.mem_cons.1 hp with rfl | hp
        · exact ⟨p, List.mem_cons_self, hull2_mem (by simp)⟩
        · obtain ⟨d, hd, h⟩ := i3 p hp
          exact ⟨d, List.mem_cons_of_mem _ hd, h⟩

/-- The stack, listed from its top, is convex. -/
def Conv (s : List (Vec2 K)) : Prop := ∀ a b c, [c, b, a].Sublist s → 0 < turn a b c

omit [IsStrictOrderedRing K] in
theorem conv_sub {s s' : List (Vec2 K)} (h : Conv s) (hs : s'.Sublist s) : Conv s' := fun a b c h' => h a b c (h'.trans hs)

theorem conv_push {o t n q : Vec2 K} {T : List (Vec2 K)} (hc : Conv (t :: n :: T ++ [o])) (hq : ∀ v ∈ t :: n :: T, 0 < turn o v q)
    (h : 0 < turn n t q) : Conv (q :: (t :: n :: T ++ [o])) := by
  have key : ∀ b ∈ n :: T, 0 < turn b t q := by
    intro b hb
    rcases List.mem_cons.1 hb with rfl | hb
    · exact h
    · have s1 : [t, n, b].Sublist (t :: n :: T ++ [o]) := by
        simp only [List.cons_append]
        exact ((List.singleton_sublist.2 (List.mem_append_left _ hb)).cons_cons _).cons_cons _
      have s2 : [n, b, o].Sublist (t :: n :: T ++ [o]) := by
        simp only [List.cons_append]
        exact List.Sublist.cons _ (List.Sublist.cons_cons _ (List.Sublist.append (List.singleton_sublist.2 hb) (List.Sublist.refl [o])))
      have s3 : [t, n, o].Sublist (t :: n :: T ++ [o]) := by
        simp only [List.cons_append]
        exact List.Sublist.cons_cons _ (List.Sublist.cons_cons _ (List.singleton_sublist.2 (by simp)))
      have s4 : [t, b, o].Sublist (t :: n :: T ++ [o]) := by
        simp only [List.cons_append]
        exact List.Sublist.cons_cons _ (List.Sublist.cons _ (List.Sublist.append (List.singleton_sublist.2 hb) (List.Sublist.refl [o])))
      exact turn_acd (o := o) (hc _ _ _ s4) (hc _ _ _ s3) (hq t (by simp)) (hc _ _ _ s1) h
  intro a b c hs
  cases hs with
  | cons _ hs => exact hc a b c hs
  | cons_cons _ hs =>
    rw [List.sublist_append_iff] at hs
    obtain ⟨l1, l2, e, h1, h2⟩ := hs
    match l1, e, h1 with
    | [], e, h1 =>
      rw [List.nil_append] at e
      subst e
      have := h2.length_le
      simp at this
    | [x], e, h1 =>
      simp only [List.cons_append, List.nil_append, List.cons.injEq] at e
      obtain ⟨rfl, rfl⟩ := e
      have : a = o := by simpa using h2
      subst this
      exact hq b (List.singleton_sublist.1 h1)
    | [x, y], e, h1 =>
      simp only [List.cons_append, List.nil_append, List.cons.injEq] at e
      obtain ⟨rfl, rfl, -⟩ := e
      cases h1 with
      | cons _ h1 =>
        have ha : a ∈ n :: T := h1.subset (by simp)
        have hb : b ∈ n :: T := h1.subset (by simp)
        have s1 : [t, b, a].Sublist (t :: n :: T ++ [o]) := (h1.cons_cons t).trans (List.sublist_append_left _ _)
        have s2 : [b, a, o].Sublist (t :: n :: T ++ [o]) := (List.Sublist.cons _ h1).append (List.Sublist.refl [o])
        have s3 : [t, b, o].Sublist (t :: n :: T ++ [o]) :=
          List.Sublist.append (l₁ := [t, b]) ((List.singleton_sublist.2 hb).cons_cons t) (List.Sublist.refl [o])
        exact turn_abd (o := o) (hc _ _ _ s2) (hc _ _ _ s3) (hq b (List.mem_cons_of_mem _ hb)) (hc _ _ _ s1) (key b hb)
      | cons_cons _ h1 => exact key a (List.singleton_sublist.1 h1)
    | x :: y :: z :: l, e, h1 => simp at e

theorem pop_spec {o q : Vec2 K} : ∀ (T : List (Vec2 K)), T ≠ [] → Conv (T ++ [o]) → (∀ v ∈ T, 0 < turn o v q) →
    (∀ a ∈ T ++ [o], ∀ b ∈ T ++ [o], turn a b q = 0 ∨ eps ≤ |turn a b q|) →
    ∃ T' : List (Vec2 K), T' ≠ [] ∧ popWhile q (T ++ [o]) = T' ++ [o] ∧ T'.Sublist T ∧ Conv (q :: (T' ++ [o])) ∧
      ∀ v ∈ T ++ [o], InHull2 (q :: (T' ++ [o])) v
  | [], h, _, _, _ => absurd rfl h
  | [t], _, hc, hq, hr => by
    have ht := hq t (by simp)
    have := (orientation_iff (hr o (by simp) t (by simp))).2.2 ht
    refine ⟨[t], by simp, by simp [popWhile, this], List.Sublist.refl _, ?_, fun v hv => hull2_mem (List.mem_cons_of_mem _ hv)⟩
    intro a b c hs
    have e := List.Sublist.eq_of_length hs rfl
    simp only [List.cons_append, List.nil_append, List.cons.injEq, and_true] at e
    obtain ⟨rfl, rfl, rfl⟩ := e
    exact ht
  | t :: n :: T, _, hc, hq, hr => by
    have hor := (orientation_iff (hr n (by simp) t (by simp))).2
    simp only [List.cons_append, popWhile]
    split
    · rename_i hne
      have hle : turn n t q ≤ 0 := by
        rw [Ne, hor, not_lt] at hne
        exact hne
      obtain ⟨T', h1, h2, h3, h4, h5⟩ := pop_spec (o := o) (q := q) (n :: T) (by simp) (conv_sub hc (List.sublist_cons_self _ _))
        (fun v hv => hq v (List.mem_cons_of_mem _ hv))
        (fun a ha b hb => hr a (List.mem_cons_of_mem _ ha) b (List.mem_cons_of_mem _ hb))
      refine ⟨T', h1, h2, h3.cons _, h4, fun v hv => ?_⟩
      rcases List.mem_cons.1 hv with rfl | hv
      · have hnt : 0 < turn o n v := hc _ _ _ (by
          simp only [List.cons_append]
          exact List.Sublist.cons_cons _ (List.Sublist.cons_cons _ (List.singleton_sublist.2 (by simp))))
        refine hull2_mono (fun u hu => ?_) (in_triangle hnt (hq v (by simp)) (hq n (by simp)) hle)
        simp only [List.mem_cons, List.not_mem_nil, or_false] at hu
        rcases hu with rfl | rfl | rfl
        · exact h5 u (by simp)
        · exact h5 u (by simp)
        · exact hull2_mem (by simp)
      · exact h5 v hv
    · rename_i hne
      rw [not_not, hor] at hne
      exact ⟨t :: n :: T, by simp, rfl, List.Sublist.refl _, conv_push hc hq hne, fun v hv => hull2_mem (List.mem_cons_of_mem _ hv)⟩

theorem scan_spec {o : Vec2 K} : ∀ (l T : List (Vec2 K)), T ≠ [] → Conv (T ++ [o]) → l.Pairwise (fun a b => 0 < turn o a b) →
    (∀ v ∈ T, ∀ q ∈ l, 0 < turn o v q) →
    (∀ a ∈ T ++ o :: l, ∀ b ∈ T ++ o :: l, ∀ c ∈ T ++ o :: l, turn a b c = 0 ∨ eps ≤ |turn a b c|) →
    ∃ T' : List (Vec2 K), T' ≠ [] ∧ scan l (T ++ [o]) = T' ++ [o] ∧ Conv (T' ++ [o]) ∧ (∀ v ∈ T', v ∈ T ∨ v ∈ l) ∧
      (∀ v, v ∈ T ++ [o] ∨ v ∈ l → InHull2 (T' ++ [o]) v) ∧ (2 ≤ T.length ∨ l ≠ [] → 2 ≤ T'.length)
  | [], T, hT, hc, _, _, _ =>
    ⟨T, hT, rfl, hc, fun v hv => Or.inl hv, fun v hv => hull2_mem (by simpa using hv), fun h => by simpa using h⟩
  | q :: l, T, hT, hc, hp, hq, hr => by
    obtain ⟨T1, n1, e1, s1, c1, i1⟩ := pop_spec (o := o) (q := q) T hT hc (fun v hv => hq v hv q List.mem_cons_self)
      (fun a ha b hb => hr a (by simp at ha ⊢; tauto) b (by simp at hb ⊢; tauto) q (by simp))
    rw [List.pairwise_cons] at hp
    obtain ⟨T', n2, e2, c2, m2, i2, g2⟩ := scan_spec (o := o) l (q :: T1) (by simp) c1 hp.2
      (fun v hv q' hq' => by
        rcases List.mem_cons.1 hv with rfl | hv
        · exact hp.1 q' hq'
        · exact hq v (s1.subset hv) q' (List.mem_cons_of_mem _ hq'))
      (fun a ha b hb c hc' => by
        have hm : ∀ x ∈ q :: T1 ++ o :: l, x ∈ T ++ o :: q :: l := by
          intro x hx
          simp only [List.cons_append, List.mem_cons, List.mem_append] at hx ⊢
          rcases hx with h | h | h | h
          · simp [h]
          · exact Or.inl (s1.subset h)
          · simp [h]
          · simp [h]
        exact hr a (hm a ha) b (hm b hb) c (hm c hc'))
    refine ⟨T', n2, ?_, c2, ?_, ?_, ?_⟩
    · rw [scan, e1]; exact e2
    · intro v hv
      rcases m2 v hv with h | h
      · rcases List.mem_cons.1 h with rfl | h
        · exact Or.inr List.mem_cons_self
        · exact Or.inl (s1.subset h)
      · exact Or.inr (List.mem_cons_of_mem _ h)
    · intro v hv
      rcases hv with hv | hv
      · exact hull2_mono (fun u hu => i2 u (Or.inl hu)) (i1 v hv)
      · rcases List.mem_cons.1 hv with rfl | hv
        · exact i2 v (Or.inl (by simp))
        · exact i2 v (Or.inr hv)
    · intro _
      apply g2
      left
      have := List.length_pos_iff.2 n1
      simp; omega

end Cmm.Hull2d
