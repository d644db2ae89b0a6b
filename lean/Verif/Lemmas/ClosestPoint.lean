import Verif.Model.ClosestPoint
import Verif.Spec.Geometry
import Mathlib.Tactic.LinearCombination
import Mathlib.Tactic.FieldSimp
import Mathlib.Tactic.Linarith
import Mathlib.Tactic.Ring
import Mathlib.Tactic.Set
/-!
Lemmas for cmmcore/closest_point.h.
-/
namespace Cmm.Geom
variable {K : Type} [Field K] [LinearOrder K] [IsStrictOrderedRing K]

omit [IsStrictOrderedRing K] [LinearOrder K] in
theorem nanDiv_some [DecidableEq K] {x y : K} (h : y ≠ 0) : (if y = 0 then none else some (x / y)) = some (x / y) := if_neg h

omit [IsStrictOrderedRing K] in
theorem nanDiv_eq {x y : K} (h : y ≠ 0) : nanDiv x y = some (x / y) := if_neg h

theorem sqLength_nonneg (a : Vec3 K) : 0 ≤ a.sqLength := by
  unfold Vec3.sqLength
  have := mul_self_nonneg a.x
  have := mul_self_nonneg a.y
  have := mul_self_nonneg a.z
  linarith

theorem sqLength_pos {a b : Vec3 K} (h : a ≠ b) : 0 < (b - a).sqLength := by
  refine lt_of_le_of_ne (sqLength_nonneg _) fun h0 => h ?_
  have h1 := mul_self_nonneg (b.x - a.x)
  have h2 := mul_self_nonneg (b.y - a.y)
  have h3 := mul_self_nonneg (b.z - a.z)
  simp only [Vec3.sqLength, Vec3.sub_x, Vec3.sub_y, Vec3.sub_z] at h0
  ext
  · have : (b.x - a.x) * (b.x - a.x) = 0 := by linarith
    rw [mul_self_eq_zero] at this; linarith
  · have : (b.y - a.y) * (b.y - a.y) = 0 := by linarith
    rw [mul_self_eq_zero] at this; linarith
  · have : (b.z - a.z) * (b.z - a.z) = 0 := by linarith
    rw [mul_self_eq_zero] at this; linarith

/-- A point `p` is the closest one to `o` if no direction from `p` to a point of the set turns towards `o`. -/
theorem closest_of_dot {S : Vec3 K → Prop} {o p : Vec3 K} (hp : S p)
    (h : ∀ q, S q → 0 ≤ (p - o).dot (q - p)) : Closest S o p := by
  refine ⟨hp, fun q hq => ?_⟩
  have h1 := h q hq
  simp only [Vec3.dot, Vec3.sub_x, Vec3.sub_y, Vec3.sub_z, sqDist] at h1 ⊢
  nlinarith [mul_self_nonneg (q.x - p.x), mul_self_nonneg (q.y - p.y), mul_self_nonneg (q.z - p.z)]

/-- The converse along a segment that stays in the set. -/
theorem dot_of_closest {S : Vec3 K → Prop} {o p q : Vec3 K} (h : Closest S o p)
    (hs : ∀ t, 0 < t → t ≤ 1 → S (along p q t)) : 0 ≤ (p - o).dot (q - p) := by
  by_contra hc
  rw [not_le] at hc
  have hd : 0 < (q - p).sqLength := by
    apply sqLength_pos
    rintro rfl
    simp [Vec3.dot] at hc
  have key : ∀ t, sqDist o (along p q t) = sqDist o p + 2 * t * (p - o).dot (q - p) + t * t * (q - p).sqLength := by
    intro t
    simp only [sqDist, along, Vec3.dot, Vec3.sqLength, Vec3.sub_x, Vec3.sub_y, Vec3.sub_z]; ring
  set g := (p - o).dot (q - p)
  set L := (q - p).sqLength
  by_cases hb : -g ≤ L
  · have h1 := h.2 _ (hs (-g / L) (div_pos (neg_pos.2 hc) hd) (by rw [div_le_one hd]; exact hb))
    rw [key] at h1
    have : 2 * (-g / L) * g + -g / L * (-g / L) * L = -(g * g / L) := by field_simp; ring
    have h2 : 0 < g * g / L := div_pos (mul_pos_of_neg_of_neg hc hc) hd
    linarith
  · have h1 := h.2 _ (hs 1 one_pos (le_refl _))
    rw [key] at h1
    linarith

theorem onTriangle_dot {a b c p o : Vec3 K} (ha : 0 ≤ (p - o).dot (a - p)) (hb : 0 ≤ (p - o).dot (b - p))
    (hc : 0 ≤ (p - o).dot (c - p)) (q : Vec3 K) (hq : OnTriangle a b c q) : 0 ≤ (p - o).dot (q - p) := by
  obtain ⟨u, v, w, hu, hv, hw, hs, rfl⟩ := hq
  have h1 := mul_nonneg hu ha
  have h2 := mul_nonneg hv hb
  have h3 := mul_nonneg hw hc
  have hu' : u = 1 - v - w := by linarith
  subst hu'
  simp only [Vec3.dot, Vec3.sub_x, Vec3.sub_y, Vec3.sub_z] at h1 h2 h3 ⊢
  nlinarith

/-- The plane case analysis of the triangle: a corner with squared edge lengths `A`, `C` and edge product `B`; a point whose
products with the edges are `d1 < 0` and `d2 > 0` and which is on the outer side of the first edge is covered by the second edge or
its far corner. -/
theorem region_false {A B C d1 d2 : K} (hA : 0 < A) (hN : 0 < A * C - B * B) (h1 : d1 < 0) (h2 : 0 < d2)
    (hvc : A * d2 - B * d1 ≤ 0) (he : ¬ (C * d1 - B * d2 ≤ 0 ∧ d2 - C ≤ 0)) (hv : ¬ (d2 - C ≥ 0 ∧ d1 - B ≤ d2 - C)) : False := by
  have hB : B < 0 := by
    by_contra hB
    rw [not_lt] at hB
    have := mul_pos hA h2
    have := mul_nonneg hB (neg_nonneg.2 h1.le)
    linarith
  have hvb : C * d1 - B * d2 < 0 := by
    have e : A * (C * d1 - B * d2) = (A * C - B * B) * d1 - B * (A * d2 - B * d1) := by ring
    have e1 := mul_neg_of_pos_of_neg hN h1
    have e2 := mul_nonneg_of_nonpos_of_nonpos hB.le hvc
    by_contra hcon
    rw [not_lt] at hcon
    have := mul_nonneg hA.le hcon
    linarith
  have h6 : 0 < d2 - C := by
    by_contra hc
    exact he ⟨hvb.le, not_lt.1 hc⟩
  have h5 : d2 - C < d1 - B := by
    by_contra hc
    exact hv ⟨h6.le, not_lt.1 hc⟩
  have h7 : 0 < d1 - B := by linarith
  have e1 := mul_pos hA h6
  have e2 := mul_pos_of_neg_of_neg hB h1
  have e3 := mul_pos (neg_pos.2 hB) h7
  nlinarith

/-- Optimality of the point `a + v ab + w ac` of the triangle from the two slopes `g1`, `g2` along the edges. -/
theorem tri_point {a b c : Vec3 K} {v w g1 g2 : K} (hv : 0 ≤ v) (hw : 0 ≤ w) (hvw : v + w ≤ 1)
    (h1 : g1 = -((b - a).dot (-a)) + v * (b - a).dot (b - a) + w * (b - a).dot (c - a))
    (h2 : g2 = -((c - a).dot (-a)) + v * (b - a).dot (c - a) + w * (c - a).dot (c - a))
    (ha : 0 ≤ -(v * g1 + w * g2)) (hb : 0 ≤ g1 - (v * g1 + w * g2)) (hc : 0 ≤ g2 - (v * g1 + w * g2)) :
    Closest (OnTriangle a b c) 0 (a + (b - a).smul v + (c - a).smul w) := by
  refine closest_of_dot ⟨1 - v - w, v, w, by linarith, hv, hw, by ring, ?_⟩ (onTriangle_dot ?_ ?_ ?_)
  · ext <;> simp only [Vec3.add_x, Vec3.add_y, Vec3.add_z, Vec3.sub_x, Vec3.sub_y, Vec3.sub_z, Vec3.smul_x, Vec3.smul_y, Vec3.smul_z] <;> ring
  all_goals
    simp only [Vec3.dot, Vec3.add_x, Vec3.add_y, Vec3.add_z, Vec3.sub_x, Vec3.sub_y, Vec3.sub_z, Vec3.smul_x, Vec3.smul_y, Vec3.smul_z,
      Vec3.neg_x, Vec3.neg_y, Vec3.neg_z, Vec3.zero_x, Vec3.zero_y, Vec3.zero_z] at *
    subst h1 h2
  · linear_combination ha
  · linear_combination hb
  · linear_combination hc

theorem gram_pos {a b c : Vec3 K} (h : ¬ Collinear a b c) :
    0 < (b - a).dot (b - a) * (c - a).dot (c - a) - (b - a).dot (c - a) * (b - a).dot (c - a) := by
  have e : (b - a).dot (b - a) * (c - a).dot (c - a) - (b - a).dot (c - a) * (b - a).dot (c - a) =
      ((b - a).cross (c - a)).sqLength := by
    simp only [Vec3.dot, Vec3.cross, Vec3.sqLength, Vec3.sub_x, Vec3.sub_y, Vec3.sub_z]; ring
  rw [e]
  refine lt_of_le_of_ne (sqLength_nonneg _) fun h0 => h ?_
  simp only [Vec3.cross, Vec3.sqLength, Vec3.sub_x, Vec3.sub_y, Vec3.sub_z] at h0
  have h1 := mul_self_nonneg ((b.y - a.y) * (c.z - a.z) - (b.z - a.z) * (c.y - a.y))
  have h2 := mul_self_nonneg ((b.z - a.z) * (c.x - a.x) - (b.x - a.x) * (c.z - a.z))
  have h3 := mul_self_nonneg ((b.x - a.x) * (c.y - a.y) - (b.y - a.y) * (c.x - a.x))
  refine ⟨sub_eq_zero.1 ?_, sub_eq_zero.1 ?_, sub_eq_zero.1 ?_⟩ <;> apply mul_self_eq_zero.1 <;> linarith

theorem dot_self_nonneg (a : Vec3 K) : 0 ≤ a.dot a := sqLength_nonneg a

/-- The face region: with every vertex and edge test failing, the three barycentric numerators are positive. -/
theorem face_pos {A B C d1 d2 : K} (hA : 0 < A) (hC : 0 < C) (hN : 0 < A * C - B * B)
    (r1 : ¬ (d1 ≤ 0 ∧ d2 ≤ 0)) (r2 : ¬ (d1 - A ≥ 0 ∧ d2 - B ≤ d1 - A)) (r3 : ¬ (A * d2 - B * d1 ≤ 0 ∧ d1 ≥ 0 ∧ d1 - A ≤ 0))
    (r4 : ¬ (d2 - C ≥ 0 ∧ d1 - B ≤ d2 - C)) (r5 : ¬ (C * d1 - B * d2 ≤ 0 ∧ d2 ≥ 0 ∧ d2 - C ≤ 0))
    (r6 : ¬ (A * C - B * B - (A * d2 - B * d1) - (C * d1 - B * d2) ≤ 0 ∧ d2 - B - (d1 - A) ≥ 0 ∧ d1 - B - (d2 - C) ≥ 0)) :
    0 < A * d2 - B * d1 ∧ 0 < C * d1 - B * d2 ∧ 0 < A * C - B * B - (A * d2 - B * d1) - (C * d1 - B * d2) := by
  have hD : 0 < A - 2 * B + C := by
    by_contra hD
    rw [not_lt] at hD
    have hAC := mul_pos hA hC
    nlinarith [mul_self_nonneg (A - C)]
  refine ⟨?_, ?_, ?_⟩
  · by_contra hc
    rw [not_lt] at hc
    by_cases h1 : d1 < 0
    · have h2 : 0 < d2 := by by_contra h2; exact r1 ⟨h1.le, not_lt.1 h2⟩
      exact region_false hA hN h1 h2 hc (fun h => r5 ⟨h.1, h2.le, h.2⟩) r4
    · rw [not_lt] at h1
      have h3 : 0 < d1 - A := by by_contra h3; exact r3 ⟨hc, h1, not_lt.1 h3⟩
      have h4 : d1 - A < d2 - B := by by_contra h4; exact r2 ⟨h3.le, not_lt.1 h4⟩
      refine region_false (A := A) (B := A - B) (C := A - 2 * B + C) (d1 := -(d1 - A)) (d2 := d2 - B - (d1 - A)) hA ?_ ?_ ?_ ?_ ?_ ?_
      · linear_combination hN
      · linarith
      · linarith
      · linear_combination hc
      · rintro ⟨g1, g2⟩
        exact r6 ⟨by linear_combination g1, by linarith, by linarith⟩
      · rintro ⟨g1, g2⟩
        exact r4 ⟨by linarith, by linarith⟩
  · by_contra hc
    rw [not_lt] at hc
    by_cases h1 : d2 < 0
    · have h2 : 0 < d1 := by by_contra h2; exact r1 ⟨not_lt.1 h2, h1.le⟩
      exact region_false (B := B) hC (by linarith) h1 h2 hc (fun h => r3 ⟨h.1, h2.le, h.2⟩) r2
    · rw [not_lt] at h1
      have h3 : 0 < d2 - C := by by_contra h3; exact r5 ⟨hc, h1, not_lt.1 h3⟩
      have h4 : d2 - C < d1 - B := by by_contra h4; exact r4 ⟨h3.le, not_lt.1 h4⟩
      refine region_false (A := C) (B := C - B) (C := A - 2 * B + C) (d1 := -(d2 - C)) (d2 := d1 - B - (d2 - C)) hC ?_ ?_ ?_ ?_ ?_ ?_
      · linear_combination hN
      · linarith
      · linarith
      · linear_combination hc
      · rintro ⟨g1, g2⟩
        exact r6 ⟨by linear_combination g1, by linarith, by linarith⟩
      · rintro ⟨g1, g2⟩
        exact r2 ⟨by linarith, by linarith⟩
  · by_contra hc
    rw [not_lt] at hc
    by_cases h1 : d2 - B - (d1 - A) < 0
    · have h3 : 0 < -(d1 - A) := by by_contra h3; exact r2 ⟨by linarith, by linarith⟩
      refine region_false (A := A - 2 * B + C) (B := A - B) (C := A) (d1 := d2 - B - (d1 - A)) (d2 := -(d1 - A)) hD ?_ h1 h3 ?_ ?_ ?_
      · linear_combination hN
      · linear_combination hc
      · rintro ⟨g1, g2⟩
        exact r3 ⟨by linear_combination g1, by linarith, by linarith⟩
      · rintro ⟨g1, g2⟩
        exact r1 ⟨by linarith, by linarith⟩
    · rw [not_lt] at h1
      have h2 : d1 - B - (d2 - C) < 0 := by by_contra h2; exact r6 ⟨hc, h1, not_lt.1 h2⟩
      have h3 : 0 < -(d2 - C) := by by_contra h3; exact r4 ⟨by linarith, by linarith⟩
      refine region_false (A := A - 2 * B + C) (B := C - B) (C := C) (d1 := d1 - B - (d2 - C)) (d2 := -(d2 - C)) hD ?_ h2 h3 ?_ ?_ ?_
      · linear_combination hN
      · linear_combination hc
      · rintro ⟨g1, g2⟩
        exact r5 ⟨by linear_combination g1, by linarith, by linarith⟩
      · rintro ⟨g1, g2⟩
        exact r1 ⟨by linarith, by linarith⟩

/-- The triangle algorithm is correct for every triangle that is not degenerate. -/
theorem closestPointOnTriangle_spec {a b c : Vec3 K} (h : ¬ Collinear a b c) :
    ∃ p, closestPointOnTriangle a b c = some p ∧ Closest (OnTriangle a b c) 0 p := by
  have hN := gram_pos h
  have hA : 0 < (b - a).dot (b - a) := by
    refine lt_of_le_of_ne (dot_self_nonneg _) fun h0 => ?_
    rw [← h0, zero_mul] at hN
    nlinarith [mul_self_nonneg ((b - a).dot (c - a))]
  have hC : 0 < (c - a).dot (c - a) := by
    refine lt_of_le_of_ne (dot_self_nonneg _) fun h0 => ?_
    rw [← h0, mul_zero] at hN
    nlinarith [mul_self_nonneg ((b - a).dot (c - a))]
  have e3 : (b - a).dot (-b) = (b - a).dot (-a) - (b - a).dot (b - a) := by simp only [Vec3.dot, Vec3.sub_x, Vec3.sub_y, Vec3.sub_z, Vec3.neg_x, Vec3.neg_y, Vec3.neg_z]; ring
  have e4 : (c - a).dot (-b) = (c - a).dot (-a) - (b - a).dot (c - a) := by simp only [Vec3.dot, Vec3.sub_x, Vec3.sub_y, Vec3.sub_z, Vec3.neg_x, Vec3.neg_y, Vec3.neg_z]; ring
  have e5 : (b - a).dot (-c) = (b - a).dot (-a) - (b - a).dot (c - a) := by simp only [Vec3.dot, Vec3.sub_x, Vec3.sub_y, Vec3.sub_z, Vec3.neg_x, Vec3.neg_y, Vec3.neg_z]; ring
  have e6 : (c - a).dot (-c) = (c - a).dot (-a) - (c - a).dot (c - a) := by simp only [Vec3.dot, Vec3.sub_x, Vec3.sub_y, Vec3.sub_z, Vec3.neg_x, Vec3.neg_y, Vec3.neg_z]; ring
  have key : ∀ v w g1 g2 : K, 0 ≤ v → 0 ≤ w → v + w ≤ 1 → _ := fun v w g1 g2 => tri_point (a := a) (b := b) (c := c) (v := v) (w := w) (g1 := g1) (g2 := g2)
  unfold closestPointOnTriangle
  dsimp only
  rw [e3, e4, e5, e6]
  revert hN hA hC key
  generalize (b - a).dot (b - a) = A
  generalize (c - a).dot (c - a) = C
  generalize (b - a).dot (c - a) = B
  generalize (b - a).dot (-a) = d1
  generalize (c - a).dot (-a) = d2
  intro hN hA hC key
  have evc : d1 * (d2 - B) - (d1 - A) * d2 = A * d2 - B * d1 := by ring
  have evb : (d1 - B) * d2 - d1 * (d2 - C) = C * d1 - B * d2 := by ring
  have eva : (d1 - A) * (d2 - C) - (d1 - B) * (d2 - B) = A * C - B * B - (A * d2 - B * d1) - (C * d1 - B * d2) := by ring
  rw [evc, evb, eva]
  have hD : 0 < A - 2 * B + C := by
    by_contra hD
    rw [not_lt] at hD
    have hAC := mul_pos hA hC
    nlinarith [mul_self_nonneg (A - C)]
  by_cases r1 : d1 ≤ 0 ∧ d2 ≤ 0
  · rw [if_pos r1]
    refine ⟨_, rfl, ?_⟩
    have := key 0 0 (-d1) (-d2) (le_refl _) (le_refl _) (by simp) (by ring) (by ring) (by simp) (by linarith [r1.1]) (by linarith [r1.2])
    rwa [show a + (b - a).smul 0 + (c - a).smul 0 = a by ext <;> simp] at this
  rw [if_neg r1]
  by_cases r2 : d1 - A ≥ 0 ∧ d2 - B ≤ d1 - A
  · rw [if_pos r2]
    refine ⟨_, rfl, ?_⟩
    have := key 1 0 (-d1 + A) (-d2 + B) zero_le_one (le_refl _) (by simp) (by ring) (by ring) (by linarith [r2.1]) (by linarith)
      (by linarith [r2.2])
    rwa [show a + (b - a).smul 1 + (c - a).smul 0 = b by ext <;> simp] at this
  rw [if_neg r2]
  by_cases r3 : A * d2 - B * d1 ≤ 0 ∧ d1 ≥ 0 ∧ d1 - A ≤ 0
  · rw [if_pos r3, nanDiv_eq (by linarith [hA.ne'])]
    refine ⟨_, rfl, ?_⟩
    rw [show d1 - (d1 - A) = A by ring]
    have := key (d1 / A) 0 0 ((B * d1 - A * d2) / A) (div_nonneg r3.2.1 hA.le) (le_refl _) (by
      rw [add_zero, div_le_one hA]; linarith [r3.2.2]) (by field_simp; ring) (by field_simp; ring) (by simp) (by simp)
      (by simp only [mul_zero, zero_mul, add_zero, sub_zero]; exact div_nonneg (by linarith [r3.1]) hA.le)
    rwa [show a + (b - a).smul (d1 / A) + (c - a).smul 0 = a + (b - a).smul (d1 / A) by ext <;> simp] at this
  rw [if_neg r3]
  by_cases r4 : d2 - C ≥ 0 ∧ d1 - B ≤ d2 - C
  · rw [if_pos r4]
    refine ⟨_, rfl, ?_⟩
    have := key 0 1 (-d1 + B) (-d2 + C) (le_refl _) zero_le_one (by simp) (by ring) (by ring) (by linarith [r4.1]) (by linarith [r4.2])
      (by linarith)
    rwa [show a + (b - a).smul 0 + (c - a).smul 1 = c by ext <;> simp] at this
  rw [if_neg r4]
  by_cases r5 : C * d1 - B * d2 ≤ 0 ∧ d2 ≥ 0 ∧ d2 - C ≤ 0
  · rw [if_pos r5, nanDiv_eq (by linarith [hC.ne'])]
    refine ⟨_, rfl, ?_⟩
    rw [show d2 - (d2 - C) = C by ring]
    have := key 0 (d2 / C) ((B * d2 - C * d1) / C) 0 (le_refl _) (div_nonneg r5.2.1 hC.le) (by
      rw [zero_add, div_le_one hC]; linarith [r5.2.2]) (by field_simp; ring) (by field_simp; ring) (by simp)
      (by simp only [mul_zero, zero_mul, add_zero, sub_zero]; exact div_nonneg (by linarith [r5.1]) hC.le) (by simp)
    rwa [show a + (b - a).smul 0 + (c - a).smul (d2 / C) = a + (c - a).smul (d2 / C) by ext <;> simp] at this
  rw [if_neg r5]
  by_cases r6 : A * C - B * B - (A * d2 - B * d1) - (C * d1 - B * d2) ≤ 0 ∧ d2 - B - (d1 - A) ≥ 0 ∧ d1 - B - (d2 - C) ≥ 0
  · have e : d2 - B - (d1 - A) + (d1 - B - (d2 - C)) = A - 2 * B + C := by ring
    rw [if_pos r6, e, nanDiv_eq hD.ne']
    refine ⟨_, rfl, ?_⟩
    obtain ⟨g1, g2, g3⟩ := r6
    have hw0 : 0 ≤ (d2 - B - (d1 - A)) / (A - 2 * B + C) := div_nonneg g2 hD.le
    have hw1 : (d2 - B - (d1 - A)) / (A - 2 * B + C) ≤ 1 := by rw [div_le_one hD]; linarith
    have hg : 0 ≤ (-(A * C - B * B - (A * d2 - B * d1) - (C * d1 - B * d2))) / (A - 2 * B + C) := div_nonneg (by linarith) hD.le
    have hg' : (A * C - B * B - (A * d2 - B * d1) - (C * d1 - B * d2)) / (A - 2 * B + C) ≤ 0 := by
      rw [neg_div] at hg; linarith
    generalize hE : A - 2 * B + C = E at *
    generalize hW : (d2 - B - (d1 - A)) / E = w at *
    have hw' : w * E = d2 - B - (d1 - A) := by rw [← hW]; field_simp
    generalize hG : (A * C - B * B - (A * d2 - B * d1) - (C * d1 - B * d2)) / E = g at *
    have hg2 : g * E = A * C - B * B - (A * d2 - B * d1) - (C * d1 - B * d2) := by rw [← hG]; field_simp
    have t1 : g = -d1 + (1 - w) * A + w * B := by
      apply mul_right_cancel₀ hD.ne'
      linear_combination hg2 + (A - B) * hw' - (d1 - A) * hE
    have t2 : g = -d2 + (1 - w) * B + w * C := by
      apply mul_right_cancel₀ hD.ne'
      linear_combination hg2 + (B - C) * hw' - (d2 - B) * hE
    have := key (1 - w) w g g (by linarith) hw0 (by linarith) t1 t2 (by linarith) (by linarith) (by linarith)
    rwa [show a + (b - a).smul (1 - w) + (c - a).smul w = b + (c - b).smul w by
      ext <;> simp only [Vec3.add_x, Vec3.add_y, Vec3.add_z, Vec3.sub_x, Vec3.sub_y, Vec3.sub_z, Vec3.smul_x, Vec3.smul_y, Vec3.smul_z] <;> ring]
      at this
  rw [if_neg r6]
  obtain ⟨f1, f2, f3⟩ := face_pos hA hC hN r1 r2 r3 r4 r5 r6
  have eN : A * C - B * B - (A * d2 - B * d1) - (C * d1 - B * d2) + (C * d1 - B * d2) + (A * d2 - B * d1) = A * C - B * B := by ring
  rw [eN, nanDiv_eq hN.ne']
  refine ⟨_, rfl, ?_⟩
  generalize hE : A * C - B * B = E at *
  have hq : 0 < 1 / E := div_pos one_pos hN
  have hqE : 1 / E * E = 1 := by field_simp
  generalize hQ : 1 / E = q at *
  refine key _ _ 0 0 (mul_nonneg f2.le hq.le) (mul_nonneg f1.le hq.le) ?_ ?_ ?_ (by simp) (by simp) (by simp)
  · have := mul_nonneg f3.le hq.le
    nlinarith
  · rw [← hE] at hqE; linear_combination (-d1) * hqE
  · rw [← hE] at hqE; linear_combination (-d2) * hqE

end Cmm.Geom
