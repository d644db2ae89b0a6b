import Verif.Lemmas.QuickFacets
import Verif.Lemmas.Hull
import Verif.Model.Hull3d
import Verif.Lemmas.Spherical
/-!
Quickhull on a list of points: what the facets are, for points of which no four are in a plane.
-/
namespace Cmm.Quick
open Cmm.Geom Cmm.Newton Cmm.Hull3d
variable {K : Type} [Field K] [LinearOrder K] [IsStrictOrderedRing K]

/-- The point at a place. -/
def at' (pts : List (Vec3 K)) (i : Nat) : Vec3 K := pts.getD i ⟨0, 0, 0⟩

omit [LinearOrder K] [IsStrictOrderedRing K] in
theorem at_some {pts : List (Vec3 K)} {i : Nat} {p : Vec3 K} (h : pts[i]? = some p) : at' pts i = p ∧ i < pts.length := by
  refine ⟨by rw [at', List.getD_eq_getElem?_getD, h]; rfl, ?_⟩
  exact (List.getElem?_eq_some_iff.mp h).1

omit [LinearOrder K] [IsStrictOrderedRing K] in
theorem at_lt {pts : List (Vec3 K)} {i : Nat} (h : i < pts.length) : pts[i]? = some (at' pts i) := by
  rw [at', List.getD_eq_getElem?_getD, List.getElem?_eq_getElem h]; rfl

omit [LinearOrder K] [IsStrictOrderedRing K] in
theorem at_mem {pts : List (Vec3 K)} {i : Nat} (h : i < pts.length) : at' pts i ∈ pts := List.mem_of_getElem? (at_lt h)

omit [LinearOrder K] [IsStrictOrderedRing K] in
theorem mem_at {pts : List (Vec3 K)} {p : Vec3 K} (h : p ∈ pts) : ∃ i < pts.length, at' pts i = p := by
  obtain ⟨i, hi⟩ := List.mem_iff_getElem?.mp h
  exact ⟨i, (at_some hi).2, (at_some hi).1⟩

theorem grid_of {pts : List (Vec3 K)} {b : ℤ} (h : IntegerPoints b pts) {i : Nat} (hi : i < pts.length) : Grid (b : K) (at' pts i) := by
  obtain ⟨x, y, z, e, hx, hy, hz⟩ := h _ (at_mem hi)
  rw [e]
  have c : ∀ t : ℤ, |t| ≤ b → |(t : K)| ≤ (b : K) := fun t ht => by rw [← Int.cast_abs]; exact Int.cast_le.mpr ht
  exact ⟨⟨x, rfl⟩, ⟨y, rfl⟩, ⟨z, rfl⟩, c x hx, c y hy, c z hz⟩

omit [IsStrictOrderedRing K] in
theorem gen_of {pts : List (Vec3 K)} (h : NoFourCoplanar pts) : Gen (at' pts) pts.length := by
  -- all orders of the four places
  have base : ∀ i j k l, i < j → j < k → k < l → l < pts.length → orient (at' pts i) (at' pts j) (at' pts k) (at' pts l) ≠ 0 := fun i j k l h1 h2 h3 h4 =>
    h i j k l _ _ _ _ (at_lt (by omega)) (at_lt (by omega)) (at_lt (by omega)) (at_lt h4) h1 h2 h3
  have last : ∀ i j k l, i < j → j < k → i < pts.length → j < pts.length → k < pts.length → l < pts.length → l ≠ i → l ≠ j → l ≠ k →
      orient (at' pts i) (at' pts j) (at' pts k) (at' pts l) ≠ 0 := by
    intro i j k l h1 h2 a1 a2 a3 a4 b1 b2 b3
    rcases Nat.lt_or_ge k l with c | c
    · exact base i j k l h1 h2 c a4
    rcases Nat.lt_or_ge j l with d | d
    · have := base i j l k h1 d (by omega) a3
      rwa [orient_last, neg_ne_zero] at this
    rcases Nat.lt_or_ge i l with e | e
    · have := base i l j k e (by omega) h2 a3
      intro hz; apply this
      have : orient (at' pts i) (at' pts l) (at' pts j) (at' pts k) = orient (at' pts i) (at' pts j) (at' pts k) (at' pts l) := by unfold orient; ring
      rw [this, hz]
    · have := base l i j k (by omega) h1 h2 a3
      intro hz; apply this
      have : orient (at' pts l) (at' pts i) (at' pts j) (at' pts k) = -orient (at' pts i) (at' pts j) (at' pts k) (at' pts l) := by unfold orient; ring
      rw [this, hz, neg_zero]
  intro vs hv hl p hp hne
  have n01 : vs 0 ≠ vs 1 := fun e => absurd (hv e) (by decide)
  have n12 : vs 1 ≠ vs 2 := fun e => absurd (hv e) (by decide)
  have n02 : vs 0 ≠ vs 2 := fun e => absurd (hv e) (by decide)
  have l0 := hl 0
  have l1 := hl 1
  have l2 := hl 2
  have p0 := hne 0
  have p1 := hne 1
  have p2 := hne 2
  unfold ov
  generalize vs 0 = i at *
  generalize vs 1 = j at *
  generalize vs 2 = k at *
  have sw : ∀ a b c d : Vec3 K, orient b a c d = 0 → orient a b c d = 0 := fun a b c d e => by rw [orient_swap, neg_eq_zero] at e; exact e
  have ro : ∀ a b c d : Vec3 K, orient b c a d = 0 → orient a b c d = 0 := fun a b c d e => by rw [orient_rot] at e; exact e
  intro hz
  rcases Nat.lt_or_gt_of_ne n01 with a | a <;> rcases Nat.lt_or_gt_of_ne n12 with b | b <;> rcases Nat.lt_or_gt_of_ne n02 with c | c
  · exact last i j k p a b l0 l1 l2 hp p0 p1 p2 hz
  · omega
  · exact last i k j p c b l0 l2 l1 hp p0 p2 p1 (sw _ _ _ _ (ro _ _ _ _ hz))
  · exact last k i j p c a l2 l0 l1 hp p2 p0 p1 (ro _ _ _ _ hz)
  · exact last j i k p a c l1 l0 l2 hp p1 p0 p2 (sw _ _ _ _ hz)
  · exact last j k i p b c l1 l2 l0 hp p1 p2 p0 (ro _ _ _ _ (ro _ _ _ _ hz))
  · omega
  · exact last k j i p b a l2 l1 l0 hp p2 p1 p0 (sw _ _ _ _ (ro _ _ _ _ (ro _ _ _ _ hz)))

theorem good_of {pts : List (Vec3 K)} (hn : 4 ≤ pts.length) (hi : IntegerPoints 10000000 pts) (hc : NoFourCoplanar pts) :
    Good (1 / 2 ^ 52 : K) 10000000 (at' pts) pts.length :=
  ⟨hn, gen_of hc, fun p hp => by have := grid_of hi hp; simpa using this, by positivity, by norm_num, by norm_num⟩

theorem par_of_cross {r d : Vec3 K} (hr : 0 < r.sqLength) (h : r.cross d = ⟨0, 0, 0⟩) : d = r.smul (r.dot d / r.sqLength) := by
  have hx := congrArg Vec3.x h
  have hy := congrArg Vec3.y h
  have hz := congrArg Vec3.z h
  simp only [Vec3.cross] at hx hy hz
  have hne := hr.ne'
  ext
  all_goals
    simp only [Vec3.smul]
    rw [mul_div_assoc', eq_div_iff hne]
    simp only [Vec3.dot, Vec3.sqLength]
  · linear_combination r.z * hy - r.y * hz
  · linear_combination r.x * hz - r.z * hx
  · linear_combination r.y * hx - r.x * hy

omit [LinearOrder K] [IsStrictOrderedRing K] in
theorem orient_par {a r p q s v : Vec3 K} {t0 t1 t2 : K} (e0 : p - a = r.smul t0) (e1 : q - a = r.smul t1) (e2 : s - a = r.smul t2) : orient p q s v = 0 := by
  have k : ∀ {x : Vec3 K} {t : K}, x - a = r.smul t → x.x = a.x + r.x * t ∧ x.y = a.y + r.y * t ∧ x.z = a.z + r.z * t := by
    intro x t e
    have hx := congrArg Vec3.x e
    have hy := congrArg Vec3.y e
    have hz := congrArg Vec3.z e
    simp only [Vec3.sub_x, Vec3.sub_y, Vec3.sub_z, Vec3.smul] at hx hy hz
    exact ⟨by linear_combination hx, by linear_combination hy, by linear_combination hz⟩
  obtain ⟨x0, y0, z0⟩ := k e0
  obtain ⟨x1, y1, z1⟩ := k e1
  obtain ⟨x2, y2, z2⟩ := k e2
  unfold orient
  rw [x0, y0, z0, x1, y1, z1, x2, y2, z2]
  ring

/-- Four points of one plane. -/
theorem orient_coplanar {a b c p q s v : Vec3 K} (hn : 0 < (normal a b c).sqLength) (hp : orient a b c p = 0) (hq : orient a b c q = 0) (hs : orient a b c s = 0)
    (hv : orient a b c v = 0) : orient p q s v = 0 := by
  rw [orient_normal] at hp hq hs hv
  set m := normal a b c with hm
  simp only [Vec3.dot, Vec3.sub_x, Vec3.sub_y, Vec3.sub_z] at hp hq hs hv
  simp only [Vec3.sqLength] at hn
  -- the normal of `p q s` is along `m`, times the square length
  have key : (m.x * m.x + m.y * m.y + m.z * m.z) * orient p q s v = 0 := by
    have e1 : m.x * (q.x - p.x) + m.y * (q.y - p.y) + m.z * (q.z - p.z) = 0 := by linear_combination hq - hp
    have e2 : m.x * (s.x - p.x) + m.y * (s.y - p.y) + m.z * (s.z - p.z) = 0 := by linear_combination hs - hp
    have e3 : m.x * (v.x - p.x) + m.y * (v.y - p.y) + m.z * (v.z - p.z) = 0 := by linear_combination hv - hp
    unfold orient
    generalize q.x - p.x = q1 at *
    generalize q.y - p.y = q2 at *
    generalize q.z - p.z = q3 at *
    generalize s.x - p.x = s1 at *
    generalize s.y - p.y = s2 at *
    generalize s.z - p.z = s3 at *
    generalize v.x - p.x = v1 at *
    generalize v.y - p.y = v2 at *
    generalize v.z - p.z = v3 at *
    have d1 : m.x * (q1 * (s2 * v3 - s3 * v2) + q2 * (s3 * v1 - s1 * v3) + q3 * (s1 * v2 - s2 * v1)) = 0 := by
      linear_combination (s2 * v3 - s3 * v2) * e1 - (q2 * v3 - q3 * v2) * e2 + (q2 * s3 - q3 * s2) * e3
    have d2 : m.y * (q1 * (s2 * v3 - s3 * v2) + q2 * (s3 * v1 - s1 * v3) + q3 * (s1 * v2 - s2 * v1)) = 0 := by
      linear_combination (s3 * v1 - s1 * v3) * e1 - (q3 * v1 - q1 * v3) * e2 + (q3 * s1 - q1 * s3) * e3
    have d3 : m.z * (q1 * (s2 * v3 - s3 * v2) + q2 * (s3 * v1 - s1 * v3) + q3 * (s1 * v2 - s2 * v1)) = 0 := by
      linear_combination (s1 * v2 - s2 * v1) * e1 - (q1 * v2 - q2 * v1) * e2 + (q1 * s2 - q2 * s1) * e3
    linear_combination m.x * d1 + m.y * d2 + m.z * d3
  rcases mul_eq_zero.mp key with h | h
  · exact absurd h hn.ne'
  · exact h

/-- The basis of a list of points. -/
theorem basis_spec {sqrt : K → K} (hsq : IsSqrt sqrt) {pts : List (Vec3 K)} (hi : IntegerPoints 10000000 pts) :
    ((affineBasis sqrt (1 / 2 ^ 52) (at' pts) (List.range pts.length)).1 ++ (affineBasis sqrt (1 / 2 ^ 52) (at' pts) (List.range pts.length)).2).Perm (List.range pts.length) ∧
      (affineBasis sqrt (1 / 2 ^ 52) (at' pts) (List.range pts.length)).1.head? = (List.range pts.length).head? ∧
      Chosen (at' pts) (List.range pts.length) (affineBasis sqrt (1 / 2 ^ 52) (at' pts) (List.range pts.length)).1 :=
  affineBasis_spec (B := 10000000) hsq (by positivity) (by norm_num) (by norm_num) _ fun p hp => by
    have := grid_of hi (List.mem_range.mp hp); simpa using this

/-- Four points of general position are chosen. -/
theorem basis_four {sqrt : K → K} (hsq : IsSqrt sqrt) {pts : List (Vec3 K)} (hn : 4 ≤ pts.length) (hi : IntegerPoints 10000000 pts) (hc : NoFourCoplanar pts) :
    ∃ b0 b1 b2 b3 outside, affineBasis sqrt (1 / 2 ^ 52) (at' pts) (List.range pts.length) = ([b0, b1, b2, b3], outside) ∧
      ([b0, b1, b2, b3] ++ outside).Perm (List.range pts.length) := by
  obtain ⟨h1, -, h3⟩ := basis_spec hsq hi
  have hG := gen_of hc
  have o := hG ![0, 1, 2] (by decide) (fun k => by rcases fin3_cases k 0 with rfl | rfl | rfl <;> simp <;> omega) 3 (by omega) (by decide)
  have o : orient (at' pts 0) (at' pts 1) (at' pts 2) (at' pts 3) ≠ 0 := o
  have m : ∀ i < 4, i ∈ List.range pts.length := fun i hi => List.mem_range.mpr (by omega)
  generalize hb : affineBasis sqrt (1 / 2 ^ 52) (at' pts) (List.range pts.length) = r at *
  obtain ⟨basis, outside⟩ := r
  have zero : ∀ x : Vec3 K, x.sqLength ≤ 0 → x = ⟨0, 0, 0⟩ := by
    intro x hx
    simp only [Vec3.sqLength] at hx
    ext <;> nlinarith [mul_self_nonneg x.x, mul_self_nonneg x.y, mul_self_nonneg x.z]
  dsimp only at h1 h3
  cases h3 with
  | none h => exact absurd h (by rw [List.range_eq_nil]; omega)
  | one a h =>
    exfalso; apply o
    have e0 := zero _ (h 0 (m 0 (by omega)))
    have e1 := zero _ (h 1 (m 1 (by omega)))
    have x0 := congrArg Vec3.x e0; have y0 := congrArg Vec3.y e0; have z0 := congrArg Vec3.z e0
    have x1 := congrArg Vec3.x e1; have y1 := congrArg Vec3.y e1; have z1 := congrArg Vec3.z e1
    simp only [Vec3.sub_x, Vec3.sub_y, Vec3.sub_z] at x0 y0 z0 x1 y1 z1
    unfold orient
    rw [show (at' pts 1).x - (at' pts 0).x = 0 by linarith, show (at' pts 1).y - (at' pts 0).y = 0 by linarith, show (at' pts 1).z - (at' pts 0).z = 0 by linarith]
    ring
  | two a b hp hf h =>
    exfalso; apply o
    have e := fun i hi => zero _ (h i (m i hi))
    have par : ∀ i < 4, ∃ t, at' pts i - at' pts a = (at' pts b - at' pts a).smul t := by
      intro i hi
      refine ⟨(at' pts b - at' pts a).dot (at' pts i - at' pts a) / (at' pts b - at' pts a).sqLength, ?_⟩
      have := e i hi
      rw [normal] at this
      exact par_of_cross hp this
    obtain ⟨t0, e0⟩ := par 0 (by omega)
    obtain ⟨t1, e1⟩ := par 1 (by omega)
    obtain ⟨t2, e2⟩ := par 2 (by omega)
    exact orient_par e0 e1 e2
  | three a b c hp hf hf2 h =>
    exfalso; apply o
    have e := fun i hi => pow_eq_zero_iff (two_ne_zero) |>.mp (le_antisymm (h i (m i hi)) (sq_nonneg _))
    exact orient_coplanar hp (e 0 (by omega)) (e 1 (by omega)) (e 2 (by omega)) (e 3 (by omega))
  | four a b c d hp hf hf2 h => exact ⟨a, b, c, d, outside, rfl, h1⟩

/-- The facets of a list of points in general position. -/
theorem facets_spec {sqrt : K → K} (hsq : IsSqrt sqrt) {pts : List (Vec3 K)} (hn : 4 ≤ pts.length) (hi : IntegerPoints 10000000 pts) (hc : NoFourCoplanar pts) :
    ∃ (t : State K) (g : Nat → Nat) (m b0 b1 b2 b3 : Nat) (outside : List Nat),
      affineBasis sqrt (1 / 2 ^ 52) (at' pts) (List.range pts.length) = ([b0, b1, b2, b3], outside) ∧
      facetsOf sqrt (1 / 2 ^ 52) (at' pts) false b0 b1 b2 b3 outside =
        some ((List.range m).map fun f => [(t.facets (g f)).vertices 0, (t.facets (g f)).vertices 1, (t.facets (g f)).vertices 2]) ∧
      Inv (at' pts) pts.length t ∧ (∀ p < pts.length, ∀ f ∈ t.live, Below (at' pts) (t.facets f).vertices p) ∧ (∀ f < m, g f ∈ t.live) ∧
      (∀ e < m, ∀ f < m, g e = g f → e = f) ∧ ∀ f ∈ t.live, ∃ e < m, g e = f := by
  obtain ⟨b0, b1, b2, b3, outside, h1, h2⟩ := basis_four hsq hn hi hc
  obtain ⟨t, g, m, h⟩ := facetsOf_spec (good_of hn hi hc) hsq h2
  exact ⟨t, g, m, b0, b1, b2, b3, outside, h1, h⟩

end Cmm.Quick
