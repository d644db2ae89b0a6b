import Verif.Lemmas.QuickSimplex
import Verif.Spec.Newton
import Mathlib.Tactic.FieldSimp
import Mathlib.Tactic.Positivity
import Mathlib.Data.Int.Cast.Lemmas
/-!
The determinants and planes of Quickhull are exact for points with integer coordinates that are not too large.
-/
namespace Cmm.Quick
open Cmm.Geom
variable {K : Type} [Field K] [LinearOrder K] [IsStrictOrderedRing K]

/-- An integer. -/
def IsInt (x : K) : Prop := ∃ z : ℤ, x = z

omit [LinearOrder K] [IsStrictOrderedRing K] in
theorem IsInt.add {x y : K} (hx : IsInt x) (hy : IsInt y) : IsInt (x + y) := by
  obtain ⟨a, rfl⟩ := hx; obtain ⟨b, rfl⟩ := hy; exact ⟨a + b, by push_cast; rfl⟩
omit [LinearOrder K] [IsStrictOrderedRing K] in
theorem IsInt.sub {x y : K} (hx : IsInt x) (hy : IsInt y) : IsInt (x - y) := by
  obtain ⟨a, rfl⟩ := hx; obtain ⟨b, rfl⟩ := hy; exact ⟨a - b, by push_cast; rfl⟩
omit [LinearOrder K] [IsStrictOrderedRing K] in
theorem IsInt.mul {x y : K} (hx : IsInt x) (hy : IsInt y) : IsInt (x * y) := by
  obtain ⟨a, rfl⟩ := hx; obtain ⟨b, rfl⟩ := hy; exact ⟨a * b, by push_cast; rfl⟩
omit [LinearOrder K] [IsStrictOrderedRing K] in
theorem IsInt.one : IsInt (1 : K) := ⟨1, by simp⟩

theorem IsInt.one_le_abs {x : K} (hx : IsInt x) (h : x ≠ 0) : 1 ≤ |x| := by
  obtain ⟨a, rfl⟩ := hx
  have : a ≠ 0 := by rintro rfl; simp at h
  have h1 : (1 : ℤ) ≤ |a| := Int.one_le_abs this
  rw [← Int.cast_abs]
  exact_mod_cast h1

theorem det2_eq {eps a b c d : K} (h0 : 0 ≤ eps) (ha : a = 0 ∨ eps < |a|) (hc : c = 0 ∨ eps < |c|)
    (hl : a * d - b * c = 0 ∨ (eps * |a| < |a * d - b * c| ∧ eps * |c| < |a * d - b * c|)) : det2 eps a b c d = a * d - b * c := by
  unfold det2
  by_cases hs : |a| < |c|
  · have hc0 : c ≠ 0 := by
      rintro rfl; rw [abs_zero] at hs; exact absurd hs (not_lt.mpr (abs_nonneg a))
    have hce := hc.resolve_left hc0
    simp only [hs, decide_true, if_true]
    rw [if_neg (not_not.mpr hce)]
    have e : c * (b - a / c * d) = -(a * d - b * c) := by field_simp; ring
    split
    · rename_i hle
      rcases hl with hl | ⟨-, hl⟩
      · exact hl.symm
      · have : |a * d - b * c| = |c| * |b - a / c * d| := by rw [← abs_mul, e, abs_neg]
        rw [this, mul_comm eps] at hl
        exact absurd (lt_of_mul_lt_mul_left hl (abs_nonneg c)) hle
    · rw [mul_assoc, e]; ring
  · simp only [hs, decide_false, Bool.false_eq_true, if_false]
    by_cases ha0 : a = 0
    · have hc0 : c = 0 := by
        subst ha0; rw [abs_zero] at hs; exact abs_eq_zero.mp (le_antisymm (not_lt.mp hs) (abs_nonneg c))
      subst ha0 hc0
      rw [abs_zero, if_pos (not_lt.mpr h0)]; ring
    · have hae := ha.resolve_left ha0
      rw [if_neg (not_not.mpr hae)]
      have e : a * (d - c / a * b) = a * d - b * c := by field_simp
      split
      · rename_i hle
        rcases hl with hl | ⟨hl, -⟩
        · exact hl.symm
        · have : |a * d - b * c| = |a| * |d - c / a * b| := by rw [← abs_mul, e]
          rw [this, mul_comm eps] at hl
          exact absurd (lt_of_mul_lt_mul_left hl (abs_nonneg a)) hle
      · rw [one_mul, e]

/-- A vector of integers up to `B`. -/
structure Grid (B : K) (v : Vec3 K) : Prop where
  ix : IsInt v.x
  iy : IsInt v.y
  iz : IsInt v.z
  bx : |v.x| ≤ B
  yb : |v.y| ≤ B
  bz : |v.z| ≤ B

omit [LinearOrder K] [IsStrictOrderedRing K] in
theorem det_int {a b c : Vec3 K} (ha : IsInt a.x ∧ IsInt a.y ∧ IsInt a.z) (hb : IsInt b.x ∧ IsInt b.y ∧ IsInt b.z) (hc : IsInt c.x ∧ IsInt c.y ∧ IsInt c.z) :
    IsInt (det a b c) := by
  obtain ⟨a1, a2, a3⟩ := ha
  obtain ⟨b1, b2, b3⟩ := hb
  obtain ⟨c1, c2, c3⟩ := hc
  simp only [det, Vec3.dot, Vec3.cross]
  exact ((a1.mul ((b2.mul c3).sub (b3.mul c2))).add (a2.mul ((b3.mul c1).sub (b1.mul c3)))).add (a3.mul ((b1.mul c2).sub (b2.mul c1)))

theorem Grid.int {B : K} {v : Vec3 K} (h : Grid B v) : IsInt v.x ∧ IsInt v.y ∧ IsInt v.z := ⟨h.ix, h.iy, h.iz⟩

theorem det_core {eps B : K} (h0 : 0 ≤ eps) (hB : 1 ≤ B) (he : eps * (2 * B ^ 2) < 1) {p s t : Vec3 K} (hp : Grid B p) (hs : Grid B s) (ht : Grid B t)
    (h1 : |s.x| ≤ |p.x|) (h2 : |t.x| ≤ |p.x|) :
    (if ¬ eps < |p.x| then 0 else
      p.x * det2 eps (s.y - s.x / p.x * p.y) (s.z - s.x / p.x * p.z) (t.y - t.x / p.x * p.y) (t.z - t.x / p.x * p.z)) = det p s t := by
  have hB2 : B ≤ B ^ 2 := by nlinarith
  have heB : eps * B < 1 := by nlinarith [mul_le_mul_of_nonneg_left hB2 h0]
  have he1 : eps < 1 := by nlinarith [mul_le_mul_of_nonneg_left hB h0]
  by_cases hx : p.x = 0
  · have hsx : s.x = 0 := by rw [hx, abs_zero] at h1; exact abs_eq_zero.mp (le_antisymm h1 (abs_nonneg _))
    have htx : t.x = 0 := by rw [hx, abs_zero] at h2; exact abs_eq_zero.mp (le_antisymm h2 (abs_nonneg _))
    rw [if_pos (by rw [hx, abs_zero]; exact not_lt.mpr h0)]
    simp only [det, Vec3.dot, Vec3.cross, hx, hsx, htx]; ring
  · have hp1 := hp.ix.one_le_abs hx
    have hpp : 0 < |p.x| := abs_pos.mpr hx
    rw [if_neg (not_not.mpr (lt_of_lt_of_le he1 hp1))]
    have key : ∀ v : Vec3 K, Grid B v → |v.x| ≤ |p.x| →
        (v.y - v.x / p.x * p.y = 0 ∨ eps < |v.y - v.x / p.x * p.y|) ∧ |v.y - v.x / p.x * p.y| ≤ 2 * B := by
      intro v hv hvx
      constructor
      · by_cases hz : v.y - v.x / p.x * p.y = 0
        · exact Or.inl hz
        · right
          have e : v.y - v.x / p.x * p.y = (v.y * p.x - v.x * p.y) / p.x := by field_simp
          have hne : v.y * p.x - v.x * p.y ≠ 0 := by
            intro h; rw [e, h, zero_div] at hz; exact hz rfl
          have h3 := ((hv.iy.mul hp.ix).sub (hv.ix.mul hp.iy)).one_le_abs hne
          rw [e, abs_div, lt_div_iff₀ hpp]
          have h4 : eps * |p.x| ≤ eps * B := mul_le_mul_of_nonneg_left hp.bx h0
          linarith
      · have h3 : |v.x / p.x * p.y| ≤ B := by
          rw [abs_mul, abs_div]
          have : |v.x| / |p.x| ≤ 1 := (div_le_one hpp).mpr hvx
          calc |v.x| / |p.x| * |p.y| ≤ 1 * |p.y| := mul_le_mul_of_nonneg_right this (abs_nonneg _)
            _ ≤ B := by rw [one_mul]; exact hp.yb
        have h4 := abs_sub v.y (v.x / p.x * p.y)
        have h5 := hv.yb
        linarith
    obtain ⟨ks1, ks2⟩ := key s hs h1
    obtain ⟨kt1, kt2⟩ := key t ht h2
    have e : (s.y - s.x / p.x * p.y) * (t.z - t.x / p.x * p.z) - (s.z - s.x / p.x * p.z) * (t.y - t.x / p.x * p.y) = det p s t / p.x := by
      simp only [det, Vec3.dot, Vec3.cross]
      field_simp
      ring
    rw [det2_eq h0 ks1 kt1, e, mul_div_cancel₀ _ hx]
    rw [e]
    by_cases hd : det p s t = 0
    · left; rw [hd, zero_div]
    · right
      have hd1 := (det_int hp.int hs.int ht.int).one_le_abs hd
      have hlow : eps * (2 * B) < |det p s t / p.x| := by
        rw [abs_div, lt_div_iff₀ hpp]
        have : eps * (2 * B) * |p.x| ≤ eps * (2 * B) * B := mul_le_mul_of_nonneg_left hp.bx (by positivity)
        nlinarith
      exact ⟨lt_of_le_of_lt (mul_le_mul_of_nonneg_left ks2 h0) hlow, lt_of_le_of_lt (mul_le_mul_of_nonneg_left kt2 h0) hlow⟩

/-- `det3` is the determinant. -/
theorem det3_eq {eps B : K} (h0 : 0 ≤ eps) (hB : 1 ≤ B) (he : eps * (2 * B ^ 2) < 1) {a b c : Vec3 K} (ha : Grid B a) (hb : Grid B b) (hc : Grid B c) :
    det3 eps a b c = det a b c := by
  have r : ∀ p s t : Vec3 K, det p s t = - det s p t := fun p s t => by simp only [det, Vec3.dot, Vec3.cross]; ring
  have r' : ∀ p s t : Vec3 K, det p s t = - det t s p := fun p s t => by simp only [det, Vec3.dot, Vec3.cross]; ring
  unfold det3
  by_cases h1 : |a.x| < |b.x|
  · by_cases h2 : |b.x| < |c.x|
    · simp only [h1, h2, if_true]
      have := det_core h0 hB he hc hb ha h2.le (h1.trans h2).le
      rw [r' a b c, ← this]
      split
      · simp
      · simp only [OfNat.ofNat_ne_zero, if_false]; ring
    · simp only [h1, h2, if_true, if_false]
      have := det_core h0 hB he hb ha hc h1.le (not_lt.mp h2)
      rw [r a b c, ← this]
      split
      · simp
      · simp only [one_ne_zero, if_false]; ring
  · by_cases h2 : |a.x| < |c.x|
    · simp only [h1, h2, if_true, if_false]
      have := det_core h0 hB he hc hb ha ((not_lt.mp h1).trans h2.le) h2.le
      rw [r' a b c, ← this]
      split
      · simp
      · simp only [OfNat.ofNat_ne_zero, if_false]; ring
    · simp only [h1, h2, if_false]
      have := det_core h0 hB he ha hb hc (not_lt.mp h1) (not_lt.mp h2)
      rw [← this]
      split
      · simp
      · simp only [if_true]; ring

/-! ### Planes -/

/-- The normal of the plane through three points. -/
def normal (a b c : Vec3 K) : Vec3 K := (b - a).cross (c - a)

omit [LinearOrder K] [IsStrictOrderedRing K] in
theorem orient_normal (a b c p : Vec3 K) : orient a b c p = (normal a b c).dot (p - a) := by
  simp [orient, normal, Vec3.dot, Vec3.cross]; ring

/-- The plane is exact. -/
theorem hyperplane_eq (sqrt : K → K) {eps B : K} (h0 : 0 ≤ eps) (hB : 1 ≤ B) (he : eps * (2 * B ^ 2) < 1) {a b c : Vec3 K} (ha : Grid B a) (hb : Grid B b)
    (hc : Grid B c) : hyperplane sqrt eps a b c = ((normal a b c).sdiv (sqrt (normal a b c).sqLength), -(normal a b c).dot a / sqrt (normal a b c).sqLength) := by
  have g1 : Grid B (⟨1, 1, 1⟩ : Vec3 K) := ⟨.one, .one, .one, by simpa using hB, by simpa using hB, by simpa using hB⟩
  have gx : Grid B (⟨a.x, b.x, c.x⟩ : Vec3 K) := ⟨ha.ix, hb.ix, hc.ix, ha.bx, hb.bx, hc.bx⟩
  have gy : Grid B (⟨a.y, b.y, c.y⟩ : Vec3 K) := ⟨ha.iy, hb.iy, hc.iy, ha.yb, hb.yb, hc.yb⟩
  have gz : Grid B (⟨a.z, b.z, c.z⟩ : Vec3 K) := ⟨ha.iz, hb.iz, hc.iz, ha.bz, hb.bz, hc.bz⟩
  unfold hyperplane
  dsimp only
  rw [det3_eq h0 hB he g1 gy gz, det3_eq h0 hB he gx g1 gz, det3_eq h0 hB he gx gy g1, det3_eq h0 hB he gx gy gz]
  have en : (⟨det ⟨1, 1, 1⟩ ⟨a.y, b.y, c.y⟩ ⟨a.z, b.z, c.z⟩, det ⟨a.x, b.x, c.x⟩ ⟨1, 1, 1⟩ ⟨a.z, b.z, c.z⟩, det ⟨a.x, b.x, c.x⟩ ⟨a.y, b.y, c.y⟩ ⟨1, 1, 1⟩⟩ : Vec3 K) =
      normal a b c := by
    simp only [normal, det, Vec3.dot, Vec3.cross, Vec3.mk.injEq, Vec3.sub_x, Vec3.sub_y, Vec3.sub_z]
    refine ⟨by ring, by ring, by ring⟩
  have ed : det (⟨a.x, b.x, c.x⟩ : Vec3 K) ⟨a.y, b.y, c.y⟩ ⟨a.z, b.z, c.z⟩ = (normal a b c).dot a := by
    simp only [normal, det, Vec3.dot, Vec3.cross, Vec3.sub_x, Vec3.sub_y, Vec3.sub_z]
    ring
  rw [en, ed]

/-- The distance of a point. -/
theorem planeDistance_eq (sqrt : K → K) {eps B : K} (h0 : 0 ≤ eps) (hB : 1 ≤ B) (he : eps * (2 * B ^ 2) < 1) {a b c : Vec3 K} (ha : Grid B a) (hb : Grid B b)
    (hc : Grid B c) (p : Vec3 K) : planeDistance sqrt eps a b c p = orient a b c p / sqrt (normal a b c).sqLength := by
  rw [planeDistance, hyperplane_eq sqrt h0 hB he ha hb hc, orient_normal]
  simp only [Vec3.dot, Vec3.sdiv, Vec3.sub_x, Vec3.sub_y, Vec3.sub_z]
  ring

theorem normal_bound {B : K} (hB : 1 ≤ B) {a b c : Vec3 K} (ha : Grid B a) (hb : Grid B b) (hc : Grid B c) : (normal a b c).sqLength ≤ (14 * B ^ 2) ^ 2 := by
  have hd : ∀ x y : K, |x| ≤ B → |y| ≤ B → |x - y| ≤ 2 * B := fun x y hx hy => by
    have := abs_sub x y; linarith
  have hm : ∀ x y z w : K, |x| ≤ 2 * B → |y| ≤ 2 * B → |z| ≤ 2 * B → |w| ≤ 2 * B → (x * y - z * w) ^ 2 ≤ (8 * B ^ 2) ^ 2 := by
    intro x y z w hx hy hz hw
    refine sq_le_sq' ?_ ?_
    all_goals
      have h1 : |x * y| ≤ 4 * B ^ 2 := by
        rw [abs_mul]; nlinarith [mul_le_mul hx hy (abs_nonneg y) (by linarith : 0 ≤ 2 * B)]
      have h2 : |z * w| ≤ 4 * B ^ 2 := by
        rw [abs_mul]; nlinarith [mul_le_mul hz hw (abs_nonneg w) (by linarith : 0 ≤ 2 * B)]
      have h3 := abs_le.mp h1
      have h4 := abs_le.mp h2
      linarith [h3.1, h3.2, h4.1, h4.2]
  have b1 := hd _ _ hb.bx ha.bx
  have b2 := hd _ _ hb.yb ha.yb
  have b3 := hd _ _ hb.bz ha.bz
  have c1 := hd _ _ hc.bx ha.bx
  have c2 := hd _ _ hc.yb ha.yb
  have c3 := hd _ _ hc.bz ha.bz
  have e1 := hm _ _ _ _ b2 c3 b3 c2
  have e2 := hm _ _ _ _ b3 c1 b1 c3
  have e3 := hm _ _ _ _ b1 c2 b2 c1
  have : (normal a b c).sqLength = ((b.y - a.y) * (c.z - a.z) - (b.z - a.z) * (c.y - a.y)) ^ 2 + ((b.z - a.z) * (c.x - a.x) - (b.x - a.x) * (c.z - a.z)) ^ 2 +
      ((b.x - a.x) * (c.y - a.y) - (b.y - a.y) * (c.x - a.x)) ^ 2 := by
    simp [normal, Vec3.sqLength, Vec3.cross]; ring
  rw [this]
  nlinarith [sq_nonneg (B ^ 2)]

end Cmm.Quick
