import Verif.Spec.Solid
import Verif.Spec.Geometry
import Verif.Lemmas.Hull
import Mathlib.Tactic.LinearCombination
import Mathlib.Tactic.Ring
import Mathlib.Tactic.FieldSimp
import Mathlib.Tactic.Linarith
/-!
Identities of `orient`, and what follows for points inside several half spaces.
-/
namespace Cmm.Geom
variable {K : Type} [Field K] [LinearOrder K] [IsStrictOrderedRing K]

omit [LinearOrder K] [IsStrictOrderedRing K] in
theorem orient_rot (a b c p : Vec3 K) : orient b c a p = orient a b c p := by unfold orient; ring

omit [LinearOrder K] [IsStrictOrderedRing K] in
theorem orient_swap (a b c p : Vec3 K) : orient b a c p = -orient a b c p := by unfold orient; ring

omit [LinearOrder K] [IsStrictOrderedRing K] in
theorem orient_last (a b c p : Vec3 K) : orient a b p c = -orient a b c p := by unfold orient; ring

omit [LinearOrder K] [IsStrictOrderedRing K] in
theorem orient_self1 (a b c : Vec3 K) : orient a b c a = 0 := by unfold orient; ring
omit [LinearOrder K] [IsStrictOrderedRing K] in
theorem orient_self2 (a b c : Vec3 K) : orient a b c b = 0 := by unfold orient; ring
omit [LinearOrder K] [IsStrictOrderedRing K] in
theorem orient_self3 (a b c : Vec3 K) : orient a b c c = 0 := by unfold orient; ring

/-- The determinant of three vectors. -/
def triple (u v w : Vec3 K) : K := u.x * (v.y * w.z - v.z * w.y) + u.y * (v.z * w.x - v.x * w.z) + u.z * (v.x * w.y - v.y * w.x)

omit [LinearOrder K] [IsStrictOrderedRing K] in
theorem orient_triple (a b c p : Vec3 K) : orient a b c p = triple (b - a) (c - a) (p - a) := rfl

omit [LinearOrder K] [IsStrictOrderedRing K] in
theorem orient_triple' (a b d p : Vec3 K) : orient b a d p = -triple (b - a) (d - a) (p - a) := by
  unfold orient triple; simp only [Vec3.sub_x, Vec3.sub_y, Vec3.sub_z]; ring

omit [LinearOrder K] [IsStrictOrderedRing K] in
theorem plucker (u c d q v : Vec3 K) : triple u d c * triple u q v = triple u d q * triple u c v - triple u c q * triple u d v := by
  unfold triple; ring

omit [LinearOrder K] [IsStrictOrderedRing K] in
/-- The plane through an edge and a point `q`, from the two planes that meet in the edge. -/
theorem wedge (a b c d q v : Vec3 K) :
    orient b a d c * orient a b q v = orient b a d q * orient a b c v - orient a b c q * orient b a d v := by
  rw [orient_triple a b q, orient_triple a b c, orient_triple a b c, orient_triple' a b d, orient_triple' a b d, orient_triple' a b d]
  linear_combination -plucker (b - a) (c - a) (d - a) (q - a) (v - a)

omit [LinearOrder K] [IsStrictOrderedRing K] in
/-- `orient` is an affine function of its last argument. -/
theorem orient_affine (a b c : Vec3 K) {p q x : Vec3 K} {s t : K} (hs : s + t = 1) (hx : x = p.smul s + q.smul t) :
    orient a b c x = s * orient a b c p + t * orient a b c q := by
  obtain rfl : s = 1 - t := by linear_combination hs
  subst hx
  unfold orient; simp only [Vec3.add_x, Vec3.add_y, Vec3.add_z, Vec3.smul_x, Vec3.smul_y, Vec3.smul_z]; ring

omit [LinearOrder K] [IsStrictOrderedRing K] in
theorem orient_affine3 (a b c : Vec3 K) {p q r x : Vec3 K} {s t u : K} (hs : s + t + u = 1) (hx : x = p.smul s + q.smul t + r.smul u) :
    orient a b c x = s * orient a b c p + t * orient a b c q + u * orient a b c r := by
  obtain rfl : s = 1 - t - u := by linear_combination hs
  subst hx
  unfold orient; simp only [Vec3.add_x, Vec3.add_y, Vec3.add_z, Vec3.smul_x, Vec3.smul_y, Vec3.smul_z]; ring

omit [LinearOrder K] [IsStrictOrderedRing K] in
/-- The coordinates of a point of the plane `a b c`. -/
theorem exists_bary {a b c p x : Vec3 K} (h : orient a b c p ≠ 0) (hx : orient a b c x = 0) :
    ∃ s t u : K, s + t + u = 1 ∧ x = a.smul s + b.smul t + c.smul u := by
  refine ⟨orient x b c p / orient a b c p, orient a x c p / orient a b c p, orient a b x p / orient a b c p, ?_, ?_⟩
  · rw [← add_div, ← add_div, div_eq_one_iff_eq h]
    have : orient a b c p = orient x b c p + orient a x c p + orient a b x p + orient a b c x := by unfold orient; ring
    rw [hx, add_zero] at this
    exact this.symm
  · have key : ∀ (X A B C : K), X * orient a b c p = A * orient x b c p + B * orient a x c p + C * orient a b x p →
        X = A * (orient x b c p / orient a b c p) + B * (orient a x c p / orient a b c p) + C * (orient a b x p / orient a b c p) := by
      intro X A B C e
      field_simp
      linear_combination e
    have e : ∀ (f : Vec3 K → K), (f = Vec3.x ∨ f = Vec3.y ∨ f = Vec3.z) →
        f x * orient a b c p = f a * orient x b c p + f b * orient a x c p + f c * orient a b x p + f p * orient a b c x := by
      rintro f (rfl | rfl | rfl) <;> (unfold orient; ring)
    have e' := fun f hf => key _ _ _ _ ((e f hf).trans (by rw [hx, mul_zero, add_zero]))
    rcases x with ⟨x1, x2, x3⟩
    exact congr (congr (congrArg Vec3.mk (e' Vec3.x (Or.inl rfl))) (e' Vec3.y (Or.inr (Or.inl rfl)))) (e' Vec3.z (Or.inr (Or.inr rfl)))

end Cmm.Geom
