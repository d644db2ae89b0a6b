import Verif.Spec.Geometry
import Mathlib.Tactic.Linarith
import Mathlib.Tactic.Ring
import Mathlib.Tactic.LinearCombination
import Mathlib.Algebra.BigOperators.Group.List.Basic
import Mathlib.Algebra.BigOperators.Ring.List
/-!
Linear functions on convex hulls.
-/
namespace Cmm.Geom
variable {K : Type} [Field K] [LinearOrder K] [IsStrictOrderedRing K]

/-- A weighted sum of values at most `c` is at most `c` times the sum of the weights. -/
theorem zipWith_le {V : Type} (f : V → K) (c : K) : ∀ (w : List K) (pts : List V), w.length = pts.length → (∀ x ∈ w, 0 ≤ x) →
    (∀ v ∈ pts, f v ≤ c) → (List.zipWith (fun a v => a * f v) w pts).sum ≤ c * w.sum
  | [], _, _, _, _ => by simp
  | a :: w, [], h, _, _ => by simp at h
  | a :: w, v :: pts, h, hw, hp => by
    have ih := zipWith_le f c w pts (by simpa using h) (fun x hx => hw x (List.mem_cons_of_mem _ hx))
      (fun x hx => hp x (List.mem_cons_of_mem _ hx))
    simp only [List.zipWith_cons_cons, List.sum_cons]
    have := mul_le_mul_of_nonneg_left (hp v List.mem_cons_self) (hw a List.mem_cons_self)
    linarith

omit [LinearOrder K] [IsStrictOrderedRing K] in
theorem zipWith_add {V : Type} (f g : V → K) : ∀ (w : List K) (pts : List V),
    (List.zipWith (fun a v => a * (f v + g v)) w pts).sum =
      (List.zipWith (fun a v => a * f v) w pts).sum + (List.zipWith (fun a v => a * g v) w pts).sum
  | [], _ => by simp
  | a :: w, [] => by simp
  | a :: w, v :: pts => by
    simp only [List.zipWith_cons_cons, List.sum_cons, zipWith_add f g w pts]; ring

omit [LinearOrder K] [IsStrictOrderedRing K] in
theorem zipWith_mul {V : Type} (f : V → K) (c : K) : ∀ (w : List K) (pts : List V),
    (List.zipWith (fun a v => a * (f v * c)) w pts).sum = (List.zipWith (fun a v => a * f v) w pts).sum * c
  | [], _ => by simp
  | a :: w, [] => by simp
  | a :: w, v :: pts => by
    simp only [List.zipWith_cons_cons, List.sum_cons, zipWith_mul f c w pts]; ring

/-- A half space that contains the points contains their hull. -/
theorem hull_le {pts : List (Vec3 K)} {p d : Vec3 K} {c : K} (hp : InHull pts p) (h : ∀ v ∈ pts, v.dot d ≤ c) : p.dot d ≤ c := by
  obtain ⟨w, hl, hw, hs, hx, hy, hz⟩ := hp
  have h1 := zipWith_le (fun v : Vec3 K => v.dot d) c w pts hl hw h
  rw [hs, mul_one] at h1
  have e : p.dot d = (List.zipWith (fun a (v : Vec3 K) => a * v.dot d) w pts).sum := by
    unfold Vec3.dot
    rw [zipWith_add (fun v : Vec3 K => v.x * d.x + v.y * d.y) (fun v => v.z * d.z), zipWith_add (fun v : Vec3 K => v.x * d.x) (fun v => v.y * d.y),
      zipWith_mul (fun v : Vec3 K => v.x), zipWith_mul (fun v : Vec3 K => v.y), zipWith_mul (fun v : Vec3 K => v.z), hx, hy, hz]
  rw [e]; exact h1

theorem hull_ge {pts : List (Vec3 K)} {p d : Vec3 K} {c : K} (hp : InHull pts p) (h : ∀ v ∈ pts, c ≤ v.dot d) : c ≤ p.dot d := by
  have := hull_le (d := -d) (c := -c) hp (fun v hv => by
    have := h v hv
    simp only [Vec3.dot, Vec3.neg_x, Vec3.neg_y, Vec3.neg_z] at this ⊢
    linarith)
  simp only [Vec3.dot, Vec3.neg_x, Vec3.neg_y, Vec3.neg_z] at this ⊢
  linarith

theorem hull2_le {pts : List (Vec2 K)} {p d : Vec2 K} {c : K} (hp : InHull2 pts p) (h : ∀ v ∈ pts, v.dot d ≤ c) : p.dot d ≤ c := by
  obtain ⟨w, hl, hw, hs, hx, hy⟩ := hp
  have h1 := zipWith_le (fun v : Vec2 K => v.dot d) c w pts hl hw h
  rw [hs, mul_one] at h1
  have e : p.dot d = (List.zipWith (fun a (v : Vec2 K) => a * v.dot d) w pts).sum := by
    unfold Vec2.dot
    rw [zipWith_add (fun v : Vec2 K => v.x * d.x) (fun v => v.y * d.y),
      zipWith_mul (fun v : Vec2 K => v.x), zipWith_mul (fun v : Vec2 K => v.y), hx, hy]
  rw [e]; exact h1

theorem hull2_ge {pts : List (Vec2 K)} {p d : Vec2 K} {c : K} (hp : InHull2 pts p) (h : ∀ v ∈ pts, c ≤ v.dot d) : c ≤ p.dot d := by
  have := hull2_le (d := -d) (c := -c) hp (fun v hv => by
    have := h v hv
    simp only [Vec2.dot, Vec2.neg_x, Vec2.neg_y] at this ⊢
    linarith)
  simp only [Vec2.dot, Vec2.neg_x, Vec2.neg_y] at this ⊢
  linarith

omit [IsStrictOrderedRing K] in
theorem onTriangle_hull {a b c p : Vec3 K} : OnTriangle a b c p ↔ InHull [a, b, c] p := by
  constructor
  · rintro ⟨u, v, w, hu, hv, hw, hs, rfl⟩
    refine ⟨[u, v, w], rfl, ?_, ?_, ?_, ?_, ?_⟩
    · simp [hu, hv, hw]
    · simp only [List.sum_cons, List.sum_nil]; linear_combination hs
    all_goals simp only [List.zipWith_cons_cons, List.zipWith_nil_right, List.sum_cons, List.sum_nil]; ring
  · rintro ⟨ws, hl, hw, hs, hx, hy, hz⟩
    match ws, hl with
    | [u, v, w], _ =>
      simp only [List.zipWith_cons_cons, List.zipWith_nil_right, List.sum_cons, List.sum_nil, add_zero] at hs hx hy hz
      refine ⟨u, v, w, hw u (by simp), hw v (by simp), hw w (by simp), by rw [← hs]; ring, ?_⟩
      ext
      · rw [hx]; ring
      · rw [hy]; ring
      · rw [hz]; ring

theorem onSegment_hull {a b p : Vec3 K} : OnSegment a b p ↔ InHull [a, b] p := by
  constructor
  · rintro ⟨t, h0, h1, rfl⟩
    refine ⟨[1 - t, t], rfl, ?_, ?_, ?_, ?_, ?_⟩
    · simp [h0, h1]
    · simp
    all_goals simp only [along, List.zipWith_cons_cons, List.zipWith_nil_right, List.sum_cons, List.sum_nil]; ring
  · rintro ⟨ws, hl, hw, hs, hx, hy, hz⟩
    match ws, hl with
    | [u, v], _ =>
      simp only [List.zipWith_cons_cons, List.zipWith_nil_right, List.sum_cons, List.sum_nil, add_zero] at hs hx hy hz
      have hu := hw u (by simp)
      refine ⟨v, hw v (by simp), by linarith, ?_⟩
      have : u = 1 - v := by linarith
      subst this
      ext
      · rw [hx]; rfl
      · rw [hy]; rfl
      · rw [hz]; rfl

end Cmm.Geom
