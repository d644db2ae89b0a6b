import Verif.Model.GaussMap
import Verif.Spec.GaussMap
import Verif.Lemmas.Hull2d
import Verif.Props.Separability
import Verif.Props.Hull2d
import Verif.Props.Surface
/-!
Lemmas about central projections of convex hulls.
-/
namespace Cmm.Geom
variable {K : Type} [Field K] [LinearOrder K] [IsStrictOrderedRing K]

omit [LinearOrder K] [IsStrictOrderedRing K] in
theorem zipWith_reweight {V W : Type} (c : V → K) (P : V → W) (g : W → K) (h : V → K) : ∀ (w : List K) (pts : List V),
    (∀ v ∈ pts, c v * g (P v) = h v) →
    (List.zipWith (fun a v => a * g v) (List.zipWith (fun a v => a * c v) w pts) (pts.map P)).sum =
      (List.zipWith (fun a v => a * h v) w pts).sum
  | [], _, _ => by simp
  | a :: w, [], _ => by simp
  | a :: w, v :: pts, hp => by
    simp only [List.map_cons, List.zipWith_cons_cons, List.sum_cons]
    rw [zipWith_reweight c P g h w pts (fun x hx => hp x (List.mem_cons_of_mem _ hx)), mul_assoc, hp v List.mem_cons_self]

omit [LinearOrder K] [IsStrictOrderedRing K] in
theorem zipWith_const (c : K) {V : Type} : ∀ (w : List K) (pts : List V), w.length = pts.length →
    (List.zipWith (fun a (_ : V) => a * c) w pts).sum = w.sum * c
  | [], _, _ => by simp
  | a :: w, [], h => by simp at h
  | a :: w, v :: pts, h => by
    simp only [List.zipWith_cons_cons, List.sum_cons, zipWith_const c w pts (by simpa using h)]; ring

theorem zipWith_nonneg {V : Type} (c : V → K) : ∀ (w : List K) (pts : List V), (∀ x ∈ w, 0 ≤ x) → (∀ v ∈ pts, 0 ≤ c v) →
    ∀ x ∈ List.zipWith (fun a v => a * c v) w pts, 0 ≤ x
  | [], _, _, _ => by simp
  | a :: w, [], _, _ => by simp
  | a :: w, v :: pts, hw, hp => by
    intro x hx
    rcases List.mem_cons.1 hx with rfl | hx
    · exact mul_nonneg (hw a List.mem_cons_self) (hp v List.mem_cons_self)
    · exact zipWith_nonneg c w pts (fun y hy => hw y (List.mem_cons_of_mem _ hy)) (fun y hy => hp y (List.mem_cons_of_mem _ hy)) x hx

theorem hull_ne_nil {pts : List (Vec3 K)} {p : Vec3 K} (h : InHull pts p) : pts ≠ [] := by
  rintro rfl
  obtain ⟨w, hl, _, hs, _⟩ := h
  have : w = [] := by simpa using hl
  subst this
  simp at hs

theorem exists_max {V : Type} (f : V → K) : ∀ pts : List V, pts ≠ [] → ∃ v ∈ pts, ∀ u ∈ pts, f u ≤ f v
  | [], h => absurd rfl h
  | [v], _ => ⟨v, by simp, by simp⟩
  | a :: b :: pts, _ => by
    obtain ⟨v, hv, h⟩ := exists_max f (b :: pts) (by simp)
    rcases le_total (f a) (f v) with h1 | h1
    · refine ⟨v, List.mem_cons_of_mem _ hv, fun u hu => ?_⟩
      rcases List.mem_cons.1 hu with rfl | hu
      · exact h1
      · exact h u hu
    · refine ⟨a, List.mem_cons_self, fun u hu => ?_⟩
      rcases List.mem_cons.1 hu with rfl | hu
      · exact le_refl _
      · exact le_trans (h u hu) h1

/-- A point of the hull of points below a height is below it. -/
theorem hull_lt {pts : List (Vec3 K)} {p : Vec3 K} {c : K} (hp : InHull pts p) (h : ∀ v ∈ pts, v.z < c) : p.z < c := by
  obtain ⟨m, hm, hmax⟩ := exists_max (fun v : Vec3 K => v.z) pts (hull_ne_nil hp)
  have := hull_le (d := ⟨0, 0, 1⟩) (c := m.z) hp (fun v hv => by
    have := hmax v hv
    simpa [Vec3.dot] using this)
  have e : p.dot ⟨0, 0, 1⟩ = p.z := by simp [Vec3.dot]
  rw [e] at this
  exact lt_of_le_of_lt this (h m hm)

omit [IsStrictOrderedRing K] in
theorem weightedSum_eq : ∀ (a : List K) (qs : List (Vec3 K)), Nurbs.weightedSum a qs =
    ⟨(List.zipWith (fun a v => a * v.x) a qs).sum, (List.zipWith (fun a v => a * v.y) a qs).sum, (List.zipWith (fun a v => a * v.z) a qs).sum⟩
  | [], qs => by cases qs <;> rfl
  | a :: as, [] => rfl
  | a :: as, q :: qs => by
    unfold Nurbs.weightedSum
    rw [weightedSum_eq as qs]
    ext <;> simp [Vec3.smul, mul_comm]

omit [IsStrictOrderedRing K] in
theorem ConvexCombination.inHull {r : Vec3 K} {qs : List (Vec3 K)} (h : Nurbs.ConvexCombination r qs) : InHull qs r := by
  obtain ⟨a, h1, h2, h3, h4⟩ := h
  rw [weightedSum_eq] at h4
  subst h4
  exact ⟨a, h1, h2, h3, rfl, rfl, rfl⟩

end Cmm.Geom

namespace Cmm.Gauss
open Cmm.Nurbs Cmm.Geom
variable {K : Type} [Field K] [LinearOrder K] [IsStrictOrderedRing K]

omit [IsStrictOrderedRing K] in
theorem projection_mul {o q : Vec3 K} (h : o.z ≠ q.z) :
    (o.z - q.z) * (centerProjection o q).x = o.z * q.x - o.x * q.z ∧ (o.z - q.z) * (centerProjection o q).y = o.z * q.y - o.y * q.z := by
  have h1 : q.z - o.z ≠ 0 := sub_ne_zero.2 (Ne.symm h)
  unfold centerProjection
  rw [if_neg h]
  have e : -o.z / (q.z - o.z) * (q.z - o.z) = -o.z := div_mul_cancel₀ _ h1
  constructor
  · linear_combination (-(q.x - o.x)) * e
  · linear_combination (-(q.y - o.y)) * e

/-- Central projection from above maps hulls into hulls. -/
theorem projection_hull {o : Vec3 K} {pts : List (Vec3 K)} {p : Vec3 K} (h : ∀ q ∈ pts, q.z < o.z) (hp : InHull pts p) :
    InHull2 (pts.map (centerProjection o)) (centerProjection o p) := by
  have hlt := hull_lt hp h
  obtain ⟨w, hl, hw, hs, hx, hy, hz⟩ := hp
  have hd : o.z - p.z ≠ 0 := sub_ne_zero.2 hlt.ne'
  have hpos : 0 < o.z - p.z := sub_pos.2 hlt
  obtain ⟨m1, m2⟩ := projection_mul (o := o) (q := p) hlt.ne'
  have hc : ∀ v ∈ pts, 0 ≤ (o.z - v.z) / (o.z - p.z) := fun v hv => div_nonneg (sub_nonneg.2 (h v hv).le) hpos.le
  have lin : ∀ (f : Vec3 K → K) (c d : K), (List.zipWith (fun a v => a * ((c * f v - d * v.z) / (o.z - p.z))) w pts).sum =
      (c * (List.zipWith (fun a v => a * f v) w pts).sum - d * p.z) / (o.z - p.z) := by
    intro f c d
    rw [hz]
    have e : (fun (a : K) (v : Vec3 K) => a * ((c * f v - d * v.z) / (o.z - (List.zipWith (fun a v => a * v.z) w pts).sum))) =
        fun a v => a * ((f v * c + v.z * (-d)) * (o.z - (List.zipWith (fun a v => a * v.z) w pts).sum)⁻¹) := by
      funext a v
      rw [div_eq_mul_inv]; ring
    rw [e, zipWith_mul (fun v : Vec3 K => f v * c + v.z * (-d)), zipWith_add (fun v : Vec3 K => f v * c) (fun v => v.z * (-d)), zipWith_mul f,
      zipWith_mul (fun v : Vec3 K => v.z), div_eq_mul_inv]
    ring
  refine ⟨List.zipWith (fun a v => a * ((o.z - v.z) / (o.z - p.z))) w pts, by simp [hl], zipWith_nonneg _ w pts hw hc, ?_, ?_, ?_⟩
  · have e1 := lin (fun _ => 1) o.z 1
    rw [show (fun (a : K) (v : Vec3 K) => a * ((o.z * 1 - 1 * v.z) / (o.z - p.z))) = fun a v => a * ((o.z - v.z) / (o.z - p.z)) by
      funext a v; rw [mul_one, one_mul]] at e1
    rw [e1, zipWith_const 1 w pts hl, hs, mul_one, mul_one, one_mul, div_self hd]
  · rw [zipWith_reweight (fun v : Vec3 K => (o.z - v.z) / (o.z - p.z)) (centerProjection o) (fun v : Vec2 K => v.x)
      (fun v => (o.z * v.x - o.x * v.z) / (o.z - p.z)) w pts (fun v hv => by
        rw [div_mul_eq_mul_div, (projection_mul (h v hv).ne').1]), lin (fun v => v.x), ← hx, ← m1, mul_div_cancel_left₀ _ hd]
  · rw [zipWith_reweight (fun v : Vec3 K => (o.z - v.z) / (o.z - p.z)) (centerProjection o) (fun v : Vec2 K => v.y)
      (fun v => (o.z * v.y - o.y * v.z) / (o.z - p.z)) w pts (fun v hv => by
        rw [div_mul_eq_mul_div, (projection_mul (h v hv).ne').2]), lin (fun v => v.y), ← hy, ← m2, mul_div_cancel_left₀ _ hd]

omit [LinearOrder K] [IsStrictOrderedRing K] in
theorem edge_ne_of_nodup {l : List (Vec2 K)} (hn : l.Nodup) (h2 : 2 ≤ l.length) : Sep.NoRepeat l := by
  rintro p q ⟨i, hi, e1, e2⟩ rfl
  have hm : (i + 1) % l.length < l.length := Nat.mod_lt _ (by omega)
  rw [List.getElem?_eq_getElem hi, Option.some_inj] at e1
  rw [List.getElem?_eq_getElem hm, Option.some_inj] at e2
  have := (List.Nodup.getElem_inj_iff hn).1 (e1.trans e2.symm)
  rcases Nat.lt_or_ge (i + 1) l.length with h | h
  · rw [Nat.mod_eq_of_lt h] at this; omega
  · have e : i + 1 = l.length := by omega
    rw [e, Nat.mod_self] at this; omega

omit [Field K] [LinearOrder K] [IsStrictOrderedRing K] in
theorem sublist_one_more {α : Type} {l1 l2 : List α} (h : l1.Sublist l2) (hl : l1.length < l2.length) :
    ∃ l, l1.Sublist l ∧ l.Sublist l2 ∧ l.length = l1.length + 1 := by
  induction h with
  | slnil => simp at hl
  | @cons l1 l2 a h ih =>
    rcases Nat.lt_or_ge l1.length l2.length with h' | h'
    · obtain ⟨l, a1, a2, a3⟩ := ih h'
      exact ⟨l, a1, a2.cons _, a3⟩
    · have := h.eq_of_length (le_antisymm h.length_le h')
      subst this
      exact ⟨a :: l1, List.sublist_cons_self _ _, List.Sublist.refl _, by simp⟩
  | @cons_cons l1 l2 a h ih =>
    obtain ⟨l, a1, a2, a3⟩ := ih (by simpa using hl)
    exact ⟨a :: l, a1.cons_cons _, a2.cons_cons _, by simp [a3]⟩

theorem ccw_nodup {l : List (Vec2 K)} (h : ConvexCCW l) (h3 : 3 ≤ l.length) : l.Nodup := by
  rw [List.nodup_iff_sublist]
  intro x hx
  obtain ⟨l', a1, a2, a3⟩ := sublist_one_more hx (by simp; omega)
  match l', a3 with
  | [p, q, r], _ =>
    have := h p q r a2
    have e : p = q ∨ q = r ∨ p = r := by
      rcases List.sublist_cons_iff.1 a1 with h1 | ⟨s, e1, h1⟩
      · have := h1.eq_of_length (by simp)
        simp only [List.cons.injEq, and_true] at this
        exact Or.inr (Or.inl (this.1.symm.trans this.2))
      · simp only [List.cons.injEq] at e1
        obtain ⟨rfl, rfl⟩ := e1
        have := h1.subset List.mem_cons_self
        simp only [List.mem_cons, List.not_mem_nil, or_false] at this
        rcases this with h | h
        · exact Or.inl h
        · exact Or.inr (Or.inr h)
    unfold turn at this
    rcases e with rfl | rfl | rfl <;> (ring_nf at this; exact absurd this (lt_irrefl _))

end Cmm.Gauss
