import Verif.Lemmas.ConvexSep
import Verif.Props.Separability
import Mathlib.Data.List.Sublists
/-!
Properties of cmmcore/polygon.h for convex polygons: C108.
-/
namespace Cmm.Sep
open Cmm.Geom
variable {K : Type} [Field K] [LinearOrder K] [IsStrictOrderedRing K]

omit [LinearOrder K] [IsStrictOrderedRing K] in
theorem isEdge_reverse {P : List (Vec2 K)} {u v : Vec2 K} (h : IsEdge P.reverse u v) : IsEdge P v u := by
  obtain ⟨i, hi, hu, hv⟩ := h
  rw [List.length_reverse] at hi hv
  rw [List.getElem?_reverse hi] at hu
  rw [List.getElem?_reverse (Nat.mod_lt _ (by omega))] at hv
  by_cases e : i + 1 < P.length
  · rw [Nat.mod_eq_of_lt e] at hv
    exact ⟨P.length - 1 - (i + 1), by omega, hv, by rw [Nat.mod_eq_of_lt (by omega)]; rw [← hu]; congr 1; omega⟩
  · obtain rfl : i = P.length - 1 := by omega
    rw [show P.length - 1 + 1 = P.length by omega, Nat.mod_self] at hv
    refine ⟨P.length - 1, by omega, hv, ?_⟩
    rw [show P.length - 1 + 1 = P.length by omega, Nat.mod_self, ← hu]
    congr 1; omega

/-- A convex polygon in counterclockwise order. -/
theorem ccw_of_convex {P : List (Vec2 K)} (h : ConvexPolygon P) : ∃ Q : List (Vec2 K), ConvexCCW Q ∧ 3 ≤ Q.length ∧ (∀ v, v ∈ Q ↔ v ∈ P) ∧
    ∀ u v, IsEdge Q u v → IsEdge P u v ∨ IsEdge P v u := by
  obtain ⟨hl, h | h⟩ := h
  · exact ⟨P, h, hl, fun _ => Iff.rfl, fun u v h => Or.inl h⟩
  · exact ⟨P.reverse, h, by simpa using hl, fun _ => List.mem_reverse, fun u v h => Or.inr (isEdge_reverse h)⟩

theorem hull_congr {P Q : List (Vec2 K)} (h : ∀ v, v ∈ Q ↔ v ∈ P) (p : Vec2 K) : InHull2 Q p ↔ InHull2 P p :=
  ⟨hull2_mono fun v hv => hull2_mem ((h v).1 hv), hull2_mono fun v hv => hull2_mem ((h v).2 hv)⟩

omit [IsStrictOrderedRing K] in
theorem interior_congr {P Q : List (Vec2 K)} (h : ∀ v, v ∈ Q ↔ v ∈ P) (p : Vec2 K) : Interior2 Q p ↔ Interior2 P p := by
  unfold Interior2
  simp only [h]

theorem sep_flip {a b : List (Vec2 K)} {p q : Vec2 K} (h : SeparatedAlong a b ⟨-(q.y - p.y), q.x - p.x⟩) :
    SeparatedAlong a b ⟨-(p.y - q.y), p.x - q.x⟩ := by
  rcases h with h | h
  · right; intro x hx y hy; have := h x hx y hy; dsimp only at this ⊢; linarith
  · left; intro x hx y hy; have := h x hx y hy; dsimp only at this ⊢; linarith

theorem weak_flip {a b : List (Vec2 K)} {p q : Vec2 K} (h : WeaklySeparatedAlong a b ⟨-(q.y - p.y), q.x - p.x⟩) :
    WeaklySeparatedAlong a b ⟨-(p.y - q.y), p.x - q.x⟩ := by
  rcases h with h | h
  · right; intro x hx y hy; have := h x hx y hy; dsimp only at this ⊢; linarith
  · left; intro x hx y hy; have := h x hx y hy; dsimp only at this ⊢; linarith

theorem strong_sat' {a b : List (Vec2 K)} (hA : ConvexPolygon a) (hB : ConvexPolygon b) (h : Disjoint2 a b) :
    ∃ p q, (IsEdge a p q ∨ IsEdge b p q) ∧ SeparatedAlong a b ⟨-(q.y - p.y), q.x - p.x⟩ := by
  obtain ⟨a', a1, a2, a3, a4⟩ := ccw_of_convex hA
  obtain ⟨b', b1, b2, b3, b4⟩ := ccw_of_convex hB
  obtain ⟨p, q, he, hs⟩ := strong_sat a1 a2 b1 b2 fun p hp => h p ⟨(hull_congr a3 p).1 hp.1, (hull_congr b3 p).1 hp.2⟩
  have hs' : SeparatedAlong a b ⟨-(q.y - p.y), q.x - p.x⟩ := by
    unfold SeparatedAlong at hs ⊢
    simpa only [a3, b3] using hs
  rcases he with he | he
  · rcases a4 p q he with he | he
    · exact ⟨p, q, Or.inl he, hs'⟩
    · exact ⟨q, p, Or.inl he, sep_flip hs'⟩
  · rcases b4 p q he with he | he
    · exact ⟨p, q, Or.inr he, hs'⟩
    · exact ⟨q, p, Or.inr he, sep_flip hs'⟩

theorem weak_sat' {a b : List (Vec2 K)} (hA : ConvexPolygon a) (hB : ConvexPolygon b) (h : ¬ ∃ p, Interior2 a p ∧ Interior2 b p) :
    ∃ p q, (IsEdge a p q ∨ IsEdge b p q) ∧ WeaklySeparatedAlong a b ⟨-(q.y - p.y), q.x - p.x⟩ := by
  obtain ⟨a', a1, a2, a3, a4⟩ := ccw_of_convex hA
  obtain ⟨b', b1, b2, b3, b4⟩ := ccw_of_convex hB
  obtain ⟨p, q, he, hs⟩ := weak_sat a1 a2 b1 b2 fun ⟨p, hp⟩ => h ⟨p, (interior_congr a3 p).1 hp.1, (interior_congr b3 p).1 hp.2⟩
  have hs' : WeaklySeparatedAlong a b ⟨-(q.y - p.y), q.x - p.x⟩ := by
    unfold WeaklySeparatedAlong at hs ⊢
    simpa only [a3, b3] using hs
  rcases he with he | he
  · rcases a4 p q he with he | he
    · exact ⟨p, q, Or.inl he, hs'⟩
    · exact ⟨q, p, Or.inl he, weak_flip hs'⟩
  · rcases b4 p q he with he | he
    · exact ⟨p, q, Or.inr he, hs'⟩
    · exact ⟨q, p, Or.inr he, weak_flip hs'⟩

theorem convex_edge_ne {P : List (Vec2 K)} (h : ConvexPolygon P) {u v : Vec2 K} (he : IsEdge P u v) : u ≠ v := by
  obtain ⟨hl, h | h⟩ := h
  · exact edge_ne h hl he
  · have : IsEdge P.reverse v u := isEdge_reverse (by rwa [List.reverse_reverse])
    exact (edge_ne h (by simpa using hl) this).symm

theorem convex_interior {P : List (Vec2 K)} (h : ConvexPolygon P) : ∃ p, InHull2 P p ∧ Interior2 P p := by
  obtain ⟨Q, q1, q2, q3, -⟩ := ccw_of_convex h
  obtain ⟨p, h1, h2⟩ := exists_inside q1 q2
  exact ⟨p, (hull_congr q3 p).1 h1, (interior_congr q3 p).1 (interior_of_left q1 q2 h2)⟩

/-- The interior of a convex polygon is part of its hull. -/
theorem interior_hull {P : List (Vec2 K)} (h : ConvexPolygon P) {p : Vec2 K} (hp : Interior2 P p) : InHull2 P p := by
  obtain ⟨Q, q1, q2, q3, -⟩ := ccw_of_convex h
  exact (hull_congr q3 p).1 (inHull_of_left q1 q2 fun u v he => (left_of_interior q1 q2 ((interior_congr q3 p).2 hp) he).le)

theorem weak_no_interior {a b : List (Vec2 K)} {n : Vec2 K} (hn : n ≠ ⟨0, 0⟩) (h : WeaklySeparatedAlong a b n) :
    ¬ ∃ p, Interior2 a p ∧ Interior2 b p := by
  rintro ⟨p, ha, hb⟩
  have hn' : (⟨-n.x, -n.y⟩ : Vec2 K) ≠ ⟨0, 0⟩ := by
    intro e
    rw [Vec2.mk.injEq] at e
    exact hn (Vec2.ext (neg_eq_zero.1 e.1) (neg_eq_zero.1 e.2))
  rcases h with h | h
  · obtain ⟨u, hu, h1⟩ := ha n hn
    obtain ⟨v, hv, h2⟩ := hb _ hn'
    have := h u hu v hv
    dsimp only at h2
    linarith
  · obtain ⟨u, hu, h1⟩ := hb n hn
    obtain ⟨v, hv, h2⟩ := ha _ hn'
    have := h v hv u hu
    dsimp only at h2
    linarith

/-- The polygon `a` cannot be within the hull of `b` if the two are weakly separated. -/
theorem weak_not_within {a b : List (Vec2 K)} (ha : ConvexPolygon a) {n : Vec2 K} (hn : n ≠ ⟨0, 0⟩)
    (h : (∀ p ∈ a, ∀ q ∈ b, p.x * n.x + p.y * n.y ≤ q.x * n.x + q.y * n.y) ∨ (∀ p ∈ a, ∀ q ∈ b, q.x * n.x + q.y * n.y ≤ p.x * n.x + p.y * n.y)) :
    ¬ ∀ p ∈ a, InHull2 b p := by
  intro hin
  have hn' : (⟨-n.x, -n.y⟩ : Vec2 K) ≠ ⟨0, 0⟩ := by
    intro e
    rw [Vec2.mk.injEq] at e
    exact hn (Vec2.ext (neg_eq_zero.1 e.1) (neg_eq_zero.1 e.2))
  obtain ⟨p, -, hp⟩ := convex_interior ha
  obtain ⟨u, hu, h1⟩ := hp n hn
  obtain ⟨v, hv, h2⟩ := hp _ hn'
  dsimp only at h2
  rcases h with h | h
  · have := hull2_ge (d := n) (c := u.x * n.x + u.y * n.y) (hin v hv) fun q hq => h u hu q hq
    unfold Vec2.dot at this
    linarith
  · have := hull2_le (d := n) (c := v.x * n.x + v.y * n.y) (hin u hu) fun q hq => h v hv q hq
    unfold Vec2.dot at this
    linarith

/-- **C108**: for strictly convex polygons of either orientation `polygonRelationship2D` answers `DISTANCE` exactly if their hulls are disjoint, `INTERSECT`
exactly if their interiors have a common point, and `TOUCH` exactly if they have common points but none of them is interior to both. -/
theorem C108_classification (big : K) (a b : List (Vec2 K)) (ha : ConvexPolygon a) (hb : ConvexPolygon b)
    (hrange : ∀ p q, IsEdge a p q ∨ IsEdge b p q → ∀ v, v ∈ a ∨ v ∈ b → |v.x * -(q.y - p.y) + v.y * (q.x - p.x)| < big) :
    (polygonRelationship big a b = .distance ↔ ∀ p, ¬ (InHull2 a p ∧ InHull2 b p)) ∧
    (polygonRelationship big a b = .touch ↔ (∃ p, InHull2 a p ∧ InHull2 b p) ∧ ¬ ∃ p, Interior2 a p ∧ Interior2 b p) ∧
    (polygonRelationship big a b = .intersect ↔ ∃ p, Interior2 a p ∧ Interior2 b p) := by
  have a0 : a ≠ [] := by rintro rfl; simp [ConvexPolygon] at ha
  have b0 : b ≠ [] := by rintro rfl; simp [ConvexPolygon] at hb
  have hne : ∀ p q, IsEdge a p q ∨ IsEdge b p q → (⟨-(q.y - p.y), q.x - p.x⟩ : Vec2 K) ≠ ⟨0, 0⟩ := by
    intro p q he e
    rw [Vec2.mk.injEq] at e
    have : p ≠ q := by
      rcases he with he | he
      · exact convex_edge_ne ha he
      · exact convex_edge_ne hb he
    apply this
    ext
    · linear_combination -e.2
    · linear_combination e.1
  have hd : polygonRelationship big a b = .distance ↔ ∀ p, ¬ (InHull2 a p ∧ InHull2 b p) :=
    ⟨C51_distance_sound big a b, fun h => (C51_distance_iff big a b a0 b0 hrange).2 (strong_sat' ha hb h)⟩
  have ht : polygonRelationship big a b = .touch → ¬ ∃ p, Interior2 a p ∧ Interior2 b p := by
    intro h
    obtain ⟨p, q, he, hw, -⟩ := C51_touch big a b a0 b0 hrange h
    exact weak_no_interior (hne p q he) hw
  have hi : polygonRelationship big a b = .intersect → ∃ p, Interior2 a p ∧ Interior2 b p := by
    intro h
    by_contra hc
    obtain ⟨p, q, he, hw⟩ := weak_sat' ha hb hc
    have hn := hne p q he
    obtain ⟨-, h2⟩ := axisLoop_spec (big := big) (a := a) (b := b) (axes a ++ axes b) false
    obtain ⟨h1, -⟩ := axisLoop_spec (big := big) (a := a) (b := b) (axes a ++ axes b) false
    have hm : (⟨-(q.y - p.y), q.x - p.x⟩ : Vec2 K) ∈ axes a ++ axes b := by
      rw [List.mem_append, axes_iff, axes_iff]
      rcases he with he | he
      · exact Or.inl ⟨p, q, he, rfl⟩
      · exact Or.inr ⟨p, q, he, rfl⟩
    unfold polygonRelationship at h
    cases hx : axisLoop big a b (axes a ++ axes b) false with
    | none => rw [hx] at h; cases h
    | some t =>
      rw [hx] at h
      dsimp only at h
      have hov : checkOverlap (projectPolygon big a ⟨-(q.y - p.y), q.x - p.x⟩) (projectPolygon big b ⟨-(q.y - p.y), q.x - p.x⟩) = true := by
        by_contra hov
        rw [Bool.not_eq_true] at hov
        rw [h1.2 ⟨_, hm, hov⟩] at hx
        cases hx
      have htt : t = true := by
        refine (h2 t hx).2 (Or.inr ⟨_, hm, ?_⟩)
        obtain ⟨⟨p1, m1, e1⟩, ⟨p2, m2, e2⟩⟩ := project_attained (big := big) (n := ⟨-(q.y - p.y), q.x - p.x⟩) a0
          (fun v hv => hrange p q he v (Or.inl hv))
        obtain ⟨⟨q1, k1, f1⟩, ⟨q2, k2, f2⟩⟩ := project_attained (big := big) (n := ⟨-(q.y - p.y), q.x - p.x⟩) b0
          (fun v hv => hrange p q he v (Or.inr hv))
        unfold checkOverlap at hov
        simp only [Bool.and_eq_true, decide_eq_true_eq] at hov
        rw [e1, f2, f1, e2] at hov
        rw [e1, e2, f1, f2]
        rcases hw with hw | hw
        · right
          exact le_antisymm (hw p2 m2 q1 k1) hov.2
        · left
          exact le_antisymm hov.1 (hw p1 m1 q2 k2)
      rw [htt] at h
      split at h
      · rename_i hall
        rw [Bool.or_eq_true, List.all_eq_true, List.all_eq_true] at hall
        rcases hall with hall | hall
        · exact weak_not_within ha hn hw fun v hv => inside_hull (hall v hv)
        · refine weak_not_within hb hn ?_ fun v hv => inside_hull (hall v hv)
          rcases hw with hw | hw
          · exact Or.inr fun x hx y hy => hw y hy x hx
          · exact Or.inl fun x hx y hy => hw y hy x hx
      · simp at h
  have common : (∃ p, Interior2 a p ∧ Interior2 b p) → ∃ p, InHull2 a p ∧ InHull2 b p := by
    rintro ⟨p, h1, h2⟩
    exact ⟨p, interior_hull ha h1, interior_hull hb h2⟩
  refine ⟨hd, ⟨fun h => ⟨?_, ht h⟩, fun ⟨⟨p, hp⟩, h⟩ => ?_⟩, hi, fun h => ?_⟩
  · by_contra hc
    push Not at hc
    rw [hd.2 fun p hp => hc p hp.1 hp.2] at h
    cases h
  · cases e : polygonRelationship big a b with
    | touch => rfl
    | distance => exact absurd hp (hd.1 e p)
    | intersect => exact absurd (hi e) h
  · cases e : polygonRelationship big a b with
    | intersect => rfl
    | touch => exact absurd h (ht e)
    | distance => obtain ⟨p, hp⟩ := common h; exact absurd hp (hd.1 e p)

/-- The pairs of successive vertices in the order of the loop of `pointInPolygon2D`. -/
def loopEdges (P : List (Vec2 K)) : List (Vec2 K × Vec2 K) := match P.getLast? with | none => [] | some z => (z :: P).zip P

theorem loopEdges_edge {K : Type} {P : List (Vec2 K)} {u v : Vec2 K} : (u, v) ∈ loopEdges P ↔ IsEdge P u v := by
  unfold loopEdges
  cases hz : P.getLast? with
  | none =>
    rw [List.getLast?_eq_none_iff] at hz
    subst hz
    simp [IsEdge]
  | some z =>
    have hl : 0 < P.length := by
      rw [List.length_pos_iff]; rintro rfl; simp at hz
    rw [List.getLast?_eq_getElem?] at hz
    dsimp only
    rw [List.mem_iff_getElem?]
    constructor
    · rintro ⟨i, hi⟩
      rw [List.getElem?_zip_eq_some] at hi
      obtain ⟨h1, h2⟩ := hi
      have hil := (List.getElem?_eq_some_iff.1 h2).1
      dsimp only at h1 h2
      cases i with
      | zero =>
        rw [List.getElem?_cons_zero] at h1
        obtain rfl := Option.some.inj h1
        refine ⟨P.length - 1, by omega, hz, ?_⟩
        rw [show P.length - 1 + 1 = P.length by omega, Nat.mod_self]
        exact h2
      | succ i =>
        rw [List.getElem?_cons_succ] at h1
        exact ⟨i, by omega, h1, by rw [Nat.mod_eq_of_lt hil]; exact h2⟩
    · rintro ⟨i, hi, h1, h2⟩
      by_cases e : i + 1 < P.length
      · rw [Nat.mod_eq_of_lt e] at h2
        exact ⟨i + 1, List.getElem?_zip_eq_some.2 ⟨by rw [List.getElem?_cons_succ]; exact h1, h2⟩⟩
      · obtain rfl : i = P.length - 1 := by omega
        rw [show P.length - 1 + 1 = P.length by omega, Nat.mod_self] at h2
        refine ⟨0, List.getElem?_zip_eq_some.2 ⟨?_, h2⟩⟩
        rw [List.getElem?_cons_zero, ← hz, h1]

omit [IsStrictOrderedRing K] in
theorem insideLoop_count (p : Vec2 K) : ∀ (l : List (Vec2 K)) (j : Vec2 K) (b : Bool),
    insideLoop p j l b = (b ^^ decide (((j :: l).zip l).countP (fun e => crossesRight p e.2 e.1) % 2 = 1))
  | [], j, b => by simp [insideLoop]
  | i :: l, j, b => by
    rw [insideLoop, insideLoop_count p l i, List.zip_cons_cons, List.countP_cons]
    by_cases h : crossesRight p i j = true
    · rw [if_pos h]
      dsimp only
      rw [if_pos h]
      rcases Nat.mod_two_eq_zero_or_one (List.countP (fun e => crossesRight p e.2 e.1) ((i :: l).zip l)) with e | e
      · rw [e, show (List.countP (fun e => crossesRight p e.2 e.1) ((i :: l).zip l) + 1) % 2 = 1 by omega]
        cases b <;> rfl
      · rw [e, show (List.countP (fun e => crossesRight p e.2 e.1) ((i :: l).zip l) + 1) % 2 = 0 by omega]
        cases b <;> rfl
    · rw [if_neg h]
      dsimp only
      rw [if_neg h, Nat.add_zero]

omit [IsStrictOrderedRing K] in
/-- The point is inside if exactly one edge crosses the ray. -/
theorem inside_of_unique {P : List (Vec2 K)} (hn : P.Nodup) {p u v : Vec2 K} (he : IsEdge P u v) (hc : crossesRight p v u = true)
    (hu : ∀ u' v', IsEdge P u' v' → crossesRight p v' u' = true → u' = u ∧ v' = v) : pointInPolygon P p = true := by
  have hm := loopEdges_edge.2 he
  have hN : (loopEdges P).Nodup := by
    unfold loopEdges
    cases P.getLast? with
    | none => simp
    | some z =>
      dsimp only
      refine List.Nodup.of_map Prod.snd ?_
      rw [List.map_snd_zip (by simp)]
      exact hn
  have h1 : (loopEdges P).countP (fun e => crossesRight p e.2 e.1) = 1 := by
    rw [← List.count_eq_one_of_mem hN hm, List.count]
    apply List.countP_congr
    rintro ⟨u', v'⟩ h
    dsimp only
    rw [beq_iff_eq, Prod.mk.injEq]
    constructor
    · exact hu u' v' (loopEdges_edge.1 h)
    · rintro ⟨rfl, rfl⟩; exact hc
  unfold pointInPolygon
  unfold loopEdges at h1 hm
  cases hz : P.getLast? with
  | none => rw [hz] at hm; simp at hm
  | some z =>
    rw [hz] at h1
    dsimp only at h1 ⊢
    rw [insideLoop_count, h1]
    rfl

omit [IsStrictOrderedRing K] in
theorem crossesRight_symm (p i j : Vec2 K) : crossesRight p i j = crossesRight p j i := by
  unfold crossesRight
  by_cases h : i.y = j.y
  · have : ∀ x : K, ((decide (j.y ≤ p.y) && decide (p.y < j.y)) || (decide (j.y ≤ p.y) && decide (p.y < j.y))) = false := by
      intro _
      rcases lt_or_ge p.y j.y with h | h
      · simp [h]
      · simp [not_lt.2 h]
    rw [h, this 0]
    simp
  · have h1 : i.y - j.y ≠ 0 := sub_ne_zero.2 h
    have h2 : j.y - i.y ≠ 0 := sub_ne_zero.2 (Ne.symm h)
    have : (j.x - i.x) * (p.y - i.y) / (j.y - i.y) + i.x = (i.x - j.x) * (p.y - j.y) / (i.y - j.y) + j.x := by
      field_simp
      ring
    rw [this, Bool.or_comm]

/-- An edge crosses the ray from a point strictly on its left only upwards. -/
theorem crossesRight_iff_up {p u v : Vec2 K} (h : 0 < turn u v p) : crossesRight p v u = true ↔ u.y ≤ p.y ∧ p.y < v.y := by
  unfold crossesRight
  unfold turn at h
  rw [Bool.and_eq_true, Bool.or_eq_true, Bool.and_eq_true, Bool.and_eq_true]
  simp only [decide_eq_true_eq]
  constructor
  · rintro ⟨⟨h1, h2⟩ | h1, h3⟩
    · exfalso
      have hd : 0 < u.y - v.y := by linarith
      rw [← sub_lt_iff_lt_add, lt_div_iff₀ hd] at h3
      linarith
    · exact h1
  · rintro ⟨h1, h2⟩
    refine ⟨Or.inr ⟨h1, h2⟩, ?_⟩
    have hd : u.y - v.y < 0 := by linarith
    rw [← sub_lt_iff_lt_add, lt_div_iff_of_neg hd]
    linarith

theorem up_edge {Q : List (Vec2 K)} {p : Vec2 K} (h : Interior2 Q p) : ∃ u v, IsEdge Q u v ∧ u.y ≤ p.y ∧ p.y < v.y := by
  obtain ⟨hi, mhi, h1⟩ := h ⟨0, 1⟩ (by simp)
  obtain ⟨lo, mlo, h2⟩ := h ⟨0, -1⟩ (by simp)
  dsimp only at h1 h2
  obtain ⟨k, hk⟩ := List.mem_iff_getElem?.1 mlo
  obtain ⟨m, hm⟩ := List.mem_iff_getElem?.1 mhi
  have hkl := (List.getElem?_eq_some_iff.1 hk).1
  have hml := (List.getElem?_eq_some_iff.1 hm).1
  by_contra hc
  push Not at hc
  have key : ∀ d w, Q[(k + d) % Q.length]? = some w → w.y ≤ p.y := by
    intro d
    induction d with
    | zero =>
      intro w hw
      rw [Nat.add_zero, Nat.mod_eq_of_lt hkl, hk] at hw
      obtain rfl := Option.some.inj hw
      linarith
    | succ d ih =>
      intro w hw
      have hlt : (k + d) % Q.length < Q.length := Nat.mod_lt _ (by omega)
      refine hc _ w ⟨(k + d) % Q.length, hlt, List.getElem?_eq_getElem hlt, ?_⟩ (ih _ (List.getElem?_eq_getElem hlt))
      rw [Nat.mod_add_mod]
      exact hw
  have := key (Q.length - k + m) hi (by
    rw [show k + (Q.length - k + m) = m + Q.length by omega, Nat.add_mod_right, Nat.mod_eq_of_lt hml]; exact hm)
  linarith

theorem edge_next {Q : List (Vec2 K)} (hQ : ConvexCCW Q) (hl : 3 ≤ Q.length) {u v w : Vec2 K} (h1 : IsEdge Q u v) (h2 : IsEdge Q u w) : v = w := by
  have mem : ∀ {x y : Vec2 K}, IsEdge Q x y → y ∈ Q := fun ⟨_, _, _, h⟩ => List.mem_iff_getElem?.2 ⟨_, h⟩
  have k1 := edge_support hQ h1 w (mem h2)
  have k2 := edge_support hQ h2 v (mem h1)
  rw [turn_anti] at k2
  rcases edge_zero hQ h1 (mem h2) (by linarith) with e | e
  · exact absurd e.symm (edge_ne hQ hl h2)
  · exact e.symm

theorem up_unique_aux {Q : List (Vec2 K)} (hQ : ConvexCCW Q) (hl : 3 ≤ Q.length) {y : K} {u v u' v' : Vec2 K} (h1 : IsEdge Q u v)
    (h2 : IsEdge Q u' v') (a1 : u.y ≤ y) (a2 : y < v.y) (b1 : u'.y ≤ y) (b2 : y < v'.y)
    (hx : (v.x - u.x) * (y - u.y) / (v.y - u.y) + u.x ≤ (v'.x - u'.x) * (y - u'.y) / (v'.y - u'.y) + u'.x) : u' = u ∧ v' = v := by
  have mem1 : ∀ {x y : Vec2 K}, IsEdge Q x y → x ∈ Q := fun ⟨_, _, h, _⟩ => List.mem_iff_getElem?.2 ⟨_, h⟩
  have mem : ∀ {x y : Vec2 K}, IsEdge Q x y → y ∈ Q := fun ⟨_, _, _, h⟩ => List.mem_iff_getElem?.2 ⟨_, h⟩
  have d1 : 0 < v.y - u.y := by linarith
  have d2 : 0 < v'.y - u'.y := by linarith
  have k1 := edge_support hQ h1 u' (mem1 h2)
  have k2 := edge_support hQ h1 v' (mem h2)
  have e : (v'.y - y) * turn u v u' + (y - u'.y) * turn u v v' =
      (v'.y - u'.y) * ((v.y - u.y) * (((v.x - u.x) * (y - u.y) / (v.y - u.y) + u.x) - ((v'.x - u'.x) * (y - u'.y) / (v'.y - u'.y) + u'.x))) := by
    unfold turn; field_simp; ring
  have r : (v'.y - u'.y) * ((v.y - u.y) * (((v.x - u.x) * (y - u.y) / (v.y - u.y) + u.x) - ((v'.x - u'.x) * (y - u'.y) / (v'.y - u'.y) + u'.x))) ≤ 0 :=
    mul_nonpos_of_nonneg_of_nonpos d2.le (mul_nonpos_of_nonneg_of_nonpos d1.le (by linarith))
  have c1 : 0 ≤ (v'.y - y) * turn u v u' := mul_nonneg (by linarith) k1
  have c2 : 0 ≤ (y - u'.y) * turn u v v' := mul_nonneg (by linarith) k2
  have z : turn u v u' = 0 := (mul_eq_zero.1 (by linarith : (v'.y - y) * turn u v u' = 0)).resolve_left (by linarith [sub_pos.2 b2] : v'.y - y ≠ 0)
  rcases edge_zero hQ h1 (mem1 h2) z with e | e
  · subst e
    exact ⟨rfl, edge_next hQ hl h2 h1⟩
  · subst e
    exact absurd b1 (not_le.2 a2)

theorem up_unique {Q : List (Vec2 K)} (hQ : ConvexCCW Q) (hl : 3 ≤ Q.length) {y : K} {u v u' v' : Vec2 K} (h1 : IsEdge Q u v)
    (h2 : IsEdge Q u' v') (a1 : u.y ≤ y) (a2 : y < v.y) (b1 : u'.y ≤ y) (b2 : y < v'.y) : u' = u ∧ v' = v := by
  rcases le_total ((v.x - u.x) * (y - u.y) / (v.y - u.y) + u.x) ((v'.x - u'.x) * (y - u'.y) / (v'.y - u'.y) + u'.x) with h | h
  · exact up_unique_aux hQ hl h1 h2 a1 a2 b1 b2 h
  · obtain ⟨e1, e2⟩ := up_unique_aux hQ hl h2 h1 b1 b2 a1 a2 h
    exact ⟨e1.symm, e2.symm⟩

omit [IsStrictOrderedRing K] in
theorem convex_nodup {Q : List (Vec2 K)} (hQ : ConvexCCW Q) (hl : 3 ≤ Q.length) : Q.Nodup := by
  rw [List.nodup_iff_getElem?_ne_getElem?]
  intro i j hij hj e
  have hi : i < Q.length := by omega
  obtain ⟨u, hu⟩ : ∃ u, Q[i]? = some u := ⟨_, List.getElem?_eq_getElem hi⟩
  have hv := hu
  rw [e] at hv
  have z1 : ∀ w : Vec2 K, turn u u w = 0 := fun w => by unfold turn; ring
  have z2 : ∀ w : Vec2 K, turn w u u = 0 := fun w => by unfold turn; ring
  have z3 : ∀ w : Vec2 K, turn u w u = 0 := fun w => by unfold turn; ring
  obtain ⟨k, hkl, h1, h2⟩ : ∃ k, k < Q.length ∧ k ≠ i ∧ k ≠ j := by
    by_contra h
    push Not at h
    have a0 := h 0 (by omega)
    have a1 := h 1 (by omega)
    have a2 := h 2 (by omega)
    omega
  have hk := List.getElem?_eq_getElem hkl
  rcases lt_or_gt_of_ne h1 with h | h
  · have := hQ _ _ _ (sublist_three h hij hk hu hv)
    rw [z2] at this; exact lt_irrefl _ this
  rcases lt_or_gt_of_ne h2 with h' | h'
  · have := hQ _ _ _ (sublist_three h h' hu hk hv)
    rw [z3] at this; exact lt_irrefl _ this
  · have := hQ _ _ _ (sublist_three hij h' hu hv hk)
    rw [z1] at this; exact lt_irrefl _ this

/-- **C108**: for a strictly convex polygon of either orientation `pointInPolygon2D` answers true for every interior point and false for every point that is
not in the hull. -/
theorem C108_point_in_polygon (P : List (Vec2 K)) (hP : ConvexPolygon P) (p : Vec2 K) :
    (Interior2 P p → pointInPolygon P p = true) ∧ (¬ InHull2 P p → pointInPolygon P p = false) := by
  refine ⟨fun hp => ?_, fun h => ?_⟩
  · have unique : ∀ {Q : List (Vec2 K)}, ConvexCCW Q → 3 ≤ Q.length → Interior2 Q p → ∃ u v, IsEdge Q u v ∧ crossesRight p v u = true ∧
        ∀ u' v', IsEdge Q u' v' → crossesRight p v' u' = true → u' = u ∧ v' = v := by
      intro Q hQ hl hp
      obtain ⟨u, v, he, h1, h2⟩ := up_edge hp
      refine ⟨u, v, he, (crossesRight_iff_up (left_of_interior hQ hl hp he)).2 ⟨h1, h2⟩, fun u' v' he' hc => ?_⟩
      obtain ⟨h1', h2'⟩ := (crossesRight_iff_up (left_of_interior hQ hl hp he')).1 hc
      exact up_unique hQ hl he he' h1 h2 h1' h2'
    obtain ⟨hl, h | h⟩ := hP
    · obtain ⟨u, v, h1, h2, h3⟩ := unique h hl hp
      exact inside_of_unique (convex_nodup h hl) h1 h2 h3
    · have hl' : 3 ≤ P.reverse.length := by simpa using hl
      obtain ⟨u, v, h1, h2, h3⟩ := unique h hl' ((interior_congr (fun v => List.mem_reverse) p).2 hp)
      refine inside_of_unique (u := v) (v := u) (List.nodup_reverse.1 (convex_nodup h hl')) (isEdge_reverse h1) (by rw [crossesRight_symm]; exact h2) ?_
      intro u' v' he hc
      have : IsEdge P.reverse v' u' := isEdge_reverse (by rwa [List.reverse_reverse])
      obtain ⟨e1, e2⟩ := h3 v' u' this (by rw [crossesRight_symm]; exact hc)
      exact ⟨e2, e1⟩
  · by_contra hc
    rw [Bool.not_eq_false] at hc
    exact h (inside_hull hc)

/-- A square in counterclockwise order, and triangles in clockwise order that are apart from it, touch it and overlap it. -/
example : ConvexPolygon [(⟨0, 0⟩ : Vec2 ℚ), ⟨4, 0⟩, ⟨4, 4⟩, ⟨0, 4⟩] ∧ ConvexPolygon [(⟨3, 6⟩ : Vec2 ℚ), ⟨7, 7⟩, ⟨6, 3⟩] ∧
    polygonRelationship big308 [⟨0, 0⟩, ⟨4, 0⟩, ⟨4, 4⟩, ⟨0, 4⟩] [⟨3, 6⟩, ⟨7, 7⟩, ⟨6, 3⟩] = .distance ∧
    polygonRelationship big308 [⟨0, 0⟩, ⟨4, 0⟩, ⟨4, 4⟩, ⟨0, 4⟩] [⟨2, 6⟩, ⟨7, 7⟩, ⟨6, 2⟩] = .touch ∧
    polygonRelationship big308 [⟨0, 0⟩, ⟨4, 0⟩, ⟨4, 4⟩, ⟨0, 4⟩] [⟨1, 6⟩, ⟨7, 7⟩, ⟨6, 1⟩] = .intersect ∧
    pointInPolygon [(⟨3, 6⟩ : Vec2 ℚ), ⟨7, 7⟩, ⟨6, 3⟩] ⟨5, 5⟩ = true := by
  have three : ∀ {a b c : Vec2 ℚ}, 0 < turn a b c → ConvexCCW [a, b, c] := by
    intro a b c h x y z hs
    have := hs.eq_of_length rfl
    simp only [List.cons.injEq, and_true] at this
    obtain ⟨rfl, rfl, rfl⟩ := this
    exact h
  refine ⟨⟨by decide, Or.inl ?_⟩, ⟨by decide, Or.inr (three (by unfold turn; decide +kernel))⟩, by decide +kernel, by decide +kernel, by decide +kernel,
    by decide +kernel⟩
  intro a b c h
  have : ∀ l ∈ [(⟨0, 0⟩ : Vec2 ℚ), ⟨4, 0⟩, ⟨4, 4⟩, ⟨0, 4⟩].sublistsLen 3, ∀ x y z, l = [x, y, z] → 0 < turn x y z := by
    intro l hl x y z e
    subst e
    simp only [List.sublistsLen, List.sublistsLenAux, List.map_cons, List.map_nil, List.append_nil, List.mem_append, List.mem_cons, List.not_mem_nil,
      or_false, Function.comp, id, List.nil_append, List.cons_append, List.cons.injEq, and_true] at hl
    unfold turn
    rcases hl with ⟨rfl, rfl, rfl⟩ | ⟨rfl, rfl, rfl⟩ | ⟨rfl, rfl, rfl⟩ | ⟨rfl, rfl, rfl⟩ <;> norm_num
  exact this _ (List.mem_sublistsLen.2 ⟨h, rfl⟩) a b c rfl

/-- C108 needs convexity: a square in the notch of a polygon is said to intersect it, though the two have no common point. -/
theorem C108_notch_counterexample :
    polygonRelationship big308 [⟨0, 0⟩, ⟨9, 0⟩, ⟨9, 9⟩, ⟨6, 9⟩, ⟨6, 3⟩, ⟨3, 3⟩, ⟨3, 9⟩, ⟨0, 9⟩] [⟨4, 5⟩, ⟨5, 5⟩, ⟨5, 6⟩, ⟨4, 6⟩] = .intersect := by
  decide +kernel

end Cmm.Sep
