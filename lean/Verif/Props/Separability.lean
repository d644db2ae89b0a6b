import Verif.Lemmas.Separability
import Verif.Props.GJK
import Verif.Props.AABB
import Verif.Props.Plane
/-!
Properties of cmmcore/separability.h and cmmcore/polygon.h: C51.
-/
namespace Cmm.Sep
open Cmm.Geom
variable {K : Type} [Field K] [LinearOrder K] [IsStrictOrderedRing K]

/-- No two successive vertices of the closed polygon coincide. -/
def NoRepeat (poly : List (Vec2 K)) : Prop := ∀ p q, IsEdge poly p q → p ≠ q

/-- The polygon whose edges `SAT2D` looks at: the first one, unless it is a single point. -/
def tested (a b : List (Vec2 K)) : List (Vec2 K) := if a.length < 2 then b else a

omit [LinearOrder K] [IsStrictOrderedRing K] in
theorem normals_ne {poly : List (Vec2 K)} (h : NoRepeat poly) : ∀ n ∈ normals poly, n ≠ ⟨0, 0⟩ := by
  intro n hn hz
  unfold normals at hn
  obtain ⟨e, he, rfl⟩ := List.mem_map.1 hn
  have := h e.1 e.2 (edges_iff.1 he)
  rw [Vec2.mk.injEq] at hz
  exact this (Vec2.ext (sub_eq_zero.1 hz.2) (sub_eq_zero.1 hz.1).symm)

theorem sat2d_loop {K : Type} [Arith K] [LinearOrder K] (big : K) (ins : List (Vec2 K) → Vec2 K → Bool) (a b : List (Vec2 K)) (ha : a ≠ []) (hb : b ≠ []) :
    (∃ p q, a = [p] ∧ b = [q] ∧ sat2d big ins a b = .ok (!tolEq q p)) ∨
      (2 ≤ a.length ∨ 2 ≤ b.length) ∧ sat2d big ins a b = satLoop big ins a b (normals (tested a b)) [] := by
  unfold tested
  match a, b, ha, hb with
  | [p], [q], _, _ => exact Or.inl ⟨p, q, rfl, rfl, rfl⟩
  | [p], q :: q' :: b, _, _ => exact Or.inr ⟨Or.inr (by simp), rfl⟩
  | p :: p' :: a, q :: b, _, _ =>
    refine Or.inr ⟨Or.inl (by simp), ?_⟩
    rw [if_neg (by simp)]
    cases b <;> rfl

omit [IsStrictOrderedRing K] in
theorem hull_singleton {p q : Vec2 K} (h : InHull2 [p] q) : q = p := by
  obtain ⟨w, hl, _, hs, hx, hy⟩ := h
  match w, hl with
  | [u], _ =>
    simp only [List.zipWith_cons_cons, List.zipWith_nil_right, List.sum_cons, List.sum_nil, add_zero] at hs hx hy
    subst hs
    ext
    · rw [hx]; ring
    · rw [hy]; ring

/-- **C51** (partial: see C51_sat2d_repeated_counterexample): if `SAT2D` returns true, the convex hulls of the two polygons have no common point,
provided that the polygon whose edges are tested has no repeated vertex in succession. -/
theorem C51_sat2d_sound_partial (big : K) (hbig : 0 < big) (ins : List (Vec2 K) → Vec2 K → Bool) (a b : List (Vec2 K))
    (hr : NoRepeat (tested a b) ∨ a.length < 2 ∧ b.length < 2) (h : sat2d big ins a b = .ok true) : Disjoint2 a b := by
  have ha : a ≠ [] := by rintro rfl; simp [sat2d] at h
  have hb : b ≠ [] := by rintro rfl; cases a <;> simp [sat2d] at h
  rcases sat2d_loop big ins a b ha hb with ⟨p, q, rfl, rfl, e⟩ | ⟨hl, e⟩
  · rw [e] at h
    have h := Res.ok.inj h
    rintro r ⟨h1, h2⟩
    have e1 := hull_singleton h1
    have e2 := hull_singleton h2
    subst e1; subst e2
    have he := machEps_pos (K := K)
    simp [tolEq_field, he] at h
  · rw [e] at h
    obtain ⟨r, e', h1, -⟩ := satLoop_spec hbig ins a b (normals (tested a b)) (normals (tested a b)) [] (fun _ h => h) (by simp)
    rw [e'] at h
    obtain ⟨n, hn, hap⟩ := h1 (Res.ok.inj h)
    have hr' : NoRepeat (tested a b) := by
      rcases hr with hr | ⟨h1, h2⟩
      · exact hr
      · omega
    exact separatedAlong_disjoint ha hb (apart_sound (normals_ne hr' n hn) hap)

/-- The number `1e308`, in the order of the largest `double`. -/
def big308 : ℚ := 10 ^ 308

example : sat2d big308 (fun _ _ => true) [⟨0, 0⟩, ⟨1, 0⟩, ⟨0, 1⟩] [⟨2, 2⟩, ⟨3, 2⟩, ⟨2, 3⟩] = .ok true := by decide +kernel

example : NoRepeat (tested [(⟨0, 0⟩ : Vec2 ℚ), ⟨1, 0⟩, ⟨0, 1⟩] [⟨2, 2⟩, ⟨3, 2⟩, ⟨2, 3⟩]) := by
  intro p q h
  have : ∀ e ∈ edges [(⟨0, 0⟩ : Vec2 ℚ), ⟨1, 0⟩, ⟨0, 1⟩], e.1 ≠ e.2 := by decide +kernel
  exact this (p, q) (edges_iff.2 h)

/-- C51: a repeated vertex makes `SAT2D` report a separation of two polygons that overlap: the projections on its zero normal are NaN. -/
theorem C51_sat2d_repeated_counterexample (ins : List (Vec2 ℚ) → Vec2 ℚ → Bool) :
    ∃ a b : List (Vec2 ℚ), sat2d big308 ins a b = .ok true ∧ ∃ p, InHull2 a p ∧ InHull2 b p := by
  refine ⟨[⟨0, 0⟩, ⟨0, 0⟩, ⟨1, 0⟩, ⟨0, 1⟩], [⟨0, 0⟩, ⟨1, 0⟩, ⟨0, 1⟩], ?_, ⟨0, 0⟩, hull2_mem (by simp), hull2_mem (by simp)⟩
  have h : apart big308 [⟨0, 0⟩, ⟨0, 0⟩, ⟨1, 0⟩, ⟨0, 1⟩] [⟨0, 0⟩, ⟨1, 0⟩, ⟨0, 1⟩] ⟨0 - 0, 0 - 0⟩ = true := by decide +kernel
  simp only [sat2d, normals, edges, List.drop, List.take, List.cons_append, List.nil_append, List.zip_cons_cons, List.map_cons, satLoop,
    contains, List.any_nil, h, if_true]
  rfl

/-- **C51**: `SAT2D` throws exactly if one of the polygons is empty. -/
theorem C51_sat2d_throws (big : K) (hbig : 0 < big) (ins : List (Vec2 K) → Vec2 K → Bool) (a b : List (Vec2 K)) :
    (sat2d big ins a b = .throws ↔ a = [] ∨ b = []) ∧ sat2d big ins a b ≠ .ub := by
  by_cases ha : a = []
  · subst ha; simp [sat2d]
  by_cases hb : b = []
  · subst hb
    cases a with
    | nil => exact absurd rfl ha
    | cons p a => simp [sat2d]
  simp only [ha, hb, or_self, iff_false]
  rcases sat2d_loop big ins a b ha hb with ⟨p, q, rfl, rfl, e⟩ | ⟨_, e⟩
  · rw [e]; simp
  · rw [e]
    obtain ⟨r, e', -, -⟩ := satLoop_spec hbig ins a b (normals (tested a b)) (normals (tested a b)) [] (fun _ h => h) (by simp)
    rw [e']; simp

/-- C51: if `SAT2D` returns false, no normal of the tested polygon separates the polygons, except perhaps one that agrees with a tested normal up
to the machine epsilon (such a normal is skipped). -/
theorem C51_sat2d_false (big : K) (hbig : 0 < big) (ins : List (Vec2 K) → Vec2 K → Bool) (a b : List (Vec2 K)) (hl : 2 ≤ a.length ∨ 2 ≤ b.length)
    (hr : NoRepeat (tested a b))
    (hba : ∀ n ∈ normals (tested a b), ∀ p, p ∈ a ∨ p ∈ b → |p.dot n / n.dot n| < big) (h : sat2d big ins a b = .ok false) :
    ∀ p q, IsEdge (tested a b) p q → ∃ p' q', IsEdge (tested a b) p' q' ∧ |(q'.y - p'.y) - (q.y - p.y)| < 1 / 2 ^ 52 ∧
      |(p'.x - q'.x) - (p.x - q.x)| < 1 / 2 ^ 52 ∧ ¬ SeparatedAlong a b ⟨q'.y - p'.y, p'.x - q'.x⟩ := by
  have ha : a ≠ [] := by rintro rfl; simp [sat2d] at h
  have hb : b ≠ [] := by rintro rfl; cases a <;> simp [sat2d] at h
  rcases sat2d_loop big ins a b ha hb with ⟨p, q, rfl, rfl, e⟩ | ⟨_, e⟩
  · simp at hl
  rw [e] at h
  obtain ⟨r, e', -, h2⟩ := satLoop_spec hbig ins a b (normals (tested a b)) (normals (tested a b)) [] (fun _ h => h) (by simp)
  rw [e'] at h
  intro p q hpq
  obtain ⟨n', hn', ht, hap⟩ := h2 (Res.ok.inj h) ⟨q.y - p.y, p.x - q.x⟩ (List.mem_map.2 ⟨(p, q), edges_iff.2 hpq, rfl⟩)
  obtain ⟨⟨p', q'⟩, he, rfl⟩ := List.mem_map.1 hn'
  have hm := machEps_pos (K := K)
  refine ⟨p', q', edges_iff.1 he, ?_, ?_, fun hs => ?_⟩
  · rcases ht with ht | ht
    · rw [(Vec2.mk.inj ht).1, sub_self, abs_zero]; exact hm
    · simp only [tolEq_field, Bool.and_eq_true, decide_eq_true_eq] at ht
      exact ht.1
  · rcases ht with ht | ht
    · rw [(Vec2.mk.inj ht).2, sub_self, abs_zero]; exact hm
    · simp only [tolEq_field, Bool.and_eq_true, decide_eq_true_eq] at ht
      exact ht.2
  · rw [apart_complete (normals_ne hr _ hn') ha hb (fun v hv => hba _ hn' v (Or.inl hv)) (fun v hv => hba _ hn' v (Or.inr hv)) hs] at hap
    cases hap

/-- C51: `SAT2D` looks at the edges of the first polygon only, so a separation by an edge of the second one is missed. -/
theorem C51_sat2d_incomplete_counterexample :
    sat2d big308 (fun _ _ => true) [⟨0, 0⟩, ⟨4, 0⟩, ⟨4, 4⟩, ⟨0, 4⟩] [⟨3, 6⟩, ⟨6, 3⟩, ⟨7, 7⟩] = .ok false ∧
      sat2d big308 (fun _ _ => true) [⟨3, 6⟩, ⟨6, 3⟩, ⟨7, 7⟩] [⟨0, 0⟩, ⟨4, 0⟩, ⟨4, 4⟩, ⟨0, 4⟩] = .ok true := by
  constructor <;> decide +kernel

/-- **C51**: `polygonRelationship2D` returns DISTANCE only if the convex hulls are disjoint (for any polygons, convex or not). -/
theorem C51_distance_sound (big : K) (a b : List (Vec2 K)) (h : polygonRelationship big a b = .distance) : Disjoint2 a b := by
  unfold polygonRelationship at h
  obtain ⟨h1, -⟩ := axisLoop_spec (big := big) (a := a) (b := b) (axes a ++ axes b) false
  cases hx : axisLoop big a b (axes a ++ axes b) false with
  | some t =>
    rw [hx] at h
    dsimp only at h
    split at h
    · cases h
    · split at h <;> cases h
  | none =>
    obtain ⟨n, -, hn⟩ := h1.1 hx
    have hs := checkOverlap_sound hn
    by_cases ha : a = []
    · subst ha
      rintro p ⟨⟨w, hl, _, hsum, _⟩, _⟩
      rw [List.length_nil, List.length_eq_zero_iff] at hl
      subst hl
      simp at hsum
    by_cases hb : b = []
    · subst hb
      rintro p ⟨_, ⟨w, hl, _, hsum, _⟩⟩
      rw [List.length_nil, List.length_eq_zero_iff] at hl
      subst hl
      simp at hsum
    exact separatedAlong_disjoint ha hb hs

theorem axes_iff {K : Type} [Arith K] {poly : List (Vec2 K)} {n : Vec2 K} : n ∈ axes poly ↔ ∃ p q, IsEdge poly p q ∧ n = ⟨-(q.y - p.y), q.x - p.x⟩ := by
  unfold axes
  rw [List.mem_map]
  constructor
  · rintro ⟨⟨p, q⟩, h, rfl⟩; exact ⟨p, q, edges_iff.1 h, rfl⟩
  · rintro ⟨p, q, h, rfl⟩; exact ⟨(p, q), edges_iff.2 h, rfl⟩

/-- C51: DISTANCE is returned exactly if the normal of some edge of either polygon separates them. -/
theorem C51_distance_iff (big : K) (a b : List (Vec2 K)) (ha : a ≠ []) (hb : b ≠ [])
    (hrange : ∀ p q, IsEdge a p q ∨ IsEdge b p q → ∀ v, v ∈ a ∨ v ∈ b → |v.x * -(q.y - p.y) + v.y * (q.x - p.x)| < big) :
    polygonRelationship big a b = .distance ↔
      ∃ p q, (IsEdge a p q ∨ IsEdge b p q) ∧ SeparatedAlong a b ⟨-(q.y - p.y), q.x - p.x⟩ := by
  have key : ∀ n, n ∈ axes a ++ axes b ↔ ∃ p q, (IsEdge a p q ∨ IsEdge b p q) ∧ n = ⟨-(q.y - p.y), q.x - p.x⟩ := by
    intro n
    rw [List.mem_append, axes_iff, axes_iff]
    constructor
    · rintro (⟨p, q, h, e⟩ | ⟨p, q, h, e⟩)
      · exact ⟨p, q, Or.inl h, e⟩
      · exact ⟨p, q, Or.inr h, e⟩
    · rintro ⟨p, q, h | h, e⟩
      · exact Or.inl ⟨p, q, h, e⟩
      · exact Or.inr ⟨p, q, h, e⟩
  obtain ⟨h1, -⟩ := axisLoop_spec (big := big) (a := a) (b := b) (axes a ++ axes b) false
  have h0 : polygonRelationship big a b = .distance ↔ axisLoop big a b (axes a ++ axes b) false = none := by
    unfold polygonRelationship
    cases hx : axisLoop big a b (axes a ++ axes b) false with
    | none => simp
    | some t =>
      dsimp only
      constructor
      · intro h
        split at h
        · cases h
        · split at h <;> cases h
      · intro h; cases h
  rw [h0, h1]
  constructor
  · rintro ⟨n, hn, hc⟩
    obtain ⟨p, q, he, rfl⟩ := (key n).1 hn
    exact ⟨p, q, he, checkOverlap_sound hc⟩
  · rintro ⟨p, q, he, hs⟩
    exact ⟨_, (key _).2 ⟨p, q, he, rfl⟩, checkOverlap_complete ha hb (fun v hv => hrange p q he v (Or.inl hv))
      (fun v hv => hrange p q he v (Or.inr hv)) hs⟩

/-- C51: TOUCH is returned only if the normal of some edge weakly separates the polygons: no point of one is beyond a point of the other, and
the two share an extreme value. -/
theorem C51_touch (big : K) (a b : List (Vec2 K)) (ha : a ≠ []) (hb : b ≠ [])
    (hrange : ∀ p q, IsEdge a p q ∨ IsEdge b p q → ∀ v, v ∈ a ∨ v ∈ b → |v.x * -(q.y - p.y) + v.y * (q.x - p.x)| < big)
    (h : polygonRelationship big a b = .touch) :
    ∃ p q, (IsEdge a p q ∨ IsEdge b p q) ∧ WeaklySeparatedAlong a b ⟨-(q.y - p.y), q.x - p.x⟩ ∧
      ∃ u ∈ a, ∃ v ∈ b, u.dot ⟨-(q.y - p.y), q.x - p.x⟩ = v.dot ⟨-(q.y - p.y), q.x - p.x⟩ := by
  obtain ⟨-, h2⟩ := axisLoop_spec (big := big) (a := a) (b := b) (axes a ++ axes b) false
  unfold polygonRelationship at h
  cases hx : axisLoop big a b (axes a ++ axes b) false with
  | none => rw [hx] at h; cases h
  | some t =>
    rw [hx] at h
    dsimp only at h
    split at h
    · cases h
    · split at h
      · rename_i ht
        rcases (h2 t hx).1 ht with h' | ⟨n, hn, hc⟩
        · cases h'
        · obtain ⟨p, q, he, rfl⟩ : ∃ p q, (IsEdge a p q ∨ IsEdge b p q) ∧ n = ⟨-(q.y - p.y), q.x - p.x⟩ := by
            rcases List.mem_append.1 hn with h | h
            · obtain ⟨p, q, h, e⟩ := axes_iff.1 h; exact ⟨p, q, Or.inl h, e⟩
            · obtain ⟨p, q, h, e⟩ := axes_iff.1 h; exact ⟨p, q, Or.inr h, e⟩
          obtain ⟨⟨p1, m1, e1⟩, ⟨p2, m2, e2⟩⟩ := project_attained (big := big) (n := ⟨-(q.y - p.y), q.x - p.x⟩) ha
            (fun v hv => hrange p q he v (Or.inl hv))
          obtain ⟨⟨q1, k1, f1⟩, ⟨q2, k2, f2⟩⟩ := project_attained (big := big) (n := ⟨-(q.y - p.y), q.x - p.x⟩) hb
            (fun v hv => hrange p q he v (Or.inr hv))
          obtain ⟨a1, a2, -⟩ := fold_minmax (fun v : Vec2 K => v.dot ⟨-(q.y - p.y), q.x - p.x⟩) a (big, -big)
          obtain ⟨b1, b2, -⟩ := fold_minmax (fun v : Vec2 K => v.dot ⟨-(q.y - p.y), q.x - p.x⟩) b (big, -big)
          refine ⟨p, q, he, ?_⟩
          unfold projectPolygon at hc e1 e2 f1 f2
          rcases hc with hc | hc
          · refine ⟨Or.inr fun u hu v hv => (b2 v hv).trans (hc ▸ a1 u hu), p1, m1, q2, k2, ?_⟩
            rw [← e1, ← f2]; exact hc
          · refine ⟨Or.inl fun u hu v hv => (a2 u hu).trans (hc ▸ b1 v hv), p2, m2, q1, k1, ?_⟩
            rw [← e2, ← f1]; exact hc
      · cases h

example : polygonRelationship big308 [⟨0, 0⟩, ⟨1, 0⟩, ⟨1, 1⟩, ⟨0, 1⟩] [⟨1, 0⟩, ⟨2, 0⟩, ⟨2, 1⟩] = .touch ∧
    polygonRelationship big308 [⟨0, 0⟩, ⟨1, 0⟩, ⟨1, 1⟩, ⟨0, 1⟩] [⟨3, 0⟩, ⟨4, 0⟩, ⟨4, 1⟩] = .distance ∧
    polygonRelationship big308 [⟨0, 0⟩, ⟨5, 0⟩, ⟨5, 5⟩, ⟨0, 5⟩] [⟨1, 1⟩, ⟨2, 1⟩, ⟨2, 2⟩] = .intersect := by
  refine ⟨?_, ?_, ?_⟩ <;> decide +kernel

/-- C51: a point for which `pointInPolygon2D` returns true is in the convex hull of the polygon, whatever the polygon. -/
theorem C51_point_in_hull (poly : List (Vec2 K)) (p : Vec2 K) (h : pointInPolygon poly p = true) : InHull2 poly p := inside_hull h

example : pointInPolygon [(⟨0, 0⟩ : Vec2 ℚ), ⟨4, 0⟩, ⟨4, 4⟩, ⟨2, 1⟩, ⟨0, 4⟩] ⟨3, 2⟩ = true ∧
    pointInPolygon [(⟨0, 0⟩ : Vec2 ℚ), ⟨4, 0⟩, ⟨4, 4⟩, ⟨2, 1⟩, ⟨0, 4⟩] ⟨2, 3⟩ = false := by decide +kernel

omit [LinearOrder K] [IsStrictOrderedRing K] in
theorem dot_unit (p : Vec3 K) : p.dot ⟨1, 0, 0⟩ = p.x ∧ p.dot ⟨0, 1, 0⟩ = p.y ∧ p.dot ⟨0, 0, 1⟩ = p.z := by
  simp [Vec3.dot]

/-- A box that contains the points contains their hull. -/
theorem hull_box {pts : List (Vec3 K)} {b : AABB K} (h : ∀ p ∈ pts, InBox p b) {p : Vec3 K} (hp : InHull pts p) : InBox p b := by
  obtain ⟨e1, e2, e3⟩ := dot_unit p
  refine ⟨?_, ?_, ?_, ?_, ?_, ?_⟩
  · rw [← e1]; exact hull_ge hp fun v hv => by rw [(dot_unit v).1]; exact (h v hv).1
  · rw [← e1]; exact hull_le hp fun v hv => by rw [(dot_unit v).1]; exact (h v hv).2.1
  · rw [← e2]; exact hull_ge hp fun v hv => by rw [(dot_unit v).2.1]; exact (h v hv).2.2.1
  · rw [← e2]; exact hull_le hp fun v hv => by rw [(dot_unit v).2.1]; exact (h v hv).2.2.2.1
  · rw [← e3]; exact hull_ge hp fun v hv => by rw [(dot_unit v).2.2]; exact (h v hv).2.2.2.2.1
  · rw [← e3]; exact hull_le hp fun v hv => by rw [(dot_unit v).2.2]; exact (h v hv).2.2.2.2.2

/-- **C51**: `AABBTest` is undefined for an empty list; if it returns true, the convex hulls of the two lists are disjoint, and it returns false
only if the bounding boxes have a common point. -/
theorem C51_aabbTest (pts1 pts2 : List (Vec3 K)) :
    (aabbTest pts1 pts2 = .ub ↔ pts1 = [] ∨ pts2 = []) ∧ aabbTest pts1 pts2 ≠ .throws ∧
      (aabbTest pts1 pts2 = .ok true → ∀ p, ¬ (InHull pts1 p ∧ InHull pts2 p)) ∧
      (aabbTest pts1 pts2 = .ok false → ∃ b1 b2 p, AABB.ofPoints pts1 = .ok b1 ∧ AABB.ofPoints pts2 = .ok b2 ∧ InBox p b1 ∧ InBox p b2) := by
  by_cases h1 : pts1 = []
  · subst h1
    have e : aabbTest ([] : List (Vec3 K)) pts2 = .ub := rfl
    rw [e]; simp
  obtain ⟨b1, e1, i1, -⟩ := (C09_ofPoints_least pts1).2 h1
  by_cases h2 : pts2 = []
  · subst h2
    have e : aabbTest pts1 ([] : List (Vec3 K)) = .ub := by unfold aabbTest; rw [e1]; rfl
    rw [e]; simp
  obtain ⟨b2, e2, i2, -⟩ := (C09_ofPoints_least pts2).2 h2
  have e : aabbTest pts1 pts2 = .ok (!b1.intersects b2) := by unfold aabbTest; rw [e1, e2]; rfl
  have v1 : ValidBox b1 := by
    obtain ⟨p, hp⟩ := List.exists_mem_of_ne_nil _ h1
    obtain ⟨g1, g2, g3, g4, g5, g6⟩ := i1 p hp
    exact ⟨g1.trans g2, g3.trans g4, g5.trans g6⟩
  have v2 : ValidBox b2 := by
    obtain ⟨p, hp⟩ := List.exists_mem_of_ne_nil _ h2
    obtain ⟨g1, g2, g3, g4, g5, g6⟩ := i2 p hp
    exact ⟨g1.trans g2, g3.trans g4, g5.trans g6⟩
  have hi := C08_intersects_iff_common_point b1 b2 v1 v2
  rw [e]
  refine ⟨by simp [h1, h2], by simp, fun h p hp => ?_, fun h => ?_⟩
  · have h := Res.ok.inj h
    rw [Bool.not_eq_true'] at h
    have := hi.2 ⟨p, hull_box i1 hp.1, hull_box i2 hp.2⟩
    rw [h] at this; cases this
  · have h := Res.ok.inj h
    rw [Bool.not_eq_false'] at h
    obtain ⟨p, h1, h2⟩ := hi.1 h
    exact ⟨b1, b2, p, e1, e2, h1, h2⟩

example : aabbTest [(⟨0, 0, 0⟩ : Vec3 ℚ), ⟨1, 1, 1⟩] [⟨2, 0, 0⟩, ⟨3, 1, 1⟩] = .ok true ∧
    aabbTest [(⟨0, 0, 0⟩ : Vec3 ℚ), ⟨1, 1, 1⟩] [⟨1, 0, 0⟩, ⟨3, 1, 1⟩] = .ok false := by decide +kernel

omit [IsStrictOrderedRing K] in
/-- After a collision the closest point is the one passed in or the origin. -/
theorem gjkLoop_closest {A B : List (Vec3 K)} (tol : K) (cp : Option (Vec3 K)) : ∀ (n rounds : Nat) (s : List (Vec3 K)) (dir : Vec3 K) (r : Gjk.Out K),
    Gjk.gjkLoop A B tol cp n rounds s dir = .ok r → r.collide = true → r.closest = cp ∨ r.closest = some 0
  | 0, rounds, s, dir, r, h, _ => by
    simp only [Gjk.gjkLoop] at h
    cases hp : Gjk.closestPointOnSimplex s <;> rw [hp] at h <;> cases h
    exact Or.inr rfl
  | n + 1, rounds, s, dir, r, h, hc => by
    simp only [Gjk.gjkLoop] at h
    split at h
    · cases h
    · cases h
    · split at h
      · cases hp : Gjk.closestPointOnSimplex s <;> rw [hp] at h <;> cases h
        cases hc
      · split at h
        · cases h
        · cases h
        · have := Res.ok.inj h
          subst this
          exact Or.inl rfl
        · exact gjkLoop_closest tol cp n _ _ _ r h hc

/-- C51: if `SAT3D` returns true, the convex hulls of the two lists are disjoint, provided that the three-dimensional hull routine loses none of
these points: every one of them is in the convex hull of what it returns for its list. An empty hull is undefined behaviour. -/
theorem C51_sat3d_sound (hull : List (Vec3 K) → List (Vec3 K)) (length : Vec3 K → K) (hl : length 0 = 0) (eps : K) (he : 0 ≤ eps)
    (pts1 pts2 : List (Vec3 K)) (hh1 : ∀ p ∈ pts1, InHull (hull pts1) p) (hh2 : ∀ p ∈ pts2, InHull (hull pts2) p) :
    (sat3d hull length pts1 pts2 eps = .ub ↔ hull pts1 = [] ∨ hull pts2 = []) ∧ sat3d hull length pts1 pts2 eps ≠ .throws ∧
    (sat3d hull length pts1 pts2 eps = .ok true → ∀ p, ¬ (InHull pts1 p ∧ InHull pts2 p)) := by
  by_cases h1 : hull pts1 = []
  · have e : sat3d hull length pts1 pts2 eps = .ub := by unfold sat3d; rw [Gjk.C49_empty _ _ _ _ _ _ (Or.inl h1)]; rfl
    rw [e]; simp [h1]
  by_cases h2 : hull pts2 = []
  · have e : sat3d hull length pts1 pts2 eps = .ub := by unfold sat3d; rw [Gjk.C49_empty _ _ _ _ _ _ (Or.inr h2)]; rfl
    rw [e]; simp [h2]
  obtain ⟨r, e, -⟩ := Gjk.gjk_spec h1 h2 eps (some 0) 25
  have e' : sat3d hull length pts1 pts2 eps = match r.closest with
    | none => .ok false
    | some p => .ok (decide (eps < length p)) := by
    unfold sat3d
    rw [e, Res.ok_bind]
    rfl
  rw [e']
  refine ⟨?_, ?_, fun h p hp => ?_⟩
  · cases r.closest <;> simp [h1, h2]
  · cases r.closest <;> simp
  · have hc : r.collide = false := by
      by_contra hc
      rw [Bool.not_eq_false] at hc
      have : r.closest = some 0 := by
        unfold Gjk.gjk at e
        generalize hull pts1 = A at e h1
        generalize hull pts2 = B at e h2
        match A, B, h1, h2 with
        | a0 :: A, b0 :: B, _, _ =>
          dsimp only at e
          split at e
          · cases e
          · cases e
          · rcases gjkLoop_closest _ _ _ _ _ _ _ e hc with h | h <;> exact h
      rw [this] at h
      have := of_decide_eq_true (Res.ok.inj h)
      rw [hl] at this
      exact absurd he (not_le.2 this)
    exact (Gjk.C49_separation_sound _ _ h1 h2 _ _ _ r e hc).2 p ⟨hull_mono hh1 hp.1, hull_mono hh2 hp.2⟩

/-- A length that is zero at the origin, here the sum of the absolute coordinates, and the hull routine that returns its argument meet the
hypotheses; a separated pair and an overlapping pair. -/
example : sat3d id (fun p : Vec3 ℚ => |p.x| + |p.y| + |p.z|) [⟨0, 0, 0⟩, ⟨1, 0, 0⟩, ⟨0, 1, 0⟩, ⟨0, 0, 1⟩]
      [⟨2, 2, 2⟩, ⟨3, 2, 2⟩, ⟨2, 3, 2⟩, ⟨2, 2, 3⟩] (1 / 2 ^ 52) = .ok true ∧
    sat3d id (fun p : Vec3 ℚ => |p.x| + |p.y| + |p.z|) [⟨0, 0, 0⟩, ⟨1, 0, 0⟩, ⟨0, 1, 0⟩, ⟨0, 0, 1⟩]
      [⟨1/8, 1/8, 1/8⟩, ⟨3, 2, 2⟩, ⟨2, 3, 2⟩, ⟨2, 2, 3⟩] (1 / 2 ^ 52) = .ok false := by constructor <;> decide +kernel

end Cmm.Sep
