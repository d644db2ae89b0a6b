import Verif.Model.Hull3d
import Verif.Props.Hull2d
import Verif.Props.Plane
import Mathlib.Data.List.Nodup
/-!
Properties of cmmcore/convexhull.h: C107.
-/
namespace Cmm.Hull3d
open Cmm.Hull2d Cmm.Geom Cmm.Nurbs
variable {K : Type} [Field K] [LinearOrder K] [IsStrictOrderedRing K]

/-- The contract of Quickhull for one list of points: its answers are places of the list, and if the points span space, the hull of the vertices of its
facets contains all the points. -/
structure QuickHull.Sound (qh : QuickHull K) (pts : List (Vec3 K)) : Prop where
  basis_lt : ∀ i ∈ qh.basis pts, i < pts.length
  facet_lt : ∀ f ∈ qh.facets pts, ∀ i ∈ f, i < pts.length
  inside : 4 ≤ (qh.basis pts).length → ∀ p ∈ pts, ∀ l : List (Vec3 K),
    (∀ f ∈ qh.facets pts, ∀ i ∈ f, pts.getD i ⟨0, 0, 0⟩ ∈ l) → InHull l p

theorem mapRes_findXY {pts : List (Vec3 K)} : ∀ {l : List (Vec2 K)}, (∀ q ∈ l, ∃ p ∈ pts, (⟨p.x, p.y⟩ : Vec2 K) = q) →
    ∃ m, mapRes (findXY pts) l = .ok m ∧ (∀ p ∈ m, p ∈ pts) ∧ m.map (fun p => (⟨p.x, p.y⟩ : Vec2 K)) = l
  | [], _ => ⟨[], rfl, by simp, rfl⟩
  | q :: l, h => by
    obtain ⟨m, h1, h2, h3⟩ := mapRes_findXY (l := l) fun q hq => h q (List.mem_cons_of_mem _ hq)
    obtain ⟨p, hp, hq⟩ := h q List.mem_cons_self
    subst hq
    cases hf : pts.find? fun r => decide (p.x = r.x) && decide (p.y = r.y) with
    | none =>
      have := List.find?_eq_none.mp hf p hp
      simp at this
    | some r =>
      have hr := List.find?_some hf
      simp only [Bool.and_eq_true, decide_eq_true_eq] at hr
      have hm := List.mem_of_find?_eq_some hf
      refine ⟨r :: m, ?_, ?_, ?_⟩
      · rw [mapRes, findXY, hf, Res.ok_bind, h1, Res.ok_bind]
      · intro x hx
        rcases List.mem_cons.mp hx with rfl | hx
        · exact hm
        · exact h2 x hx
      · rw [List.map_cons, h3, hr.1, hr.2]

theorem firstSeen_mem : ∀ (l seen : List Nat) (i : Nat), i ∈ firstSeen l seen ↔ i ∈ l ∧ i ∉ seen
  | [], _, _ => by simp [firstSeen]
  | a :: l, seen, i => by
    rw [firstSeen]
    split
    · rename_i h
      rw [firstSeen_mem l seen i, List.mem_cons]
      constructor
      · rintro ⟨h1, h2⟩; exact ⟨.inr h1, h2⟩
      · rintro ⟨rfl | h1, h2⟩
        · exact absurd h h2
        · exact ⟨h1, h2⟩
    · rename_i h
      rw [List.mem_cons, firstSeen_mem l (a :: seen) i, List.mem_cons, List.mem_cons]
      constructor
      · rintro (rfl | ⟨h1, h2⟩)
        · exact ⟨.inl rfl, h⟩
        · exact ⟨.inr h1, fun h3 => h2 (.inr h3)⟩
      · rintro ⟨rfl | h1, h2⟩
        · exact .inl rfl
        · by_cases e : i = a
          · exact .inl e
          · exact .inr ⟨h1, by rintro (h3 | h3); exacts [e h3, h2 h3]⟩

theorem firstSeen_nodup : ∀ (l seen : List Nat), (firstSeen l seen).Nodup
  | [], _ => by simp [firstSeen]
  | a :: l, seen => by
    rw [firstSeen]
    split
    · exact firstSeen_nodup l seen
    · rw [List.nodup_cons, firstSeen_mem]
      exact ⟨by simp, firstSeen_nodup l _⟩

theorem zip_affine (a b c : K) : ∀ (w : List K) (m : List (Vec3 K)), w.length = m.length → (∀ p ∈ m, p.z = a * p.x + b * p.y + c) →
    (List.zipWith (fun t v => t * v.z) w m).sum =
      a * (List.zipWith (fun t v => t * v.x) w m).sum + b * (List.zipWith (fun t v => t * v.y) w m).sum + c * w.sum
  | [], m, h, _ => by cases m <;> simp_all
  | t :: w, [], h, _ => by simp at h
  | t :: w, p :: m, h, hp => by
    have ih := zip_affine a b c w m (by simpa using h) fun q hq => hp q (List.mem_cons_of_mem _ hq)
    simp only [List.zipWith_cons_cons, List.sum_cons]
    rw [ih, hp p List.mem_cons_self]
    ring

theorem getD_mem' {pts : List (Vec3 K)} {i : Nat} (h : i < pts.length) : pts.getD i ⟨0, 0, 0⟩ ∈ pts := by
  rw [List.getD_eq_getElem?_getD, List.getElem?_eq_getElem h]
  exact List.getElem_mem h

/-- C107: the empty set has no hull; up to three points are returned as they are, and the kind is their number. -/
theorem C107_few (sqrt fl : K → K) (sort : StdSort (Vec2 K)) (qh : QuickHull K) (out : List (Vec3 K)) (a b c : Vec3 K) :
    convexHull sqrt fl sort qh [] out = .ok (.empty, out) ∧ convexHull sqrt fl sort qh [a] out = .ok (.point, [a]) ∧
    convexHull sqrt fl sort qh [a, b] out = .ok (.line, [a, b]) ∧ convexHull sqrt fl sort qh [a, b, c] out = .ok (.flat, [a, b, c]) :=
  ⟨rfl, rfl, rfl, rfl⟩

/-- **C107** (partial): for points of one plane that is not vertical, more than three, coarse enough for the tolerance of the plane hull in their `x` and `y`, and
found coplanar by the test: the vertices returned into an empty vector are input points, at least three, their `x` and `y` make a convex polygon in
counterclockwise order, and every input point is in their convex hull. -/
theorem C107_plane_partial (sqrt fl : K → K) (sort : StdSort (Vec2 K)) (qh : QuickHull K) (pts : List (Vec3 K)) (a b c : K)
    (hn : 3 < pts.length) (ht : isPtsCoplanar sqrt fl pts (1 / 2 ^ 52) = true) (hz : ∀ p ∈ pts, p.z = a * p.x + b * p.y + c)
    (hr : Resolved (1 / 10 ^ 9 : K) (pts.map fun p => ⟨p.x, p.y⟩)) (hc : ¬ AllCollinear (pts.map fun p => (⟨p.x, p.y⟩ : Vec2 K))) :
    ∃ kind hull, convexHull sqrt fl sort qh pts [] = .ok (kind, hull) ∧ (∀ p ∈ hull, p ∈ pts) ∧ (∀ p ∈ pts, InHull hull p) ∧ 3 ≤ hull.length ∧
      ConvexCCW (hull.map fun p => (⟨p.x, p.y⟩ : Vec2 K)) := by
  obtain ⟨h1, h2, h3, -⟩ := C50_hull_partial sort _ hr hc
  have h4 := C50_points_partial sort _ hr
  obtain ⟨m, e, hm, hx⟩ := mapRes_findXY (pts := pts) (l := convexHull2d sort (pts.map fun p => (⟨p.x, p.y⟩ : Vec2 K))) fun q hq => by
    obtain ⟨p, hp, hpq⟩ := List.mem_map.mp (h4 q hq)
    exact ⟨p, hp, hpq⟩
  refine ⟨kindOfSize m.length, m, ?_, hm, fun p hp => ?_, ?_, by rw [hx]; exact h1⟩
  · have h0 : pts ≠ [] := by rintro rfl; simp at hn
    rw [convexHull, if_neg (by simpa using h0), show (machEps : K) = 1 / 2 ^ 52 from rfl, if_pos ht, if_pos hn, e, Res.ok_bind]
    rfl
  · obtain ⟨w, w1, w2, w3, w4, w5⟩ := h2 ⟨p.x, p.y⟩ (List.mem_map.mpr ⟨p, hp, rfl⟩)
    rw [← hx] at w1 w4 w5
    rw [List.length_map] at w1
    rw [List.zipWith_map_right] at w4 w5
    refine ⟨w, w1, w2, w3, w4, w5, ?_⟩
    rw [zip_affine a b c w m w1 fun q hq => hz q (hm q hq), w3, hz p hp]
    rw [← w4, ← w5]; ring
  · rw [← hx, List.length_map] at h3
    exact h3

/-- **C107** (partial): points in space, given Quickhull's contract. The vertices are input points, and none is listed twice unless it is twice in the input; if
Quickhull finds four independent points, every input point is in their convex hull. -/
theorem C107_space_partial (sqrt fl : K → K) (sort : StdSort (Vec2 K)) (qh : QuickHull K) (pts : List (Vec3 K)) (hq : qh.Sound pts)
    (ht : isPtsCoplanar sqrt fl pts (1 / 2 ^ 52) = false) :
    ∃ kind hull, convexHull sqrt fl sort qh pts [] = .ok (kind, hull) ∧ (∀ p ∈ hull, p ∈ pts) ∧
      (4 ≤ (qh.basis pts).length → (∀ p ∈ pts, InHull hull p) ∧ (pts.Nodup → hull.Nodup)) := by
  have hl : 5 ≤ pts.length := by
    by_contra hl
    match pts, hl, ht with
    | [], _, ht => cases ht
    | [_], _, ht => cases ht
    | [_, _], _, ht => cases ht
    | [_, _, _], _, ht => cases ht
    | [_, _, _, _], _, ht => cases ht
    | _ :: _ :: _ :: _ :: _ :: _, hl, _ => simp at hl
  have h0 : pts ≠ [] := by rintro rfl; simp at hl
  refine ⟨kindOfSize (convexHull3d qh pts []).length, convexHull3d qh pts [], by rw [convexHull, if_neg (by simpa using h0), if_neg (by rw [show (machEps : K) = 1 / 2 ^ 52 from rfl, ht]; simp)], ?_, ?_⟩
  · intro p hp
    rw [convexHull3d, if_neg (by simpa using h0), if_neg (by omega)] at hp
    split at hp
    · obtain ⟨i, hi, rfl⟩ := List.mem_map.mp hp
      exact getD_mem' (hq.basis_lt i hi)
    · rw [List.nil_append] at hp
      obtain ⟨i, hi, rfl⟩ := List.mem_map.mp hp
      rw [firstSeen_mem] at hi
      obtain ⟨f, hf, hi⟩ := List.mem_flatten.mp hi.1
      exact getD_mem' (hq.facet_lt f hf i hi)
  · intro hb
    rw [convexHull3d, if_neg (by simpa using h0), if_neg (by omega), if_neg (by omega), List.nil_append]
    constructor
    · intro p hp
      refine hq.inside hb p hp _ fun f hf i hi => List.mem_map.mpr ⟨i, ?_, rfl⟩
      rw [firstSeen_mem]
      exact ⟨List.mem_flatten.mpr ⟨f, hf, hi⟩, by simp⟩
    · intro hd
      refine List.Nodup.map_on ?_ (firstSeen_nodup _ _)
      intro i hi j hj hij
      have bound : ∀ k ∈ firstSeen (qh.facets pts).flatten [], k < pts.length := by
        intro k hk
        rw [firstSeen_mem] at hk
        obtain ⟨f, hf, hi⟩ := List.mem_flatten.mp hk.1
        exact hq.facet_lt f hf k hi
      have bi := bound i hi
      have bj := bound j hj
      rw [List.getD_eq_getElem?_getD, List.getD_eq_getElem?_getD, List.getElem?_eq_getElem bi, List.getElem?_eq_getElem bj] at hij
      exact (List.Nodup.getElem_inj_iff hd).mp hij

omit [IsStrictOrderedRing K] in
/-- C107: the kind is the number of points of the output vector: one, two, three, or anything else; `EMPTY` is answered for the empty set only. -/
theorem C107_kind (sqrt fl : K → K) (sort : StdSort (Vec2 K)) (qh : QuickHull K) (pts out hull : List (Vec3 K)) (kind : Kind)
    (h : convexHull sqrt fl sort qh pts out = .ok (kind, hull)) :
    (kind = .empty ↔ pts = []) ∧ (pts ≠ [] → (kind = .point ↔ hull.length = 1) ∧ (kind = .line ↔ hull.length = 2) ∧
      (kind = .flat ↔ hull.length = 3) ∧ (kind = .volume ↔ hull.length = 0 ∨ 4 ≤ hull.length)) := by
  have key : ∀ n, kindOfSize n ≠ .empty ∧ (kindOfSize n = .point ↔ n = 1) ∧ (kindOfSize n = .line ↔ n = 2) ∧
      (kindOfSize n = .flat ↔ n = 3) ∧ (kindOfSize n = .volume ↔ n = 0 ∨ 4 ≤ n)
    | 0 => by simp [kindOfSize]
    | 1 => by simp [kindOfSize]
    | 2 => by simp [kindOfSize]
    | 3 => by simp [kindOfSize]
    | n + 4 => by simp [kindOfSize]
  have fin : ∀ l : List (Vec3 K), pts ≠ [] → (kindOfSize l.length, l) = (kind, hull) →
      (kind = .empty ↔ pts = []) ∧ (pts ≠ [] → (kind = .point ↔ hull.length = 1) ∧ (kind = .line ↔ hull.length = 2) ∧
      (kind = .flat ↔ hull.length = 3) ∧ (kind = .volume ↔ hull.length = 0 ∨ 4 ≤ hull.length)) := by
    intro l h0 e
    obtain ⟨rfl, rfl⟩ := Prod.mk.inj e
    obtain ⟨k1, k2⟩ := key l.length
    exact ⟨⟨fun h => absurd h k1, fun h => absurd h h0⟩, fun _ => k2⟩
  unfold convexHull at h
  split at h
  · rename_i h0
    have h0 : pts = [] := by simpa using h0
    obtain ⟨rfl, rfl⟩ := Prod.mk.inj (Res.ok.inj h)
    exact ⟨⟨fun _ => h0, fun _ => rfl⟩, fun h1 => absurd h0 h1⟩
  · rename_i h0
    have h0 : pts ≠ [] := by simpa using h0
    split at h
    · split at h
      · cases hm : mapRes (findXY pts) (convexHull2d sort (pts.map fun p => (⟨p.x, p.y⟩ : Vec2 K))) with
        | ok m => rw [hm, Res.ok_bind] at h; exact fin _ h0 (Res.ok.inj h)
        | throws => rw [hm, Res.throws_bind] at h; cases h
        | ub => rw [hm, Res.ub_bind] at h; cases h
      · exact fin _ h0 (Res.ok.inj h)
    · exact fin _ h0 (Res.ok.inj h)

omit [IsStrictOrderedRing K] in
/-- C107: points already in the output vector stay there, in front, and count for the kind, if the points are found coplanar and are more than three. -/
theorem C107_output_kept_counterexample (sqrt fl : K → K) (sort : StdSort (Vec2 K)) (qh : QuickHull K) (pts out hull : List (Vec3 K)) (kind : Kind)
    (hn : 3 < pts.length) (ht : isPtsCoplanar sqrt fl pts (1 / 2 ^ 52) = true)
    (h : convexHull sqrt fl sort qh pts [] = .ok (kind, hull)) :
    convexHull sqrt fl sort qh pts out = .ok (kindOfSize (out.length + hull.length), out ++ hull) := by
  have h0 : pts ≠ [] := by rintro rfl; simp at hn
  have ht' : isPtsCoplanar sqrt fl pts machEps = true := ht
  rw [convexHull, if_neg (by simpa using h0), if_pos ht', if_pos hn] at h ⊢
  cases hm : mapRes (findXY pts) (convexHull2d sort (pts.map fun p => (⟨p.x, p.y⟩ : Vec2 K))) with
  | ok m =>
    rw [hm, Res.ok_bind] at h
    obtain ⟨-, rfl⟩ := Prod.mk.inj (Res.ok.inj h)
    rw [Res.ok_bind, List.nil_append, List.length_append]
  | throws => rw [hm, Res.throws_bind] at h; cases h
  | ub => rw [hm, Res.ub_bind] at h; cases h

/-- C107 is false: the corners of a vertical square give an empty hull and the answer `VOLUME`; the corners of a horizontal square also give `VOLUME`; of a
tetrahedron whose top is above the middle of its base the base is returned, with the answer `FLAT`, and the top is not in the hull. -/
theorem C107_counterexample (sqrt fl : ℚ → ℚ) (qh : QuickHull ℚ) :
    convexHull sqrt fl (insertionSort (Vec2 ℚ)) qh [⟨0, 0, 0⟩, ⟨1, 0, 0⟩, ⟨1, 0, 1⟩, ⟨0, 0, 1⟩] [] = .ok (.volume, []) ∧
    convexHull sqrt fl (insertionSort (Vec2 ℚ)) qh [⟨0, 0, 0⟩, ⟨1, 0, 0⟩, ⟨1, 1, 0⟩, ⟨0, 1, 0⟩] [] =
      .ok (.volume, [⟨0, 0, 0⟩, ⟨1, 0, 0⟩, ⟨1, 1, 0⟩, ⟨0, 1, 0⟩]) ∧
    convexHull sqrt fl (insertionSort (Vec2 ℚ)) qh [⟨0, 0, 0⟩, ⟨3, 0, 0⟩, ⟨0, 3, 0⟩, ⟨1, 1, 1⟩] [] = .ok (.flat, [⟨0, 0, 0⟩, ⟨3, 0, 0⟩, ⟨0, 3, 0⟩]) ∧
    ¬ InHull [(⟨0, 0, 0⟩ : Vec3 ℚ), ⟨3, 0, 0⟩, ⟨0, 3, 0⟩] ⟨1, 1, 1⟩ := by
  have key : ∀ (pts hull : List (Vec3 ℚ)) (kind : Kind), pts.length = 4 →
      (do let found ← mapRes (findXY pts) (convexHull2d (insertionSort (Vec2 ℚ)) (pts.map fun p => ⟨p.x, p.y⟩))
          .ok (kindOfSize ([] ++ found).length, [] ++ found) : Res (Kind × List (Vec3 ℚ))) = .ok (kind, hull) →
      convexHull sqrt fl (insertionSort (Vec2 ℚ)) qh pts [] = .ok (kind, hull) := by
    intro pts hull kind h4 h
    match pts, h4 with
    | [a, b, c, d], _ => exact h
  refine ⟨key _ _ _ rfl (by decide +kernel), key _ _ _ rfl (by decide +kernel), key _ _ _ rfl (by decide +kernel), ?_⟩
  rintro ⟨w, w1, -, -, -, -, w6⟩
  match w, w1 with
  | [a, b, c], _ => simp at w6

/-- C107, plane overload: the kind is the number of vertices (one, two, or else `FLAT`); fewer than three points are returned as they are; for coarse points not
on one line the polygon is convex and contains all the points, which are `FLAT`. -/
theorem C107_plane_points_partial (sort : StdSort (Vec2 K)) (pts out : List (Vec2 K)) :
    (pts = [] → convexHullPlane sort pts out = (.empty, out)) ∧ (∀ a, pts = [a] → convexHullPlane sort pts out = (.point, [a])) ∧
    (∀ a b, pts = [a, b] → convexHullPlane sort pts out = (.line, [a, b])) ∧
    (Resolved (1 / 10 ^ 9 : K) pts → ¬ AllCollinear pts → ∃ hull, convexHullPlane sort pts out = (.flat, hull) ∧ ConvexCCW hull ∧
      (∀ p ∈ hull, p ∈ pts) ∧ ∀ p ∈ pts, InHull2 hull p) ∧
    (3 ≤ pts.length → Resolved (1 / 10 ^ 9 : K) pts → AllCollinear pts → convexHullPlane sort pts out = (.flat, [])) := by
  refine ⟨?_, ?_, ?_, fun hr hc => ?_, fun hn hr hc => ?_⟩
  · rintro rfl; rfl
  · rintro a rfl; rfl
  · rintro a b rfl; rfl
  · obtain ⟨h1, h2, h3, -⟩ := C50_hull_partial sort _ hr hc
    have h0 : pts ≠ [] := by rintro rfl; exact hc (by simp [AllCollinear])
    refine ⟨convexHull2d sort pts, ?_, h1, C50_points_partial sort _ hr, h2⟩
    rw [convexHullPlane, if_neg (by simpa using h0)]
    dsimp only
    split <;> [omega; omega; rfl]
  · have h0 : pts ≠ [] := by rintro rfl; simp at hn
    rw [convexHullPlane, if_neg (by simpa using h0), ((C50_degenerate sort pts).2 hn hr).mpr hc]
    rfl

/-- The hypotheses of `C107_plane_partial` hold for five points of the plane `z = x`. -/
example (sqrt fl : ℚ → ℚ) (hf : ∀ x, fl x = x) (sort : StdSort (Vec2 ℚ)) (qh : QuickHull ℚ) :
    ∃ kind hull, convexHull sqrt fl sort qh [⟨0, 0, 0⟩, ⟨2, 0, 2⟩, ⟨2, 2, 2⟩, ⟨0, 2, 0⟩, ⟨1, 1, 1⟩] [] = .ok (kind, hull) ∧ InHull hull ⟨1, 1, 1⟩ := by
  obtain ⟨kind, hull, h1, -, h2, -⟩ := C107_plane_partial sqrt fl sort qh [⟨0, 0, 0⟩, ⟨2, 0, 2⟩, ⟨2, 2, 2⟩, ⟨0, 2, 0⟩, ⟨1, 1, 1⟩] 1 0 0 (by decide)
    (by
      rw [C48_verdict]
      intro q hq
      simp only [List.tail_cons, List.mem_singleton] at hq
      subst hq
      simp [Plane.signedDistance, Plane.ofPts, Plane.ofEquation, planeEqFromPts, hf])
    (by decide +kernel) (by unfold Resolved turn; decide +kernel) (by unfold AllCollinear turn; decide +kernel)
  exact ⟨kind, hull, h1, h2 _ (by simp)⟩

theorem hull_mem {p : Vec3 K} : ∀ {l : List (Vec3 K)}, p ∈ l → InHull l p
  | q :: l, h => by
    rcases List.mem_cons.mp h with rfl | h
    · refine ⟨1 :: List.replicate l.length 0, by simp, fun x hx => ?_, by simp, ?_⟩
      · rcases List.mem_cons.mp hx with rfl | hx
        · exact zero_le_one
        · rw [List.eq_of_mem_replicate hx]
      · have z : ∀ (f : Vec3 K → K) (l : List (Vec3 K)), (List.zipWith (fun a v => a * f v) (List.replicate l.length 0) l).sum = 0 := by
          intro f l
          induction l with
          | nil => rfl
          | cons a l ih => simp [List.replicate_succ, ih]
        simp only [List.zipWith_cons_cons, List.sum_cons, z (·.x), z (·.y), z (·.z)]
        simp
    · obtain ⟨w, w1, w2, w3, w4, w5, w6⟩ := hull_mem h
      refine ⟨0 :: w, by simp [w1], fun x hx => ?_, by simp [w3], by simp [w4], by simp [w5], by simp [w6]⟩
      rcases List.mem_cons.mp hx with rfl | hx
      · exact le_rfl
      · exact w2 x hx

/-- A Quickhull answer for the corners of a double pyramid. -/
def demoQuick : QuickHull ℚ := ⟨fun _ => [0, 1, 2, 3], fun _ => [[0, 1, 3], [0, 3, 2], [1, 2, 3], [0, 2, 4], [0, 4, 1], [1, 4, 2]]⟩
/-- The corners of a double pyramid. -/
def demoPts : List (Vec3 ℚ) := [⟨0, 0, 0⟩, ⟨3, 0, 0⟩, ⟨0, 3, 0⟩, ⟨1, 1, 1⟩, ⟨1, 1, -1⟩]

/-- The hypotheses of `C107_space_partial` hold for a double pyramid. -/
example : demoQuick.Sound demoPts ∧ isPtsCoplanar (fun _ => 9) id demoPts (1 / 2 ^ 52) = false ∧ 4 ≤ (demoQuick.basis demoPts).length ∧
    convexHull (fun _ => 9) id (insertionSort (Vec2 ℚ)) demoQuick demoPts [] = .ok (.volume, [⟨0, 0, 0⟩, ⟨3, 0, 0⟩, ⟨1, 1, 1⟩, ⟨0, 3, 0⟩, ⟨1, 1, -1⟩]) := by
  refine ⟨⟨by decide, by decide, fun _ p hp l hl => hull_mem ?_⟩, by decide +kernel, by decide, by decide +kernel⟩
  have hv : ∀ i < 5, demoPts.getD i ⟨0, 0, 0⟩ ∈ l := by
    intro i hi
    match i, hi with
    | 0, _ => exact hl [0, 1, 3] (by simp [demoQuick]) 0 (by simp)
    | 1, _ => exact hl [0, 1, 3] (by simp [demoQuick]) 1 (by simp)
    | 2, _ => exact hl [0, 3, 2] (by simp [demoQuick]) 2 (by simp)
    | 3, _ => exact hl [0, 1, 3] (by simp [demoQuick]) 3 (by simp)
    | 4, _ => exact hl [0, 2, 4] (by simp [demoQuick]) 4 (by simp)
  obtain ⟨i, hi, rfl⟩ := List.mem_iff_getElem.mp hp
  have := hv i hi
  rwa [List.getD_eq_getElem?_getD, List.getElem?_eq_getElem hi] at this

end Cmm.Hull3d
