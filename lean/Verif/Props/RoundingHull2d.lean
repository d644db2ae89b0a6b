import Verif.Lemmas.RoundingHull2d
import Verif.Props.Hull2dArg
/-!
`convex_hull2d` in `double`. Every difference, product and sum of the tests is rounded; what is returned is the hull of the points all the same, if they are not too close to a line.
-/
namespace Cmm.Hull2d
open Cmm.Geom Cmm.Num
variable {K : Type} [Field K] [LinearOrder K] [IsStrictOrderedRing K]

private theorem resolved_half {l : List (Vec2 K)} (h : Resolved (2 / 10 ^ 9 : K) l) : Resolved (1 / 10 ^ 9 : K) l :=
  ⟨fun a ha b hb c hc => (h.1 a ha b hb c hc).imp_right (le_trans (by norm_num)), fun a ha b hb => (h.2 a ha b hb).imp_right (le_trans (by norm_num))⟩

private theorem three_le {l : List (Vec2 K)} (hc : ¬ AllCollinear l) : 3 ≤ l.length := by
  by_contra hn
  apply hc
  have t1 : ∀ a b : Vec2 K, turn a a b = 0 := fun a b => by unfold turn; ring
  have t2 : ∀ a b : Vec2 K, turn a b a = 0 := fun a b => by unfold turn; ring
  match l, hn with
  | [], _ => intro a ha; simp at ha
  | [x], _ =>
    intro a ha b hb c hc
    simp only [List.mem_cons, List.not_mem_nil, or_false] at ha hb hc
    subst ha hb hc; exact t1 _ _
  | [x, y], _ =>
    intro a ha b hb c hc
    simp only [List.mem_cons, List.not_mem_nil, or_false] at ha hb hc
    rcases ha with rfl | rfl <;> rcases hb with rfl | rfl <;> rcases hc with rfl | rfl <;>
      first | exact t1 _ _ | exact t2 _ _ | exact turn_self _ _
  | _ :: _ :: _ :: _, h => simp at h

section
variable {R : Rounding K} {u : K}

private theorem c149_aux (F : FormatOk R u) (hu : u ≤ 1 / 10 ^ 15) (sort : StdSort (Vec2 (Fp R))) (L : List (Vec2 (Fp R)))
    (hb : ∀ p ∈ L, |p.x.val| ≤ 100 ∧ |p.y.val| ≤ 100) (hr : Resolved (2 / 10 ^ 9) (L.map value)) (hc : ¬ AllCollinear (L.map value)) :
    (∃ s : StdSort (Vec2 K), convexHull2d s (L.map value) = (convexHull2d sort L).map value) ∧ ∀ p ∈ convexHull2d sort L, p ∈ L := by
  have hn : 3 ≤ L.length := by simpa using three_le hc
  have hr' := resolved_half hr
  rw [← eps_eq] at hr'
  exact hull_map sort hn (sim_fp F hu hb hr) hr' (fun o ho a ha b hb' h1 h2 ht => dist_fp F hu hb hr hc ho ha hb' h1 h2 ht)

private theorem c149_hull (F : FormatOk R u) (hu : u ≤ 1 / 10 ^ 15) (sort : StdSort (Vec2 (Fp R))) (L : List (Vec2 (Fp R)))
    (hb : ∀ p ∈ L, |p.x.val| ≤ 100 ∧ |p.y.val| ≤ 100) (hr : Resolved (2 / 10 ^ 9) (L.map value)) (hc : ¬ AllCollinear (L.map value)) :
    (∀ p ∈ convexHull2d sort L, p ∈ L) ∧ ConvexCCW ((convexHull2d sort L).map value) ∧ (∀ p ∈ L, InHull2 ((convexHull2d sort L).map value) (value p)) ∧
      3 ≤ (convexHull2d sort L).length ∧ ∃ o, (convexHull2d sort L).head? = some o ∧ ∀ q ∈ L, o.y < q.y ∨ (o.y = q.y ∧ o.x ≤ q.x) := by
  obtain ⟨⟨s, hs⟩, hm⟩ := c149_aux F hu sort L hb hr hc
  obtain ⟨h1, h2, h3, o, h4, h5⟩ := C50_hull_partial s _ (resolved_half hr) hc
  rw [hs] at h1 h2 h3 h4
  refine ⟨hm, h1, fun p hp => h2 _ (List.mem_map_of_mem hp), by simpa using h3, ?_⟩
  rw [List.head?_map, Option.map_eq_some_iff] at h4
  obtain ⟨o', e, rfl⟩ := h4
  refine ⟨o', e, fun q hq => ?_⟩
  rcases h5 _ (List.mem_map_of_mem hq) with h | ⟨h, h'⟩
  · exact Or.inl h
  · exact Or.inr ⟨Subtype.ext h, h'⟩

private theorem c149_collinear (F : FormatOk R u) (hu : u ≤ 1 / 10 ^ 15) (sort : StdSort (Vec2 (Fp R))) (L : List (Vec2 (Fp R))) (hn : 3 ≤ L.length)
    (hb : ∀ p ∈ L, |p.x.val| ≤ 100 ∧ |p.y.val| ≤ 100) (hc : AllCollinear (L.map value)) : convexHull2d sort L = [] := by
  refine hull_flat sort hn (fun a ha b hb' c hc' => ?_)
  have ht := hc _ (List.mem_map_of_mem ha) _ (List.mem_map_of_mem hb') _ (List.mem_map_of_mem hc')
  rw [← orientation_fp F hu (hb a ha) (hb b hb') (hb c hc') (Or.inl ht)]
  exact (orientation_iff (Or.inl ht)).1.2 ht

end

private theorem double_small : (1 / 2 ^ 53 : K) ≤ 1 / 10 ^ 15 := by norm_num

variable [FloorRing K]

/-- **C149**: in `double`, for points with coordinates up to 100, not all on a line, of which any three are on a line or span a triangle with twice the area at least
`2e-9` and any two are at the same height or at least `2e-9` apart in height: the points returned are points of the input, they are the corners of a strictly convex polygon in
counterclockwise order, which contains all points of the input - exactly, not up to rounding - and starts at the lowest point, of several the leftmost. -/
theorem C149_hull_double (sort : StdSort (Vec2 (Fp (Rounding.float (K := K) 53 Nat.one_le_ofNat)))) (points : List (Vec2 (Fp (Rounding.float (K := K) 53 Nat.one_le_ofNat))))
    (hb : ∀ p ∈ points, |p.x.val| ≤ 100 ∧ |p.y.val| ≤ 100) (hr : Resolved (2 / 10 ^ 9) (points.map value)) (hc : ¬ AllCollinear (points.map value)) :
    (∀ p ∈ convexHull2d sort points, p ∈ points) ∧ ConvexCCW ((convexHull2d sort points).map value) ∧
      (∀ p ∈ points, InHull2 ((convexHull2d sort points).map value) (value p)) ∧ 3 ≤ (convexHull2d sort points).length ∧
      ∃ o, (convexHull2d sort points).head? = some o ∧ ∀ q ∈ points, o.y < q.y ∨ (o.y = q.y ∧ o.x ≤ q.x) :=
  c149_hull (formatOk_float 53 (by norm_num)) double_small sort points hb hr hc

/-- **C149**: under the same conditions the result is the one of exact arithmetic, whichever sorting algorithms are used. -/
theorem C149_exact_double (sort : StdSort (Vec2 (Fp (Rounding.float (K := K) 53 Nat.one_le_ofNat)))) (exact' : StdSort (Vec2 K))
    (points : List (Vec2 (Fp (Rounding.float (K := K) 53 Nat.one_le_ofNat))))
    (hb : ∀ p ∈ points, |p.x.val| ≤ 100 ∧ |p.y.val| ≤ 100) (hr : Resolved (2 / 10 ^ 9) (points.map value)) (hc : ¬ AllCollinear (points.map value)) :
    (convexHull2d sort points).map value = convexHull2d exact' (points.map value) := by
  obtain ⟨⟨s, hs⟩, -⟩ := c149_aux (formatOk_float 53 (by norm_num)) double_small sort points hb hr hc
  rw [← hs]
  have hn := three_le hc
  exact C133_set s exact' _ _ hn hn (resolved_half hr) (fun _ => Iff.rfl)

/-- **C149**: in `double`, three or more points with coordinates up to 100 that are all on a line give no hull: the result is empty. -/
theorem C149_collinear_double (sort : StdSort (Vec2 (Fp (Rounding.float (K := K) 53 Nat.one_le_ofNat))))
    (points : List (Vec2 (Fp (Rounding.float (K := K) 53 Nat.one_le_ofNat)))) (hn : 3 ≤ points.length)
    (hb : ∀ p ∈ points, |p.x.val| ≤ 100 ∧ |p.y.val| ≤ 100) (hc : AllCollinear (points.map value)) : convexHull2d sort points = [] :=
  c149_collinear (formatOk_float 53 (by norm_num)) double_small sort points hn hb hc

/-- A point with the given coordinates, rounded to `double`. -/
private def dp (x y : ℚ) : Vec2 (Fp (Rounding.float (K := ℚ) 53 (by norm_num))) := ⟨Fp.round _ x, Fp.round _ y⟩

-- A square with a point inside, a point on an edge and a point that occurs twice; the coordinates 0.1, 0.7, ... are rounded.
example : (∀ p ∈ [dp 0 0, dp (7 / 10) 0, dp (1 / 10) (1 / 10), dp (7 / 10) (7 / 10), dp 0 (7 / 10), dp (1 / 2) 0, dp 0 0], |p.x.val| ≤ 100 ∧ |p.y.val| ≤ 100) ∧
    Resolved (2 / 10 ^ 9) ([dp 0 0, dp (7 / 10) 0, dp (1 / 10) (1 / 10), dp (7 / 10) (7 / 10), dp 0 (7 / 10), dp (1 / 2) 0, dp 0 0].map value) ∧
    ¬ AllCollinear ([dp 0 0, dp (7 / 10) 0, dp (1 / 10) (1 / 10), dp (7 / 10) (7 / 10), dp 0 (7 / 10), dp (1 / 2) 0, dp 0 0].map value) := by
  unfold Resolved AllCollinear turn; decide +kernel

example : AllCollinear ([dp 0 0, dp (1 / 10) (1 / 10), dp (7 / 10) (7 / 10)].map value) := by unfold AllCollinear turn; decide +kernel

/-- **C149**: for larger coordinates this fails. The three points `(0, 0)`, `(2^27 + 1, 2^27)`, `(2^28 + 1, 2^28 - 1)` are whole numbers, exact in `double`, and not on a line; the exact
hull is the triangle, with all products rounded to `double` the result is empty. -/
theorem C149_large_counterexample :
    ∃ points : List (Vec2 (Fp (Rounding.float (K := ℚ) 53 (by norm_num)))), points.map value = [⟨0, 0⟩, ⟨2 ^ 27 + 1, 2 ^ 27⟩, ⟨2 ^ 28 + 1, 2 ^ 28 - 1⟩] ∧
      (convexHull2d (insertionSort (Vec2 ℚ)) (points.map value)).length = 3 ∧ ∀ sort, convexHull2d sort points = [] := by
  refine ⟨[dp 0 0, dp (2 ^ 27 + 1) (2 ^ 27), dp (2 ^ 28 + 1) (2 ^ 28 - 1)], by decide +kernel, by decide +kernel, fun sort => ?_⟩
  exact hull_flat sort (by simp) (by decide +kernel)

end Cmm.Hull2d
