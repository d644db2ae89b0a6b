import Verif.Lemmas.NanTree
import Mathlib.Algebra.Order.Field.Rat
/-!
C126: kd-trees filled by `insert` with points that may have NaN coordinates. (`build` hands the points to `std::nth_element`, whose comparison is no strict weak
order when a coordinate is NaN; that is undefined and not modelled.)
-/
namespace Cmm.KD
open Dbl
variable {K : Type}

/-- C126: every inserted point counts. -/
theorem C126_size_partial [LinearOrder K] (points : List (Vec3 (Dbl K))) :
    (insertAll points).size = points.length ∧ ((insertAll points).empty = true ↔ points = []) := by
  have h := (insertAll_placed points).2.2
  refine ⟨h, ?_⟩
  simp [KDTree.empty, h]

/-- C126: for every sequence of insertions and every query, a range search returns only inserted points that lie in the box (so never a point with a NaN). -/
theorem C126_range_sound_partial [LinearOrder K] (points : List (Vec3 (Dbl K))) (lower upper : Vec3 (Dbl K)) :
    ∀ q ∈ (insertAll points).rangeSearch lower upper, q ∈ points ∧ InBox q ⟨lower, upper⟩ := by
  intro q hq
  rcases rangeSearchRec_sound lower upper _ [] q hq with h | ⟨h1, h2⟩
  · simp at h
  · refine ⟨(insertAll_placed points).2.1.mem_iff.mp h1, ?_⟩
    simpa [inBox, InBox] using h2

/-- C126: if the points with NaN are inserted after the others, a range search returns exactly the points in the box, with multiplicity. -/
theorem C126_range_last_partial [LinearOrder K] (points bad : List (Vec3 (Dbl K))) (hp : ∀ p ∈ points, p.Defined) (hb : ∀ p ∈ bad, ¬ p.Defined)
    (lower upper : Vec3 (Dbl K)) :
    ((insertAll (points ++ bad)).rangeSearch lower upper).Perm ((points ++ bad).filter (inBox lower upper)) := by
  have key : ∀ (ps : List (Vec3 (Dbl K))) (t : KDTree (Dbl K)), t.root.Placed → t.root.Sorted →
      ((∀ p ∈ ps, ¬ p.Defined) ∨ ((∀ p ∈ ps, p.Defined) ∧ ∀ q ∈ t.root.points, q.Defined)) → (ps.foldl KDTree.insert t).root.Sorted := by
    intro ps
    induction ps with
    | nil => intro t _ h _; exact h
    | cons p ps ih =>
      intro t hpl hs hd
      obtain ⟨a1, a2, _⟩ := insertRec_placed t.root p 0 t.size_ hpl
      refine ih (t.insert p) a1 (insertRec_sorted t.root p 0 t.size_ hs ?_) ?_
      · rcases hd with hd | hd
        · exact .inl (hd p (by simp))
        · exact .inr hd.2
      · rcases hd with hd | hd
        · exact .inl fun q hq => hd q (by simp [hq])
        · refine .inr ⟨fun q hq => hd.1 q (by simp [hq]), fun q hq => ?_⟩
          rcases List.mem_cons.mp (a2.mem_iff.mp hq) with rfl | hq
          · exact hd.1 _ (by simp)
          · exact hd.2 q hq
  have h1 := insertAll_placed points
  have hs1 : (insertAll points).root.Sorted :=
    key points KDTree.empty0 trivial trivial (.inr ⟨hp, by simp [KDTree.empty0, Tree.points]⟩)
  have hs2 : (insertAll (points ++ bad)).root.Sorted := by
    have := key bad (insertAll points) h1.1 hs1 (.inl hb)
    rwa [insertAll, ← List.foldl_append] at this
  have := rangeSearchRec_sorted lower upper _ [] hs2
  rw [List.nil_append] at this
  exact this.trans ((insertAll_placed _).2.1.filter _)

/-- C126: if the first inserted point and the target have no NaN, `nearestNeighbor` returns an inserted point without NaN, and none of the inserted points without NaN
is nearer. Points with NaN inserted anywhere after the first do no harm. -/
theorem C126_nearest_partial [LinearOrder K] [Arith K] [MonoArith K] (p target : Vec3 K) (ps : List (Vec3 (Dbl K))) :
    ∃ r : Vec3 K, (insertAll (p.dbl :: ps)).nearestNeighbor target.dbl = .ok r.dbl ∧ r.dbl ∈ p.dbl :: ps ∧
      ∀ q : Vec3 K, q.dbl ∈ p.dbl :: ps → target.distanceSq r ≤ target.distanceSq q := by
  obtain ⟨l, rt, e⟩ := insertAll_root p.dbl ps
  obtain ⟨h1, h2, _⟩ := insertAll_placed (p.dbl :: ps)
  rw [e] at h1 h2
  obtain ⟨g1, g2, g3, g4⟩ := nearestRec_placed target _ h1 (p.dbl, target.dbl.distanceSq p.dbl) ⟨p, rfl⟩
  obtain ⟨r, hr⟩ := g1
  refine ⟨r, ?_, ?_, ?_⟩
  · simp only [KDTree.nearestNeighbor, e, hr]
  · rw [hr] at g4
    rcases g4 with g4 | g4
    · simp only at g4; rw [g4]; simp
    · exact h2.mem_iff.mp g4
  · intro q hq
    have := g3 q (h2.mem_iff.mpr hq)
    rw [hr] at this
    exact this

/-- C126 (violated by the code): after a point whose first coordinate is NaN has been inserted into an empty tree, no range search ever returns anything, whatever is
inserted afterwards. -/
theorem C126_range_counterexample [LinearOrder K] (y z : Dbl K) (ps : List (Vec3 (Dbl K))) (lower upper : Vec3 (Dbl K)) :
    (insertAll (⟨nan, y, z⟩ :: ps)).rangeSearch lower upper = [] := by
  obtain ⟨l, r, e⟩ := insertAll_root ⟨nan, y, z⟩ ps
  simp [KDTree.rangeSearch, e, rangeSearchRec]

theorem nearestRec_nan [LinearOrder K] [Arith K] (target : Vec3 (Dbl K)) (t : Tree (Dbl K)) (p : Vec3 (Dbl K)) : nearestRec target t (p, nan) = (p, nan) := by
  induction t with
  | nil => rfl
  | node q axis l r ihl ihr =>
    unfold nearestRec
    simp only [not_lt_nan, if_false, ihl, ihr, ite_self]

/-- C126 (violated by the code): if the first inserted point has a NaN coordinate, `nearestNeighbor` returns that point for every target, whatever is inserted afterwards. -/
theorem C126_nearest_counterexample [LinearOrder K] [Arith K] (p : Vec3 (Dbl K)) (hp : ¬ p.Defined) (ps : List (Vec3 (Dbl K))) (target : Vec3 (Dbl K)) :
    (insertAll (p :: ps)).nearestNeighbor target = .ok p := by
  obtain ⟨l, r, e⟩ := insertAll_root p ps
  simp only [KDTree.nearestNeighbor, e, distanceSq_nan target p hp, nearestRec_nan]

/-! ### Non-vacuity: a tree with NaN points between the others -/

/-- Points with NaN coordinates in the second and fourth place. -/
def nanPoints : List (Vec3 (Dbl ℚ)) :=
  [⟨num 0, num 0, num 0⟩, ⟨nan, num 1, num 1⟩, ⟨num 5, num 5, num 5⟩, ⟨num 1, nan, num 1⟩, ⟨num 4, num 4, num 4⟩]

example : (insertAll nanPoints).nearestNeighbor ⟨num 4, num 4, num 3⟩ = .ok ⟨num 4, num 4, num 4⟩ := by decide +kernel
example : (insertAll nanPoints).rangeSearch ⟨num (-1), num (-1), num (-1)⟩ ⟨num 9, num 9, num 9⟩ =
    [⟨num 0, num 0, num 0⟩, ⟨num 5, num 5, num 5⟩, ⟨num 4, num 4, num 4⟩] := by decide +kernel
/-- Here the second point hides the third and fourth from a range search. -/
example : (insertAll [⟨num 0, num 0, num 0⟩, ⟨num 1, nan, num 1⟩, ⟨num 5, num 5, num 5⟩, (⟨num 4, num 4, num 4⟩ : Vec3 (Dbl ℚ))]).rangeSearch
    ⟨num (-1), num (-1), num (-1)⟩ ⟨num 9, num 9, num 9⟩ = [⟨num 0, num 0, num 0⟩] := by decide +kernel

end Cmm.KD
