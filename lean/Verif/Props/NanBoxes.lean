import Verif.Lemmas.Nan
import Verif.Spec.Nan
import Verif.Props.BVH
/-!
C125: box trees and boxes of points when some coordinates are NaN. `Dbl K` is a double that may be NaN.
-/
namespace Cmm.BVH
open Dbl
variable {K : Type}

/-- C125, the arithmetic in the statements below: on numbers it is that of the numbers, and NaN as an operand gives NaN. Every comparison with NaN is false. -/
theorem C125_arithmetic_partial [Arith K] [LinearOrder K] (a b : K) (n : Nat) (x : Dbl K) :
    (num a + num b = num (a + b) ∧ num a - num b = num (a - b) ∧ num a * num b = num (a * b) ∧ num a / num b = num (a / b) ∧ -num a = num (-a)) ∧
    ((0 : Dbl K) = num 0 ∧ (1 : Dbl K) = num 1 ∧ (n : Dbl K) = num (n : K)) ∧
    (nan + x = nan ∧ x + nan = nan ∧ nan - x = nan ∧ x - nan = nan ∧ nan * x = nan ∧ x * nan = nan ∧ nan / x = nan ∧ x / nan = nan ∧ -(nan : Dbl K) = nan) ∧
    ((num a < num b ↔ a < b) ∧ (num a ≤ num b ↔ a ≤ b) ∧ ¬ nan < x ∧ ¬ x < nan ∧ ¬ nan ≤ x ∧ ¬ x ≤ nan) := by
  refine ⟨⟨rfl, rfl, rfl, rfl, rfl⟩, ⟨rfl, rfl, rfl⟩, ?_, Iff.rfl, Iff.rfl, not_nan_lt x, not_lt_nan x, not_nan_le x, not_le_nan x⟩
  cases x <;> exact ⟨rfl, rfl, rfl, rfl, rfl, rfl, rfl, rfl, rfl⟩

/-- C125, boxes without NaN: the operations are those of boxes of numbers. -/
theorem C125_no_nan_partial [Arith K] [LinearOrder K] (a b r : AABB K) (p : Vec3 K) : a.dbl.intersects b.dbl = a.intersects b ∧
    a.dbl.intersection b.dbl r.dbl = ((a.intersection b r).1, (a.intersection b r).2.dbl) ∧ a.dbl.merge b.dbl = (a.merge b).dbl ∧
    a.dbl.expand p.dbl = (a.expand p).dbl ∧ a.dbl.volume = num a.volume := by
  have hmin : ∀ x y : K, Min.min (num x) (num y) = num (Min.min x y) := by
    intro x y
    rw [Dbl.min_def', min_def]
    by_cases h : y < x
    · rw [if_pos (by simpa using h), if_neg (not_le.mpr h)]
    · rw [if_neg (by simpa using h), if_pos (not_lt.mp h)]
  have hmax : ∀ x y : K, Max.max (num x) (num y) = num (Max.max x y) := by
    intro x y
    rw [Dbl.max_def', max_def]
    by_cases h : x < y
    · rw [if_pos (by simpa using h), if_pos h.le]
    · rw [if_neg (by simpa using h)]
      by_cases h' : x ≤ y
      · rw [if_pos h', le_antisymm h' (not_lt.mp h)]
      · rw [if_neg h']
  refine ⟨rfl, ?_, ?_, ?_, rfl⟩
  · unfold AABB.intersection
    simp only [AABB.dbl, Vec3.dbl, num_le, hmin, hmax]
    split <;> rfl
  · simp only [AABB.merge, AABB.dbl, Vec3.dbl, hmin, hmax]
  · simp only [AABB.expand, AABB.dbl, Vec3.dbl, hmin, hmax]

/-- C125, top-down builder: for every list of objects, with NaN coordinates anywhere, a box query returns exactly the objects whose box meets the query box. (A box
with a NaN meets nothing.) -/
theorem C125_top_down_partial [Arith K] [LinearOrder K] (lib : Lib (Dbl K)) (big low : K) (objects : List (Obj (Dbl K))) (q : AABB (Dbl K)) :
    (traverse q (build lib (num big) (num low) objects false) []).Perm (objects.filter fun o => o.bb.intersects q) := by
  simp only [build, Bool.false_eq_true, if_false]
  obtain ⟨h1, h2⟩ := buildTopDown_covers lib big low objects
  by_cases hne : objects = []
  · subst hne; simp [buildTopDown, traverse]
  · rw [traverse_covers q (h2 hne) [], List.nil_append]
    exact h1.filter _

/-- C125, what it means for one object: if its box has no NaN, the query finds it exactly if the boxes meet, whatever the other objects are. -/
theorem C125_top_down_finds_partial [Arith K] [LinearOrder K] (lib : Lib (Dbl K)) (big low : K) (objects : List (Obj (Dbl K))) (q b : AABB K) (id : Int) :
    (⟨b.dbl, id⟩ : Obj (Dbl K)) ∈ traverse q.dbl (build lib (num big) (num low) objects false) [] ↔
      ⟨b.dbl, id⟩ ∈ objects ∧ b.intersects q = true := by
  rw [(C125_top_down_partial lib big low objects q.dbl).mem_iff, List.mem_filter, intersects_num]

/-- C125: the keys by which the top-down builder sorts the axes are never NaN, so the sort is defined. -/
theorem C125_sort_keys_partial [Arith K] [LinearOrder K] (big low : K) (objects : List (Obj (Dbl K))) (axis : Nat) :
    (computeExtents (objects.foldl (fun b o => b.merge o.bb) (AABB.init (num big) (num low)))).coord axis ≠ nan := by
  obtain ⟨m, e, _⟩ := dbl_merge_fold (fun o : Obj (Dbl K) => o.bb) objects (AABB.init big low)
  rw [init_dbl, e]
  rcases axis with _ | _ | n
  · exact nofun
  · exact nofun
  · exact nofun

/-- C125: the box of a list of points that begins with a point without NaN contains every point without NaN. -/
theorem C125_points_partial [LinearOrder K] (p : Vec3 K) (ps : List (Vec3 (Dbl K))) :
    ∃ b, AABB.ofPoints (p.dbl :: ps) = .ok b ∧ ∀ x ∈ p.dbl :: ps, x.Defined → InBox x b := by
  have hm : ∀ (ps : List (Vec3 (Dbl K))) (a : AABB (Dbl K)), ps.foldl AABB.expand a = ps.foldl (fun b x => b.merge (⟨x, x⟩ : AABB (Dbl K))) a := fun _ _ => rfl
  obtain ⟨m, e, h1, h2⟩ := dbl_merge_fold (fun x : Vec3 (Dbl K) => (⟨x, x⟩ : AABB (Dbl K))) ps ⟨p, p⟩
  refine ⟨_, rfl, ?_⟩
  have e' : ps.foldl AABB.expand (⟨p.dbl, p.dbl⟩ : AABB (Dbl K)) = m.dbl := by rw [hm]; exact e
  rw [e']
  intro x hx hd
  have key : ∀ y : Vec3 K, BoxLe ⟨y, y⟩ m → InBox y.dbl m.dbl := by
    rintro y ⟨l1, l2, l3, l4, l5, l6⟩
    exact ⟨l1, l2, l3, l4, l5, l6⟩
  rcases List.mem_cons.mp hx with rfl | hx
  · exact key p h1
  · obtain ⟨x1, x2, x3⟩ := x
    obtain ⟨d1, d2, d3⟩ := hd
    cases x1 <;> cases x2 <;> cases x3 <;> simp_all
    exact key ⟨_, _, _⟩ (h2 _ hx ⟨⟨_, _, _⟩, ⟨_, _, _⟩⟩ rfl)

/-- C125 (violated by the code): if the first point of the list has a NaN as first coordinate, the box contains no point at all, whatever the other points are. The
same points in another order have a box that contains them (`C125_points_partial`). -/
theorem C125_points_counterexample [LinearOrder K] (y z : Dbl K) (ps : List (Vec3 (Dbl K))) :
    ∃ b, AABB.ofPoints (⟨nan, y, z⟩ :: ps) = .ok b ∧ ∀ x, ¬ InBox x b := by
  refine ⟨_, rfl, ?_⟩
  have key : ∀ (ps : List (Vec3 (Dbl K))) (a : AABB (Dbl K)), a.min.x = nan → (ps.foldl AABB.expand a).min.x = nan := by
    intro ps
    induction ps with
    | nil => exact fun _ h => h
    | cons p ps ih =>
      intro a ha
      rw [List.foldl_cons]
      apply ih
      simp [AABB.expand, ha, Dbl.min_def']
  intro x hx
  have := hx.1
  rw [key ps _ rfl] at this
  exact not_nan_le _ this

/-- An object whose box has one NaN bound, and one without. -/
def nanObjs : List (Obj (Dbl ℚ)) :=
  [⟨⟨⟨num 0, num 0, num 0⟩, ⟨nan, num 1, num 1⟩⟩, 1⟩, ⟨⟨⟨num 2, num 0, num 0⟩, ⟨num 3, num 1, num 1⟩⟩, 2⟩]

/-- A query box that is exactly the box of the second object. -/
def nanQuery : AABB (Dbl ℚ) := ⟨⟨num 2, num 0, num 0⟩, ⟨num 3, num 1, num 1⟩⟩

/-- C125 (violated by the code): in a tree built bottom-up an object with one NaN bound hides its neighbour. Nothing is found, although the box of the second object
equals the query box. The keys of the sort are numbers, so the run is defined. -/
theorem C125_bottom_up_counterexample (lib : Lib (Dbl ℚ)) :
    traverse nanQuery (build lib (num 100) (num (-100)) nanObjs true) [] = [] ∧
    nanObjs.filter (fun o => o.bb.intersects nanQuery) = [⟨nanQuery, 2⟩] ∧ ∀ o ∈ nanObjs, ∀ axis, o.bb.min.coord axis ≠ nan := by
  refine ⟨?_, by decide +kernel, ?_⟩
  · set la : Leaf (Dbl ℚ) := ⟨⟨⟨num 0, num 0, num 0⟩, ⟨nan, num 1, num 1⟩⟩,
      .node ⟨⟨num 0, num 0, num 0⟩, ⟨nan, num 1, num 1⟩⟩ (some ⟨⟨⟨num 0, num 0, num 0⟩, ⟨nan, num 1, num 1⟩⟩, 1⟩) .nil .nil⟩ with hla
    set lb : Leaf (Dbl ℚ) := ⟨⟨⟨num 2, num 0, num 0⟩, ⟨num 3, num 1, num 1⟩⟩,
      .node ⟨⟨num 2, num 0, num 0⟩, ⟨num 3, num 1, num 1⟩⟩ (some ⟨⟨⟨num 2, num 0, num 0⟩, ⟨num 3, num 1, num 1⟩⟩, 2⟩) .nil .nil⟩ with hlb
    have haxis : findBestAxis (num 100) (num (-100)) [la, lb] = 0 := by
      rw [hla, hlb]; decide +kernel
    have hs := lib.sortLeaves_sorted 0 [la, lb] (by
      intro a ha
      simp only [List.mem_cons, List.not_mem_nil, or_false] at ha
      rcases ha with rfl | rfl
      · rw [hla]; decide +kernel
      · rw [hlb]; decide +kernel)
    have hsort : lib.sortLeaves 0 [la, lb] = [la, lb] := by
      have hp := lib.sortLeaves_perm 0 [la, lb]
      rcases h : lib.sortLeaves 0 [la, lb] with _ | ⟨a, _ | ⟨b, _ | ⟨c, t⟩⟩⟩
      · rw [h] at hp; simpa using hp.length_eq
      · rw [h] at hp; simpa using hp.length_eq
      · rw [h] at hp hs
        have h1 := hs
        simp only [List.pairwise_cons, List.mem_singleton, forall_eq, List.not_mem_nil, false_imp_iff, implies_true, List.Pairwise.nil, and_true] at h1
        have hab : a = la ∨ a = lb := by simpa using hp.mem_iff.mp (show a ∈ [a, b] by simp)
        rcases hab with rfl | rfl
        · have := (List.perm_cons _).mp hp
          simp only [List.perm_singleton] at this
          rw [this]
        · have h2 := hp.trans (List.Perm.swap _ _ _)
          have := (List.perm_cons _).mp h2
          simp only [List.perm_singleton, List.cons.injEq, and_true] at this
          subst this
          exact absurd h1 (by rw [hla, hlb]; decide +kernel)
      · rw [h] at hp; simpa using hp.length_eq
    have hloop : mergeLoop lib (num 100) (num (-100)) [la, lb] = [⟨la.bbox.merge lb.bbox, .node (la.bbox.merge lb.bbox) none la.node lb.node⟩] := by
      rw [mergeLoop, dif_pos (by simp), haxis, hsort, pairUp, pairUp, mergeLoop, dif_neg (by simp)]
    have hb : build lib (num 100) (num (-100)) nanObjs true = .node (la.bbox.merge lb.bbox) none la.node lb.node := by
      have : nanObjs.map (fun o => (⟨o.bb, .node o.bb (some o) .nil .nil⟩ : Leaf (Dbl ℚ))) = [la, lb] := rfl
      simp only [build, if_true, buildBottomUp, this, hloop]
    rw [hb, traverse, if_neg]
    rw [hla, hlb]; decide +kernel
  · intro o ho axis
    simp only [nanObjs, List.mem_cons, List.not_mem_nil, or_false] at ho
    rcases ho with rfl | rfl <;> rcases axis with _ | _ | n <;> exact nofun

/-! ### Non-vacuity -/

/-- A total preorder on doubles that agrees with `≤` on numbers (NaN below all). -/
def leBool [LinearOrder K] : Dbl K → Dbl K → Bool
  | .nan, _ => true
  | .num _, .nan => false
  | .num a, .num b => decide (a ≤ b)

/-- A conforming library for doubles with NaN. -/
def nanLib [LinearOrder K] : Lib (Dbl K) where
  sortAxes e := [0, 1, 2].mergeSort fun a b => leBool (e b) (e a)
  sortAxes_perm _ := List.mergeSort_perm _ _
  sortAxes_sorted e he := by
    have := List.pairwise_mergeSort (le := fun a b : Nat => leBool (e b) (e a))
      (by intro a b c; cases e a <;> cases e b <;> cases e c <;> simp [leBool]; intro h1 h2; exact h2.trans h1)
      (by intro a b; cases e a <;> cases e b <;> simp [leBool]; exact le_total _ _) [0, 1, 2]
    refine this.imp ?_
    intro a b h
    have h1 := he a
    have h2 := he b
    cases ha : e a <;> cases hb : e b <;> simp_all [leBool]
  partition p l := (l.filter p, l.filter (fun o => !p o))
  partition_perm p l := List.filter_append_perm p l
  partition_left p l o h := by simp at h; exact h.2
  partition_right p l o h := by simp at h; simpa using h.2
  sortLeaves axis l := l.mergeSort fun a b => leBool (a.bbox.min.coord axis) (b.bbox.min.coord axis)
  sortLeaves_perm _ l := List.mergeSort_perm _ _
  sortLeaves_sorted axis l hl := by
    have := List.pairwise_mergeSort (le := fun a b : Leaf (Dbl K) => leBool (a.bbox.min.coord axis) (b.bbox.min.coord axis))
      (by intro a b c; cases a.bbox.min.coord axis <;> cases b.bbox.min.coord axis <;> cases c.bbox.min.coord axis <;> simp [leBool]; exact fun h1 h2 => h1.trans h2)
      (by intro a b; cases a.bbox.min.coord axis <;> cases b.bbox.min.coord axis <;> simp [leBool]; exact le_total _ _) l
    refine this.imp_of_mem ?_
    intro a b ha hb h
    have h1 := hl a (by simpa using (List.mergeSort_perm _ _).mem_iff.mp ha)
    have h2 := hl b (by simpa using (List.mergeSort_perm _ _).mem_iff.mp hb)
    cases ha : a.bbox.min.coord axis <;> cases hb : b.bbox.min.coord axis <;> simp_all [leBool]

/-- The same two objects: built top-down, the query finds the second. -/
example : (traverse nanQuery (build nanLib (num 100) (num (-100)) nanObjs false) []).Perm [⟨nanQuery, 2⟩] := by
  rw [show [(⟨nanQuery, 2⟩ : Obj (Dbl ℚ))] = nanObjs.filter fun o => o.bb.intersects nanQuery by decide +kernel]
  exact C125_top_down_partial nanLib 100 (-100) nanObjs nanQuery

example : AABB.ofPoints [⟨num 0, num 0, num 0⟩, ⟨nan, num 5, num 0⟩, (⟨num 1, num 2, num 3⟩ : Vec3 (Dbl ℚ))] =
    .ok ⟨⟨num 0, num 0, num 0⟩, ⟨num 1, num 5, num 3⟩⟩ := by decide +kernel

end Cmm.BVH
