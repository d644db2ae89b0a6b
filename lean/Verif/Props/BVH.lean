import Verif.Lemmas.BVH
import Mathlib.Data.List.Sort
import Mathlib.Algebra.Order.Field.Rat
/-!
Properties C11-C15 and C63 of bvh.hpp. `lib` is any conforming standard library, `big`/`low` the constants of the
default box; `InRange` says the object boxes lie in the range of the number format.
-/
namespace Cmm.BVH
variable {K : Type}

section
variable [Arith K] [LinearOrder K]

/-- C11. Both builders: null exactly for the empty list, otherwise a well-built tree (one object per leaf, two children
and no object in inner nodes, tight boxes) that stores exactly the given objects. -/
theorem C11_build_correct (lib : Lib K) (big low : K) (bottomUp : Bool) (objects : List (Obj K))
    (hr : ∀ o ∈ objects, InRange big low o.bb) :
    (build lib big low objects bottomUp = .nil ↔ objects = []) ∧
    (objects ≠ [] → WellBuilt (build lib big low objects bottomUp)) ∧
    (build lib big low objects bottomUp).objs.Perm objects := by
  have key : ∀ t : Tree K, t.objs.Perm objects → (objects ≠ [] → WellBuilt t) → (objects = [] → t = .nil) →
      (t = .nil ↔ objects = []) ∧ (objects ≠ [] → WellBuilt t) ∧ t.objs.Perm objects := by
    intro t h1 h2 h3
    refine ⟨⟨fun h => ?_, h3⟩, h2, h1⟩
    subst h
    simpa [Tree.objs] using h1.symm.eq_nil
  unfold build
  cases bottomUp with
  | true =>
    obtain ⟨h1, h2, h3⟩ := buildBottomUp_spec lib big low objects
    exact key _ h1 h2 h3
  | false =>
    obtain ⟨h1, h2, h3⟩ := buildTopDown_spec lib big low objects hr
    exact key _ h1 h2 h3

/-- C11. Splitting only permutes the caller's vector (afterwards it holds the left half followed by the right half) and
both halves of two or more objects are non-empty, so the "did not split" branch of the builder is never taken. -/
theorem C11_split_permutes (lib : Lib K) (big low : K) (objects : List (Obj K)) :
    ((splitObjects lib big low objects).1 ++ (splitObjects lib big low objects).2).Perm objects ∧
    (2 ≤ objects.length →
      (splitObjects lib big low objects).1 ≠ [] ∧ (splitObjects lib big low objects).2 ≠ []) :=
  ⟨splitObjects_perm lib big low objects, splitObjects_ne lib big low objects⟩

/-- C12. A box query on a built tree returns exactly the objects whose box meets the query box, each as often as it was
given. -/
theorem C12_traverse_exact (lib : Lib K) (big low : K) (bottomUp : Bool) (objects : List (Obj K))
    (hr : ∀ o ∈ objects, InRange big low o.bb) (q : AABB K) :
    (traverse q (build lib big low objects bottomUp) []).Perm (objects.filter fun o => o.bb.intersects q) := by
  obtain ⟨h1, h2, h3⟩ := C11_build_correct lib big low bottomUp objects hr
  by_cases hne : objects = []
  · rw [h1.mpr hne, hne]; simp [traverse]
  · rw [traverse_spec q (h2 hne) [], List.nil_append]
    exact h3.filter _

/-- C12. A point query returns exactly the objects whose box contains the point. -/
theorem C12_contains_point_exact (lib : Lib K) (big low : K) (bottomUp : Bool) (objects : List (Obj K))
    (hr : ∀ o ∈ objects, InRange big low o.bb) (pt : Vec3 K) :
    ∃ res, containsPoint (build lib big low objects bottomUp) pt [] = res ∧
      ∀ o, (o ∈ res ↔ o ∈ objects ∧ InBox pt o.bb) ∧ (InBox pt o.bb → res.countP (fun x => x.id = o.id ∧ x.bb = o.bb)
        = objects.countP (fun x => x.id = o.id ∧ x.bb = o.bb)) := by
  refine ⟨_, rfl, ?_⟩
  have h := C12_traverse_exact lib big low bottomUp objects hr ⟨pt, pt⟩
  intro o
  have hbox : ∀ b : AABB K, b.intersects ⟨pt, pt⟩ = true ↔ InBox pt b := by
    intro b; rw [intersects_iff]; simp only [InBox]
  refine ⟨?_, ?_⟩
  · unfold containsPoint
    rw [h.mem_iff, List.mem_filter, hbox]
  · intro hb
    unfold containsPoint
    rw [h.countP_eq, List.countP_filter]
    apply List.countP_congr
    intro x _
    simp only [decide_eq_true_eq, Bool.and_eq_true]
    constructor
    · exact fun h => h.1
    · intro h; exact ⟨h, by rw [h.2]; exact (hbox _).mpr hb⟩

/-- C12. Both builders answer every box query alike, up to order. -/
theorem C12_builders_agree (lib : Lib K) (big low : K) (objects : List (Obj K))
    (hr : ∀ o ∈ objects, InRange big low o.bb) (q : AABB K) :
    (traverse q (build lib big low objects true) []).Perm (traverse q (build lib big low objects false) []) :=
  (C12_traverse_exact lib big low true objects hr q).trans (C12_traverse_exact lib big low false objects hr q).symm

theorem build_ok (lib : Lib K) (big low : K) (bottomUp : Bool) (objects : List (Obj K))
    (hr : ∀ o ∈ objects, InRange big low o.bb) : Ok (build lib big low objects bottomUp) := by
  obtain ⟨h1, h2, _⟩ := C11_build_correct lib big low bottomUp objects hr
  by_cases hne : objects = []
  · exact Or.inl (h1.mpr hne)
  · exact Or.inr (h2 hne)

theorem hits_perm (P : AABB K → AABB K → Bool) {a a' b b' : List (Obj K)} (ha : a.Perm a') (hb : b.Perm b') :
    (hits P a b).Perm (hits P a' b') := by
  unfold hits allPairs
  apply List.Perm.filter
  exact List.Perm.flatMap ha fun x _ => hb.map _

/-- C13. The iterative tree-tree intersection of two built trees terminates (it is a total function here) and reports
exactly the pairs of objects with intersecting boxes, with multiplicity. -/
theorem C13_iterative_exact (lib : Lib K) (big low : K) (m1 m2 : Bool) (os1 os2 : List (Obj K))
    (h1 : ∀ o ∈ os1, InRange big low o.bb) (h2 : ∀ o ∈ os2, InRange big low o.bb) :
    (intersectIterative (build lib big low os1 m1) (build lib big low os2 m2) []).Perm
      ((allPairs os1 os2).filter fun p => p.1.bb.intersects p.2.bb) := by
  unfold intersectIterative
  have hs := intersectIter_spec [(build lib big low os1 m1, build lib big low os2 m2)] [] (by
    intro p hp
    simp only [List.mem_singleton] at hp
    subst hp
    exact ⟨build_ok lib big low m1 os1 h1, build_ok lib big low m2 os2 h2⟩)
  refine hs.trans ?_
  simp only [List.nil_append, stackHits, List.flatMap_cons, List.flatMap_nil, List.append_nil]
  exact hits_perm AABB.intersects (C11_build_correct lib big low m1 os1 h1).2.2
    (C11_build_correct lib big low m2 os2 h2).2.2

/-- C14. The recursive tree-tree intersection reports exactly the pairs of objects whose boxes intersect in a box of
volume at least `eps` (1e-6 in the code), with multiplicity, when the object boxes are valid. -/
theorem C14_recursive_exact [MonoArith K] (lib : Lib K) (big low eps : K) (m1 m2 : Bool)
    (os1 os2 : List (Obj K))
    (h1 : ∀ o ∈ os1, InRange big low o.bb) (h2 : ∀ o ∈ os2, InRange big low o.bb)
    (v1 : ∀ o ∈ os1, ValidBox o.bb) (v2 : ∀ o ∈ os2, ValidBox o.bb) :
    (intersectRec eps (build lib big low os1 m1) (build lib big low os2 m2) []).Perm
      ((allPairs os1 os2).filter fun p => p.1.bb.intersects p.2.bb &&
        decide (eps ≤ (p.1.bb.intersection p.2.bb (AABB.init 0 0)).2.volume)) := by
  have p1 := (C11_build_correct lib big low m1 os1 h1).2.2
  have p2 := (C11_build_correct lib big low m2 os2 h2).2.2
  have hs := intersectRec_spec eps (build lib big low os1 m1) (build lib big low os2 m2) []
    (build_ok lib big low m1 os1 h1) (build_ok lib big low m2 os2 h2)
    (fun o ho => v1 o (p1.mem_iff.mp ho)) (fun o ho => v2 o (p2.mem_iff.mp ho))
  exact hs.trans (hits_perm (bigOverlap eps) p1 p2)

/-- C14, consequence: an object pair that only touches (some side of the common box has length zero) is never reported. -/
theorem C14_flat_overlap_not_reported [MonoArith K] (lib : Lib K) (big low eps : K) (heps : 0 < eps)
    (m1 m2 : Bool) (os1 os2 : List (Obj K))
    (h1 : ∀ o ∈ os1, InRange big low o.bb) (h2 : ∀ o ∈ os2, InRange big low o.bb)
    (v1 : ∀ o ∈ os1, ValidBox o.bb) (v2 : ∀ o ∈ os2, ValidBox o.bb) (x y : Obj K)
    (hflat : min x.bb.max.x y.bb.max.x = max x.bb.min.x y.bb.min.x) :
    (x, y) ∉ intersectRec eps (build lib big low os1 m1) (build lib big low os2 m2) [] := by
  rw [(C14_recursive_exact lib big low eps m1 m2 os1 os2 h1 h2 v1 v2).mem_iff, List.mem_filter]
  rintro ⟨_, h⟩
  simp only [Bool.and_eq_true, decide_eq_true_eq] at h
  rw [intersection_snd_true _ h.1] at h
  simp only [AABB.volume] at h
  rw [hflat] at h
  have := h.2
  simp only [MonoArith.sub_self, MonoArith.zero_mul] at this
  exact absurd this (not_le.mpr heps)

/-- C63. A bottom-up tree over at most 2^k objects has height at most k, so traversals recurse at most k deep. -/
theorem C63_bottom_up_balanced (lib : Lib K) (big low : K) (k : Nat) (objects : List (Obj K))
    (hk : objects.length ≤ 2 ^ k) : (buildBottomUp lib big low objects).height ≤ k := by
  unfold buildBottomUp
  have := mergeLoop_height lib big low k (objects.map fun o => (⟨o.bb, .node o.bb (some o) .nil .nil⟩ : Leaf K)) 0
    (by intro l hl; simp only [List.mem_map] at hl; obtain ⟨o, _, rfl⟩ := hl; simp [Tree.height]) (by simpa using hk)
  split
  · simp [Tree.height]
  · rename_i l ls heq
    rw [heq] at this
    simpa using this l (by simp)

end

/-- C15 (violated by the code): a copy of any tree holds no object at all, so no query on it returns anything. -/
theorem C15_copy_loses_objects [LE K] [DecidableLE K] (t : Tree K) (q : AABB K) :
    (copy t).objs = [] ∧ traverse q (copy t) [] = [] := by
  refine ⟨copy_objs t, ?_⟩
  rw [List.eq_nil_iff_forall_not_mem]
  intro o ho
  have := traverse_mem q (copy t) [] o ho
  rw [copy_objs] at this
  simp at this

/-- C15 (violated by the code): assigning to a freshly constructed node gives a tree without objects; assigning a leaf to
a leaf keeps the target's old object under the source's box. -/
theorem C15_assign_loses_objects (b bb : AABB K) (o' : Option (Obj K)) (l r : Tree K) (x : Obj K) :
    (assign (.node b none .nil .nil) (.node bb o' l r)).objs = [] ∧
    (∀ y : Obj K, assign (.node b (some x) .nil .nil) (.node bb (some y) .nil .nil) = .node bb (some x) .nil .nil) := by
  constructor
  · simp only [assign, Tree.objs, copy_objs]
    split <;> rfl
  · intro y; rfl

/-- C15 (violated by the code): `setRight` replaces the left child and leaves the right child as it was. -/
theorem C15_setRight_overwrites_left (b : AABB K) (o : Option (Obj K)) (l r n : Tree K) :
    setRight (.node b o l r) n = (.node b o n r, l) ∧ setLeft (.node b o l r) n = (.node b o n r, l) := ⟨rfl, rfl⟩

/-- C15, what does hold: a copy keeps the shape and all boxes. -/
theorem C15_copy_keeps_boxes_partial (b : AABB K) (o : Option (Obj K)) (l r : Tree K) :
    (copy (.node b o l r)).box? = some b ∧ (copy (.node b o l r)).size = (Tree.node b o l r).size := by
  refine ⟨rfl, ?_⟩
  have : ∀ t : Tree K, (copy t).size = t.size := by
    intro t
    induction t with
    | nil => rfl
    | node _ _ _ _ ih1 ih2 => simp [copy, Tree.size, ih1, ih2]
  exact this _

/-! ### Non-vacuity: a conforming library, and objects in range with valid boxes -/

/-- A library with `mergeSort` and `List.partition`. -/
def sampleLib [LinearOrder K] : Lib K where
  sortAxes e := [0, 1, 2].mergeSort fun a b => decide (e b ≤ e a)
  sortAxes_perm _ := List.mergeSort_perm _ _
  sortAxes_sorted e _ := by
    have := List.pairwise_mergeSort (le := fun a b : Nat => decide (e b ≤ e a))
      (by intro a b c h1 h2; simp at *; exact le_trans h2 h1) (by intro a b; simp; exact le_total _ _) [0, 1, 2]
    simpa using this
  partition p l := (l.filter p, l.filter (fun o => !p o))
  partition_perm p l := List.filter_append_perm p l
  partition_left p l o h := by simp at h; exact h.2
  partition_right p l o h := by simp at h; simpa using h.2
  sortLeaves axis l := l.mergeSort fun a b => decide (a.bbox.min.coord axis ≤ b.bbox.min.coord axis)
  sortLeaves_perm _ l := List.mergeSort_perm _ _
  sortLeaves_sorted axis l _ := by
    have := List.pairwise_mergeSort (le := fun a b : Leaf K => decide (a.bbox.min.coord axis ≤ b.bbox.min.coord axis))
      (by intro a b c h1 h2; simp at *; exact le_trans h1 h2) (by intro a b; simp; exact le_total _ _) l
    simpa using this

/-- Three objects, two of them equal and one flat. -/
def sampleObjs : List (Obj ℚ) :=
  [⟨⟨⟨0, 0, 0⟩, ⟨1, 1, 1⟩⟩, 1⟩, ⟨⟨⟨0, 0, 0⟩, ⟨1, 1, 1⟩⟩, 1⟩, ⟨⟨⟨2, 0, 0⟩, ⟨3, 1, 0⟩⟩, 2⟩]

example : (∀ o ∈ sampleObjs, InRange (100 : ℚ) (-100) o.bb) ∧ (∀ o ∈ sampleObjs, ValidBox o.bb) := by
  constructor
  · simp [sampleObjs, InRange]; norm_num
  · simp [sampleObjs, ValidBox]; norm_num
example : (traverse ⟨⟨1, 1, 1⟩, ⟨5, 5, 5⟩⟩ (build sampleLib 100 (-100) sampleObjs false) []).length = 2 := by
  rw [(C12_traverse_exact sampleLib 100 (-100) false sampleObjs (by simp [sampleObjs, InRange]; norm_num) _).length_eq]
  decide +kernel
example : ((allPairs sampleObjs sampleObjs).filter fun p => p.1.bb.intersects p.2.bb).length = 5 := by decide +kernel
example : sampleObjs.length ≤ 2 ^ 2 := by decide

end Cmm.BVH
