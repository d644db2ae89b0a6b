import Verif.Model.AABB
import Verif.Model.Arith
import Mathlib.Tactic.Linarith
import Mathlib.Data.List.Perm.Basic
/-!
Model of cmmcore/bvh.hpp. `Object3D*` pointers are modelled by the objects themselves (box and id); the output lists hold
objects. `std::partition`, `std::sort` are parameters with their standard contracts (`Lib`).
-/
namespace Cmm.BVH
variable {K : Type}

/-- bvh.hpp 85-109 `Object3D`. -/
structure Obj (K : Type) where
  bb : AABB K
  id : Int
  deriving DecidableEq, Repr

/-- bvh.hpp 118-161 `BVHNode` behind a `unique_ptr`; `nil` is the null pointer. -/
inductive Tree (K : Type) where
  | nil
  | node (bb : AABB K) (object : Option (Obj K)) (left right : Tree K)

/-- `node->bounding_box` where the pointer is known to be non-null; `nil` has no box. -/
def Tree.box? : Tree K → Option (AABB K)
  | .nil => none
  | .node bb _ _ _ => some bb

/-- Null test of a child pointer. -/
def Tree.isNil : Tree K → Bool
  | .nil => true
  | .node .. => false

/-- bvh.hpp 303-316 `BVHLeaf`: box and node of a partial tree during bottom-up construction (the `object` member is
never read). -/
structure Leaf (K : Type) where
  bbox : AABB K
  node : Tree K

/-- The standard algorithms used, with their contracts: `std::sort` of the axis array (bvh.hpp 197-199), `std::partition`
(206-209) and `std::sort` of the leaves (346-349). The sorting contracts ask for keys that compare equal to themselves (no NaN). -/
structure Lib (K : Type) [LE K] where
  sortAxes : (extent : Nat → K) → List Nat
  sortAxes_perm : ∀ e, (sortAxes e).Perm [0, 1, 2]
  sortAxes_sorted : ∀ e, (∀ i, e i ≤ e i) → (sortAxes e).Pairwise fun a b => e b ≤ e a
  partition : (Obj K → Bool) → List (Obj K) → List (Obj K) × List (Obj K)
  partition_perm : ∀ p l, ((partition p l).1 ++ (partition p l).2).Perm l
  partition_left : ∀ p l, ∀ o ∈ (partition p l).1, p o = true
  partition_right : ∀ p l, ∀ o ∈ (partition p l).2, p o = false
  sortLeaves : (axis : Nat) → List (Leaf K) → List (Leaf K)
  sortLeaves_perm : ∀ axis l, (sortLeaves axis l).Perm l
  sortLeaves_sorted : ∀ axis l, (∀ a ∈ l, a.bbox.min.coord axis ≤ a.bbox.min.coord axis) →
    (sortLeaves axis l).Pairwise fun a b => a.bbox.min.coord axis ≤ b.bbox.min.coord axis

section
variable [Arith K] [LE K] [LT K] [DecidableLT K] [Min K] [Max K] [DecidableEq K]

/-- bvh.hpp 162-165 `compute_extents`. -/
def computeExtents (b : AABB K) : Vec3 K := ⟨b.max.x - b.min.x, b.max.y - b.min.y, b.max.z - b.min.z⟩

/-- bvh.hpp 201-215: the loop over the sorted axes; `objects` is reordered in place by each partition. The result is the
pair of halves if some axis separates the objects, otherwise the reordered vector. -/
def splitAxes (lib : Lib K) (extents : Vec3 K) (total : AABB K) :
    List Nat → List (Obj K) → (List (Obj K) × List (Obj K)) ⊕ List (Obj K)
  | [], objects => .inr objects
  | axis :: rest, objects =>
    if 0 < extents.coord axis then
      let splitPos := (total.min.coord axis + total.max.coord axis) * (1 / 2)
      let pr := lib.partition (fun o => decide (o.bb.min.coord axis < splitPos)) objects
      if !pr.1.isEmpty && !pr.2.isEmpty then .inl pr
      else splitAxes lib extents total rest (pr.1 ++ pr.2)
    else splitAxes lib extents total rest objects

/-- bvh.hpp 171-222 `split_objects`; `big`/`low` are the constants of `AABB()`. The vector passed in is afterwards the
concatenation of the two halves. -/
def splitObjects (lib : Lib K) (big low : K) (objects : List (Obj K)) : List (Obj K) × List (Obj K) :=
  if objects.length ≤ 1 then (objects, [])
  else
    let total := objects.foldl (fun b o => b.merge o.bb) (AABB.init big low)
    let extents := computeExtents total
    if extents.x = 0 ∧ extents.y = 0 ∧ extents.z = 0 then
      (objects.take (objects.length / 2), objects.drop (objects.length / 2))
    else
      match splitAxes lib extents total (lib.sortAxes fun i => extents.coord i) objects with
      | .inl pr => pr
      | .inr objects' => (objects'.take (objects'.length / 2), objects'.drop (objects'.length / 2))

theorem splitAxes_perm (lib : Lib K) (e : Vec3 K) (t : AABB K) (axes : List Nat) (l : List (Obj K)) :
    (match splitAxes lib e t axes l with
      | .inl pr => pr.1 ++ pr.2
      | .inr l' => l').Perm l := by
  induction axes generalizing l with
  | nil => simp [splitAxes]
  | cons a as ih =>
    simp only [splitAxes]
    have hp := lib.partition_perm (fun o => decide (o.bb.min.coord a < (t.min.coord a + t.max.coord a) * (1 / 2))) l
    by_cases h1 : 0 < e.coord a
    · rw [if_pos h1]
      generalize lib.partition (fun o => decide (o.bb.min.coord a < (t.min.coord a + t.max.coord a) * (1 / 2))) l = pr
        at hp ⊢
      by_cases h2 : (!pr.1.isEmpty && !pr.2.isEmpty) = true
      · rw [if_pos h2]; exact hp
      · rw [if_neg h2]; exact (ih _).trans hp
    · rw [if_neg h1]; exact ih l

theorem splitObjects_perm (lib : Lib K) (big low : K) (l : List (Obj K)) :
    ((splitObjects lib big low l).1 ++ (splitObjects lib big low l).2).Perm l := by
  unfold splitObjects
  by_cases h : l.length ≤ 1
  · simp [h]
  · simp only [h, if_false]
    split
    · simp
    · have := splitAxes_perm lib (computeExtents (l.foldl (fun b o => b.merge o.bb) (AABB.init big low)))
        (l.foldl (fun b o => b.merge o.bb) (AABB.init big low))
        (lib.sortAxes fun i => (computeExtents (l.foldl (fun b o => b.merge o.bb) (AABB.init big low))).coord i) l
      split
      · rename_i pr heq; rw [heq] at this; exact this
      · rename_i l' heq; rw [heq] at this; simpa using this

/-- Merging a child's box into the node's, if the child is not null (bvh.hpp 271-276). -/
def mergeChild (b : AABB K) : Tree K → AABB K
  | .nil => b
  | .node bb _ _ _ => b.merge bb

/-- bvh.hpp 241-279 `build_bvh_top_down`. -/
def buildTopDown (lib : Lib K) (big low : K) (objects : List (Obj K)) : Tree K :=
  match objects with
  | [] => .nil
  | [o] => .node o.bb (some o) .nil .nil
  | o :: o' :: rest =>
    let lr := splitObjects lib big low (o :: o' :: rest)
    if h : lr.1.length = (o :: o' :: rest).length ∨ lr.2.length = (o :: o' :: rest).length then
      .node ((o :: o' :: rest).foldl (fun b o => b.merge o.bb) (AABB.init big low)) ((o :: o' :: rest).head?) .nil .nil
    else
      let left := buildTopDown lib big low lr.1
      let right := buildTopDown lib big low lr.2
      .node (mergeChild (mergeChild (AABB.init big low) left) right) none left right
termination_by objects.length
decreasing_by
  · have := (splitObjects_perm lib big low (o :: o' :: rest)).length_eq
    rw [not_or] at h
    simp only [List.length_append, lr] at this h ⊢
    omega
  · have := (splitObjects_perm lib big low (o :: o' :: rest)).length_eq
    rw [not_or] at h
    simp only [List.length_append, lr] at this h ⊢
    omega

/-- bvh.hpp 319-338 `find_best_axis`. -/
def findBestAxis (big low : K) (leaves : List (Leaf K)) : Nat :=
  let b := leaves.foldl (fun b l => b.merge l.bbox) (AABB.init big low)
  let spread := computeExtents b
  if spread.y < spread.x ∧ spread.z < spread.x then 0
  else if spread.z < spread.y then 1
  else 2

/-- bvh.hpp 356-366: one round of pairing neighbours; an odd last leaf is carried over. -/
def pairUp : List (Leaf K) → List (Leaf K)
  | a :: b :: rest =>
    ⟨a.bbox.merge b.bbox, .node (a.bbox.merge b.bbox) none a.node b.node⟩ :: pairUp rest
  | [a] => [a]
  | [] => []

omit [Arith K] [LE K] [LT K] [DecidableLT K] [DecidableEq K] in
theorem length_pairUp (l : List (Leaf K)) : (pairUp l).length = (l.length + 1) / 2 := by
  induction l using pairUp.induct with
  | case1 a b rest ih => simp only [pairUp, List.length_cons, ih]; omega
  | case2 a => simp [pairUp]
  | case3 => simp [pairUp]

/-- bvh.hpp 344-370: the merging loop. -/
def mergeLoop (lib : Lib K) (big low : K) (leaves : List (Leaf K)) : List (Leaf K) :=
  if _h : leaves.length > 1 then
    mergeLoop lib big low (pairUp (lib.sortLeaves (findBestAxis big low leaves) leaves))
  else leaves
termination_by leaves.length
decreasing_by
  rw [length_pairUp, (lib.sortLeaves_perm _ _).length_eq]; omega

/-- bvh.hpp 295-373 `build_bvh_bottom_up`. -/
def buildBottomUp (lib : Lib K) (big low : K) (objects : List (Obj K)) : Tree K :=
  match mergeLoop lib big low (objects.map fun o => ⟨o.bb, .node o.bb (some o) .nil .nil⟩) with
  | [] => .nil
  | l :: _ => l.node

/-- bvh.hpp 376-383 `build_bvh`. -/
def build (lib : Lib K) (big low : K) (objects : List (Obj K)) (useBottomUp : Bool) : Tree K :=
  if useBottomUp then buildBottomUp lib big low objects else buildTopDown lib big low objects

end

/-- bvh.hpp 485-498 `traverse_bvh`: appends to `results`. -/
def traverse [LE K] [DecidableLE K] (target : AABB K) : Tree K → List (Obj K) → List (Obj K)
  | .nil, results => results
  | .node bb object left right, results =>
    if bb.intersects target then
      match object with
      | some o => results ++ [o]
      | none => traverse target right (traverse target left results)
    else results

/-- bvh.hpp 501-506 `contains_point`. -/
def containsPoint [LE K] [DecidableLE K] (root : Tree K) (pt : Vec3 K) (results : List (Obj K)) : List (Obj K) :=
  traverse ⟨pt, pt⟩ root results

/-- Number of nodes (used only for termination). -/
def Tree.size : Tree K → Nat
  | .nil => 0
  | .node _ _ l r => 1 + l.size + r.size

/-- Pushing a pair if the condition on the children pointers holds (bvh.hpp 407-432). -/
def pushIf (c : Bool) (p : Tree K × Tree K) (stack : List (Tree K × Tree K)) : List (Tree K × Tree K) :=
  if c then p :: stack else stack

/-- Termination measure of the stack. -/
def weight : List (Tree K × Tree K) → Nat
  | [] => 0
  | p :: rest => 2 * (p.1.size * p.2.size) + 1 + weight rest

theorem size_pos_of_not_isNil {t : Tree K} (h : t.isNil = false) : 1 ≤ t.size := by
  cases t with
  | nil => simp [Tree.isNil] at h
  | node => simp [Tree.size]; omega

theorem weight_pushIf_le (c : Bool) (p : Tree K × Tree K) (s : List (Tree K × Tree K)) :
    weight (pushIf c p s) ≤ 2 * (p.1.size * p.2.size) + 1 + weight s := by
  cases c <;> simp [pushIf, weight]

theorem weight_pushIf_nil (c : Bool) (p : Tree K × Tree K) (s : List (Tree K × Tree K)) (h : c = false) :
    weight (pushIf c p s) = weight s := by
  subst h; simp [pushIf]

/-- bvh.hpp 384-435 `intersect_bvh_iterative`: the loop on the stack (top first). Pairs of leaf nodes are reported by
their objects. -/
def intersectIter [LE K] [DecidableLE K] (stack : List (Tree K × Tree K)) (out : List (Obj K × Obj K)) :
    List (Obj K × Obj K) :=
  match stack with
  | [] => out
  | (.nil, _) :: rest => intersectIter rest out
  | (.node _ _ _ _, .nil) :: rest => intersectIter rest out
  | (.node b1 o1 l1 r1, .node b2 o2 l2 r2) :: rest =>
    if b1.intersects b2 then
      match o1, o2 with
      | some x, some y => intersectIter rest (out ++ [(x, y)])
      | _, _ =>
        let n1 := Tree.node b1 o1 l1 r1
        let n2 := Tree.node b2 o2 l2 r2
        if l1.isNil && r1.isNil then
          intersectIter (pushIf (!r2.isNil) (n1, r2) (pushIf (!l2.isNil) (n1, l2) rest)) out
        else if l2.isNil && r2.isNil then
          intersectIter (pushIf (!r1.isNil) (r1, n2) (pushIf (!l1.isNil) (l1, n2) rest)) out
        else
          intersectIter (pushIf (!r1.isNil && !r2.isNil) (r1, r2) (pushIf (!r1.isNil && !l2.isNil) (r1, l2)
            (pushIf (!l1.isNil && !r2.isNil) (l1, r2) (pushIf (!l1.isNil && !l2.isNil) (l1, l2) rest)))) out
    else intersectIter rest out
termination_by weight stack
decreasing_by
  · simp [weight]
  · simp [weight]
  · simp [weight]
  · have h1 := weight_pushIf_le (!r2.isNil) (Tree.node b1 o1 l1 r1, r2)
      (pushIf (!l2.isNil) (Tree.node b1 o1 l1 r1, l2) rest)
    have h2 := weight_pushIf_le (!l2.isNil) (Tree.node b1 o1 l1 r1, l2) rest
    simp only [weight, Tree.size] at *
    nlinarith
  · have h1 := weight_pushIf_le (!r1.isNil) (r1, Tree.node b2 o2 l2 r2)
      (pushIf (!l1.isNil) (l1, Tree.node b2 o2 l2 r2) rest)
    have h2 := weight_pushIf_le (!l1.isNil) (l1, Tree.node b2 o2 l2 r2) rest
    simp only [weight, Tree.size] at *
    nlinarith
  · rename_i hA hB
    have h1 := weight_pushIf_le (!l1.isNil && !l2.isNil) (l1, l2) rest
    have h2 := weight_pushIf_le (!l1.isNil && !r2.isNil) (l1, r2) (pushIf (!l1.isNil && !l2.isNil) (l1, l2) rest)
    have h3 := weight_pushIf_le (!r1.isNil && !l2.isNil) (r1, l2) (pushIf (!l1.isNil && !r2.isNil) (l1, r2)
      (pushIf (!l1.isNil && !l2.isNil) (l1, l2) rest))
    have h4 := weight_pushIf_le (!r1.isNil && !r2.isNil) (r1, r2) (pushIf (!r1.isNil && !l2.isNil) (r1, l2)
      (pushIf (!l1.isNil && !r2.isNil) (l1, r2) (pushIf (!l1.isNil && !l2.isNil) (l1, l2) rest)))
    have e1 : 1 ≤ l1.size + r1.size := by
      by_contra hc
      have : l1.isNil = true ∧ r1.isNil = true := by
        constructor
        · by_contra hn; have := size_pos_of_not_isNil (t := l1) (by simpa using hn); omega
        · by_contra hn; have := size_pos_of_not_isNil (t := r1) (by simpa using hn); omega
      simp [this.1, this.2] at hA
    have e2 : 1 ≤ l2.size + r2.size := by
      by_contra hc
      have : l2.isNil = true ∧ r2.isNil = true := by
        constructor
        · by_contra hn; have := size_pos_of_not_isNil (t := l2) (by simpa using hn); omega
        · by_contra hn; have := size_pos_of_not_isNil (t := r2) (by simpa using hn); omega
      simp [this.1, this.2] at hB
    simp only [weight, Tree.size] at *
    nlinarith
  · simp [weight]

/-- bvh.hpp 384-435 `intersect_bvh_iterative`. -/
def intersectIterative [LE K] [DecidableLE K] (t1 t2 : Tree K) (out : List (Obj K × Obj K)) : List (Obj K × Obj K) :=
  intersectIter [(t1, t2)] out

/-- bvh.hpp 443-474 `intersect_bvh`; `eps` is the constant `1e-6`. The local `AABB aabb{}` passed to `intersection` is only
read when `intersection` returned true. -/
def intersectRec [Arith K] [LE K] [LT K] [DecidableLE K] [DecidableLT K] [Min K] [Max K] (eps : K) (t1 t2 : Tree K) (out : List (Obj K × Obj K)) :
    List (Obj K × Obj K) :=
  match t1, t2 with
  | .nil, _ => out
  | .node _ _ _ _, .nil => out
  | .node b1 o1 l1 r1, .node b2 o2 l2 r2 =>
    let res := b1.intersection b2 (AABB.init 0 0)
    if res.1 = false then out
    else if res.2.volume < eps then out
    else
      match o1, o2 with
      | some x, some y => out ++ [(x, y)]
      | _, _ =>
        let n1 := Tree.node b1 o1 l1 r1
        let n2 := Tree.node b2 o2 l2 r2
        if l1.isNil && r1.isNil then
          intersectRec eps n1 r2 (intersectRec eps n1 l2 out)
        else if l2.isNil && r2.isNil then
          intersectRec eps r1 n2 (intersectRec eps l1 n2 out)
        else
          intersectRec eps r1 r2 (intersectRec eps r1 l2 (intersectRec eps l1 r2 (intersectRec eps l1 l2 out)))
termination_by t1.size + t2.size
decreasing_by all_goals (simp only [Tree.size]; omega)

/-- bvh.hpp 127-134: the copy constructor; `object` is initialised to null and children are copied recursively. -/
def copy : Tree K → Tree K
  | .nil => .nil
  | .node bb _ l r => .node bb none (copy l) (copy r)

/-- bvh.hpp 141-160: copy assignment `*this = other`: the object pointer is `other.object ? object : nullptr`, with
`object` the target's own old pointer. The two trees are separate here; assigning a node from one of its own descendants (which frees the source half-way) is
not modelled. -/
def assign (self other : Tree K) : Tree K :=
  match self, other with
  | .node _ o _ _, .node bb o' l r => .node bb (if o'.isSome then o else none) (copy l) (copy r)
  | s, _ => s

/-- bvh.hpp 138 `setLeft`: swaps the argument with `left`; returns the node and the argument afterwards. -/
def setLeft : Tree K → Tree K → Tree K × Tree K
  | .node bb o l r, n => (.node bb o n r, l)
  | .nil, n => (.nil, n)

/-- bvh.hpp 139 `setRight`: swaps the argument with `left` (sic). -/
def setRight : Tree K → Tree K → Tree K × Tree K
  | .node bb o l r, n => (.node bb o n r, l)
  | .nil, n => (.nil, n)

end Cmm.BVH
