import Verif.Model.Vec
/-!
Model of cmmcore/kdtree.h (`KDTree<vec3, PointComparator3D>`).

Nodes are values instead of heap pointers; `Model/KDHeap.lean` models the pointers, `new`, `delete` and copies of trees. `std::nth_element` is a parameter with its
standard contract, see `NthElement`; theorems hold for every such parameter.
-/
namespace Cmm.KD

variable {K : Type}

/-- kdtree.h 20-29 `KDNode`; `nil` is `nullptr`. -/
inductive Tree (K : Type) where
  | nil
  | node (point : Vec3 K) (axis : Nat) (left right : Tree K)

/-- kdtree.h 32-40 `PointComparator3D::operator()`: compares x for axis 0, y for axis 1, z otherwise. -/
def axisLt [LT K] (axis : Nat) (a b : Vec3 K) : Prop :=
  (axis = 0 ∧ a.x < b.x) ∨ (axis = 1 ∧ a.y < b.y) ∨ (axis ≠ 0 ∧ axis ≠ 1 ∧ a.z < b.z)

/-- `std::nth_element(begin, begin + k, end, PointComparator3D(axis))` as used in kdtree.h 60: the result is a
permutation, no element before position `k` is greater than the one at `k`, no element after it is smaller. -/
structure NthElement (K : Type) [LT K] where
  run : (axis k : Nat) → List (Vec3 K) → List (Vec3 K)
  perm : ∀ axis k l, (run axis k l).Perm l
  before : ∀ axis k l (hk : k < (run axis k l).length),
    ∀ p ∈ (run axis k l).take k, ¬ axisLt axis (run axis k l)[k] p
  after : ∀ axis k l (hk : k < (run axis k l).length),
    ∀ p ∈ (run axis k l).drop (k + 1), ¬ axisLt axis p (run axis k l)[k]

/-- kdtree.h 51-67 `buildKDTree` on the sub-range `l` at the given depth; returns the subtree and the content of the
sub-range afterwards (the caller's vector is reordered in place). -/
def buildRec [LT K] (nth : NthElement K) (l : List (Vec3 K)) (depth : Nat) : Tree K × List (Vec3 K) :=
  if h : l = [] then (.nil, [])
  else
    let axis := depth % 3
    let k := l.length / 2
    let l' := nth.run axis k l
    have hlen : l'.length = l.length := (nth.perm axis k l).length_eq
    have hk : k < l'.length := by
      rw [hlen]; exact Nat.div_lt_self (List.length_pos_iff.mpr h) (by decide)
    let mid := l'[k]
    let L := buildRec nth (l'.take k) (depth + 1)
    let R := buildRec nth (l'.drop (k + 1)) (depth + 1)
    (.node mid axis L.1 R.1, L.2 ++ mid :: R.2)
termination_by l.length
decreasing_by
  · simp only [List.length_take]; omega
  · have := (nth.perm (depth % 3) (l.length / 2) l).length_eq
    simp only [List.length_drop]; omega

/-- kdtree.h 70-86 `insertRec`; `size` is the member `size_`, incremented when the null child is reached. -/
def insertRec [LT K] [DecidableLT K] : Tree K → Vec3 K → (depth size : Nat) → Tree K × Nat
  | .nil, point, depth, size => (.node point (depth % 3) .nil .nil, size + 1)
  | .node p axis l r, point, depth, size =>
    if (axis = 0 ∧ point.x < p.x) ∨ (axis = 1 ∧ point.y < p.y) ∨ (axis = 2 ∧ point.z < p.z) then
      let c := insertRec l point (depth + 1) size
      (.node p axis c.1 r, c.2)
    else
      let c := insertRec r point (depth + 1) size
      (.node p axis l c.1, c.2)

/-- kdtree.h 89-112 `rangeSearchRec`: appends to `result`. -/
def rangeSearchRec [LE K] [DecidableLE K] (lower upper : Vec3 K) : Tree K → List (Vec3 K) → List (Vec3 K)
  | .nil, result => result
  | .node p axis l r, result =>
    let result := if lower.x ≤ p.x ∧ p.x ≤ upper.x ∧ lower.y ≤ p.y ∧ p.y ≤ upper.y ∧ lower.z ≤ p.z ∧ p.z ≤ upper.z
      then result ++ [p] else result
    let result := if (axis = 0 ∧ lower.x ≤ p.x) ∨ (axis = 1 ∧ lower.y ≤ p.y) ∨ (axis = 2 ∧ lower.z ≤ p.z)
      then rangeSearchRec lower upper l result else result
    if (axis = 0 ∧ p.x ≤ upper.x) ∨ (axis = 1 ∧ p.y ≤ upper.y) ∨ (axis = 2 ∧ p.z ≤ upper.z)
      then rangeSearchRec lower upper r result else result

/-- kdtree.h 115-151 `nearestNeighborRec`: the pair is (`best`, `bestDistSq`). -/
def nearestRec [Add K] [Sub K] [Mul K] [LT K] [DecidableLT K] (target : Vec3 K) :
    Tree K → Vec3 K × K → Vec3 K × K
  | .nil, s => s
  | .node p axis l r, s =>
    let d := target.distanceSq p
    let s := if d < s.2 then (p, d) else s
    let goLeft := (axis = 0 ∧ target.x < p.x) ∨ (axis = 1 ∧ target.y < p.y) ∨ (axis = 2 ∧ target.z < p.z)
    let s := if goLeft then nearestRec target l s else nearestRec target r s
    let diff := if axis = 0 then target.x - p.x else if axis = 1 then target.y - p.y else target.z - p.z
    if diff * diff < s.2 then (if goLeft then nearestRec target r s else nearestRec target l s) else s

/-- kdtree.h 43-48: the two data members. -/
structure KDTree (K : Type) where
  root : Tree K
  size_ : Nat

/-- kdtree.h 164 `KDTree()`. -/
def KDTree.empty0 : KDTree K := ⟨.nil, 0⟩

/-- kdtree.h 172-176 `build`: the second component is the caller's vector afterwards. -/
def KDTree.build [LT K] (nth : NthElement K) (_t : KDTree K) (points : List (Vec3 K)) : KDTree K × List (Vec3 K) :=
  let b := buildRec nth points 0
  (⟨b.1, points.length⟩, b.2)

/-- kdtree.h 179-181 `insert`. -/
def KDTree.insert [LT K] [DecidableLT K] (t : KDTree K) (point : Vec3 K) : KDTree K :=
  let c := insertRec t.root point 0 t.size_
  ⟨c.1, c.2⟩

/-- kdtree.h 184-188 `rangeSearch`. -/
def KDTree.rangeSearch [LE K] [DecidableLE K] (t : KDTree K) (lower upper : Vec3 K) : List (Vec3 K) :=
  rangeSearchRec lower upper t.root []

/-- kdtree.h 191-199 `nearestNeighbor`: throws on an empty tree. -/
def KDTree.nearestNeighbor [Add K] [Sub K] [Mul K] [LT K] [DecidableLT K] (t : KDTree K) (target : Vec3 K) :
    Res (Vec3 K) :=
  match t.root with
  | .nil => .throws
  | .node p axis l r => .ok (nearestRec target (.node p axis l r) (p, target.distanceSq p)).1

/-- kdtree.h 202-204 `size`. -/
def KDTree.size (t : KDTree K) : Nat := t.size_

/-- kdtree.h 207-209 `empty`. -/
def KDTree.empty (t : KDTree K) : Bool := t.size_ == 0

/-- One call on the mutable interface. -/
inductive Op (K : Type) where
  | build (points : List (Vec3 K))
  | insert (point : Vec3 K)

/-- Effect of one call (kdtree.h 172-181). -/
def KDTree.step [LT K] [DecidableLT K] (nth : NthElement K) (t : KDTree K) : Op K → KDTree K
  | .build points => (t.build nth points).1
  | .insert point => t.insert point

/-- The tree after a history of calls on a fresh object. -/
def KDTree.run [LT K] [DecidableLT K] (nth : NthElement K) (ops : List (Op K)) : KDTree K :=
  ops.foldl (KDTree.step nth) KDTree.empty0

end Cmm.KD
