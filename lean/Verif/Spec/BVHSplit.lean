import Verif.Spec.BVH
/-! Specification of where the builders of cmmcore/bvh.hpp divide a set of objects. -/
namespace Cmm.BVH
variable {K : Type} [Field K] [LinearOrder K]

/-- The middle of a box along an axis. -/
def mid (b : AABB K) (axis : Nat) : K := (b.min.coord axis + b.max.coord axis) / 2

/-- The length of a box along an axis. -/
def side (b : AABB K) (axis : Nat) : K := b.max.coord axis - b.min.coord axis

/-- The middle plane of the box across `axis` has objects that begin before it and objects that begin at it or after it. -/
def Separates (b : AABB K) (os : List (Obj K)) (axis : Nat) : Prop :=
  (∃ o ∈ os, o.bb.min.coord axis < mid b axis) ∧ ∃ o ∈ os, mid b axis ≤ o.bb.min.coord axis

/-- The objects are divided by the middle plane of their box across the longest axis for which that plane separates them, or, if there is
no such axis, into two halves. -/
def SplitOk (b : AABB K) (left right : List (Obj K)) : Prop :=
  (∃ axis < 3, (∀ o ∈ left, o.bb.min.coord axis < mid b axis) ∧ (∀ o ∈ right, mid b axis ≤ o.bb.min.coord axis) ∧
    left ≠ [] ∧ right ≠ [] ∧ ∀ a < 3, Separates b (left ++ right) a → side b a ≤ side b axis) ∨
  ((∀ a < 3, ¬ Separates b (left ++ right) a) ∧ left.length = (left.length + right.length) / 2)

/-- Every inner node of the tree divides its objects like that. -/
inductive MidSplit : Tree K → Prop where
  | nil : MidSplit .nil
  | leaf (b : AABB K) (o : Obj K) : MidSplit (.node b (some o) .nil .nil)
  | inner (b : AABB K) (l r : Tree K) : MidSplit l → MidSplit r → SplitOk b l.objs r.objs → MidSplit (.node b none l r)

/-- The list of trees after joining neighbours: the first with the second, the third with the fourth, and so on; a last odd one stays. -/
inductive Joined : List (Tree K) → List (Tree K) → Prop where
  | nil : Joined [] []
  | one (t : Tree K) : Joined [t] [t]
  | two (b c d : AABB K) (o p : Option (Obj K)) (l r l' r' : Tree K) (ts us : List (Tree K)) :
      (∀ e, BoxLe d e ↔ BoxLe b e ∧ BoxLe c e) → Joined ts us →
      Joined (.node b o l r :: .node c p l' r' :: ts) (.node d none (.node b o l r) (.node c p l' r') :: us)

/-- The lower corner of the box of a tree along an axis. -/
def Tree.begins (t : Tree K) (axis : Nat) : K := match t.box? with
  | some b => b.min.coord axis
  | none => 0

/-- One round of the bottom-up construction: the trees are put in order of where they begin along an axis on which the box of all
objects is longest, and neighbours are joined. -/
def Round (ts us : List (Tree K)) : Prop :=
  2 ≤ ts.length ∧ ∃ axis < 3, ∃ b, TightBox b (ts.flatMap Tree.objs) ∧ (∀ a < 3, side b a ≤ side b axis) ∧
    ∃ vs, vs.Perm ts ∧ (vs.Pairwise fun t u => t.begins axis ≤ u.begins axis) ∧ Joined vs us

/-- A tree put together by hand that can be searched: a node with an object has no children and the object's box, any other node may lack
children but has a box that encloses the boxes of all objects below, not necessarily tightly. -/
inductive Covering : Tree K → Prop where
  | nil : Covering .nil
  | leaf (o : Obj K) : Covering (.node o.bb (some o) .nil .nil)
  | inner (b : AABB K) (l r : Tree K) : Covering l → Covering r → (∀ o ∈ l.objs ++ r.objs, BoxLe o.bb b) → Covering (.node b none l r)

end Cmm.BVH
