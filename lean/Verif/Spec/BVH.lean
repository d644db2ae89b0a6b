import Verif.Model.BVH
import Verif.Spec.Box
/-! Specification vocabulary for BVH trees. -/
namespace Cmm.BVH
variable {K : Type}

/-- Every object stored anywhere in the tree, with multiplicity. -/
def Tree.objs : Tree K → List (Obj K)
  | .nil => []
  | .node _ o l r => o.toList ++ (l.objs ++ r.objs)

/-- `b` is the tight box of the objects: a box encloses `b` exactly if it encloses every object's box. -/
def TightBox [LE K] (b : AABB K) (os : List (Obj K)) : Prop :=
  ∀ c, BoxLe b c ↔ ∀ o ∈ os, BoxLe o.bb c

/-- The shape the builders promise: leaves hold one object and its box; inner nodes hold no object, have two non-null
children and the tight box of everything below. -/
inductive WellBuilt [LE K] : Tree K → Prop where
  | leaf (o : Obj K) : WellBuilt (.node o.bb (some o) .nil .nil)
  | inner (b : AABB K) (l r : Tree K) : WellBuilt l → WellBuilt r → TightBox b (l.objs ++ r.objs) →
      WellBuilt (.node b none l r)

/-- All pairs with first component from `a` and second from `b`, with multiplicity. -/
def allPairs {α β : Type} (a : List α) (b : List β) : List (α × β) := a.flatMap fun x => b.map fun y => (x, y)

/-- Number of edges on the longest path to a leaf. -/
def Tree.height : Tree K → Nat
  | .nil => 0
  | .node _ _ .nil .nil => 0
  | .node _ _ l r => 1 + max l.height r.height

end Cmm.BVH
