import Verif.Model.KDTree
/-!
Model of cmmcore/kdtree.h at the level of heap nodes and object lifetimes: `new`, `delete`, the node pointers and the implicitly
generated copy operations of `KDTree`, which `Model/KDTree.lean` leaves out.

An address is a natural number, `nullptr` is `none`. The heap is the list of the live nodes with their addresses. The allocator is a
parameter: it picks any address that is not in use (it may use freed ones again), or none if memory is exhausted (`std::bad_alloc`).
Reading, writing or deleting a node that is not live is undefined behaviour.
-/
namespace Cmm.KDHeap
open Cmm.KD
variable {K : Type}

/-- How a call ends: with a value, with an exception, or undefined. In the first two cases the state after it is given. -/
inductive Out (S A : Type) where
  | ok (a : A) (s : S)
  | throws (s : S)
  | ub

/-- Sequencing of calls: an exception or undefined behaviour ends the run. -/
def Out.bind {S A B : Type} : Out S A → (A → S → Out S B) → Out S B
  | .ok a s, f => f a s
  | .throws s, _ => .throws s
  | .ub, _ => .ub

/-- `KDNode*`. -/
abbrev Ptr := Option Nat

/-- kdtree.h 20-29 `KDNode` in memory. -/
structure Cell (K : Type) where
  point : Vec3 K
  axis : Nat
  left : Ptr
  right : Ptr
  deriving DecidableEq

/-- The live nodes and their addresses. -/
abbrev Heap (K : Type) := List (Nat × Cell K)

/-- The addresses in use. -/
def addrs (h : Heap K) : List Nat := h.map Prod.fst

/-- `*a`: nothing if no live node is there. -/
def get (h : Heap K) (a : Nat) : Option (Cell K) := h.lookup a

/-- Memory allocation: an address not in use, or `none` for `std::bad_alloc`. -/
structure Allocator where
  pick : List Nat → Option Nat
  fresh : ∀ used a, pick used = some a → a ∉ used

/-- `new KDNode(pt, ax)` (kdtree.h 28, 63, 73): both children are null. -/
def newNode (A : Allocator) (point : Vec3 K) (axis : Nat) (h : Heap K) : Out (Heap K) Nat :=
  match A.pick (addrs h) with
  | none => .throws h
  | some a => .ok a ((a, ⟨point, axis, none, none⟩) :: h)

/-- Overwriting the node at `a`. -/
def put (h : Heap K) (a : Nat) (c : Cell K) : Heap K := h.map fun e => if e.1 = a then (a, c) else e

/-- `node->left = p` (kdtree.h 64, 80). -/
def setLeft (a : Nat) (p : Ptr) (h : Heap K) : Out (Heap K) Unit :=
  match get h a with
  | none => .ub
  | some c => .ok () (put h a { c with left := p })

/-- `node->right = p` (kdtree.h 65, 83). -/
def setRight (a : Nat) (p : Ptr) (h : Heap K) : Out (Heap K) Unit :=
  match get h a with
  | none => .ub
  | some c => .ok () (put h a { c with right := p })

/-- `delete node` (kdtree.h 159): deleting what is not live is undefined. -/
def free (a : Nat) (h : Heap K) : Out (Heap K) Unit :=
  match get h a with
  | none => .ub
  | some _ => .ok () (h.filter fun e => e.1 ≠ a)

/-- kdtree.h 51-67 `buildKDTree`: the pointer to the new subtree and the reordered sub-range. -/
def buildRec [LT K] (nth : NthElement K) (A : Allocator) (l : List (Vec3 K)) (depth : Nat) (h : Heap K) :
    Out (Heap K) (Ptr × List (Vec3 K)) :=
  if hl : l = [] then .ok (none, []) h
  else
    let axis := depth % 3
    let k := l.length / 2
    let l' := nth.run axis k l
    have hlen : l'.length = l.length := (nth.perm axis k l).length_eq
    have hk : k < l'.length := by
      rw [hlen]; exact Nat.div_lt_self (List.length_pos_iff.mpr hl) (by decide)
    let mid := l'[k]
    (newNode A mid axis h).bind fun a h =>
    (buildRec nth A (l'.take k) (depth + 1) h).bind fun L h =>
    (setLeft a L.1 h).bind fun _ h =>
    (buildRec nth A (l'.drop (k + 1)) (depth + 1) h).bind fun R h =>
    (setRight a R.1 h).bind fun _ h =>
    .ok (some a, L.2 ++ mid :: R.2) h
termination_by l.length
decreasing_by
  · simp only [List.length_take]; omega
  · have := (nth.perm (depth % 3) (l.length / 2) l).length_eq
    simp only [List.length_drop]; omega

/-- kdtree.h 70-86 `insertRec`; the state is the heap and the member `size_`, which is incremented before the allocation. `fuel`
bounds the recursion: a path of more nodes than there are in the heap runs in a circle, and the recursion never ends. -/
def insertRec [LT K] [DecidableLT K] (A : Allocator) (point : Vec3 K) :
    (fuel : Nat) → Ptr → (depth : Nat) → Heap K × Nat → Out (Heap K × Nat) Ptr
  | _, none, depth, (h, size) =>
    match newNode A point (depth % 3) h with
    | .ok a h => .ok (some a) (h, size + 1)
    | .throws h => .throws (h, size + 1)
    | .ub => .ub
  | 0, some _, _, _ => .ub
  | fuel + 1, some a, depth, (h, size) =>
    match get h a with
    | none => .ub
    | some c =>
      if (c.axis = 0 ∧ point.x < c.point.x) ∨ (c.axis = 1 ∧ point.y < c.point.y) ∨ (c.axis = 2 ∧ point.z < c.point.z) then
        (insertRec A point fuel c.left (depth + 1) (h, size)).bind fun p s =>
        match setLeft a p s.1 with
        | .ok _ h => .ok (some a) (h, s.2)
        | .throws h => .throws (h, s.2)
        | .ub => .ub
      else
        (insertRec A point fuel c.right (depth + 1) (h, size)).bind fun p s =>
        match setRight a p s.1 with
        | .ok _ h => .ok (some a) (h, s.2)
        | .throws h => .throws (h, s.2)
        | .ub => .ub

/-- kdtree.h 154-160 `deleteKDTree`: `node->right` is read after the left subtree is gone. -/
def deleteRec : (fuel : Nat) → Ptr → Heap K → Out (Heap K) Unit
  | _, none, h => .ok () h
  | 0, some _, _ => .ub
  | fuel + 1, some a, h =>
    match get h a with
    | none => .ub
    | some c =>
      (deleteRec fuel c.left h).bind fun _ h =>
      match get h a with
      | none => .ub
      | some c => (deleteRec fuel c.right h).bind fun _ h => free a h

/-- kdtree.h 89-112 `rangeSearchRec` on the heap. -/
def rangeSearchRec [LE K] [DecidableLE K] (h : Heap K) (lower upper : Vec3 K) :
    (fuel : Nat) → Ptr → List (Vec3 K) → Res (List (Vec3 K))
  | _, none, result => .ok result
  | 0, some _, _ => .ub
  | fuel + 1, some a, result =>
    match get h a with
    | none => .ub
    | some c => do
      let result := if lower.x ≤ c.point.x ∧ c.point.x ≤ upper.x ∧ lower.y ≤ c.point.y ∧ c.point.y ≤ upper.y ∧
          lower.z ≤ c.point.z ∧ c.point.z ≤ upper.z then result ++ [c.point] else result
      let result ← if (c.axis = 0 ∧ lower.x ≤ c.point.x) ∨ (c.axis = 1 ∧ lower.y ≤ c.point.y) ∨ (c.axis = 2 ∧ lower.z ≤ c.point.z)
        then rangeSearchRec h lower upper fuel c.left result else .ok result
      if (c.axis = 0 ∧ c.point.x ≤ upper.x) ∨ (c.axis = 1 ∧ c.point.y ≤ upper.y) ∨ (c.axis = 2 ∧ c.point.z ≤ upper.z)
        then rangeSearchRec h lower upper fuel c.right result else .ok result

/-- kdtree.h 115-151 `nearestNeighborRec` on the heap; the pair is (`best`, `bestDistSq`). -/
def nearestRec [Add K] [Sub K] [Mul K] [LT K] [DecidableLT K] (h : Heap K) (target : Vec3 K) :
    (fuel : Nat) → Ptr → Vec3 K × K → Res (Vec3 K × K)
  | _, none, s => .ok s
  | 0, some _, _ => .ub
  | fuel + 1, some a, s =>
    match get h a with
    | none => .ub
    | some c => do
      let d := target.distanceSq c.point
      let s := if d < s.2 then (c.point, d) else s
      let goLeft := (c.axis = 0 ∧ target.x < c.point.x) ∨ (c.axis = 1 ∧ target.y < c.point.y) ∨ (c.axis = 2 ∧ target.z < c.point.z)
      let nearChild := if goLeft then c.left else c.right
      let farChild := if goLeft then c.right else c.left
      let s ← nearestRec h target fuel nearChild s
      let diff := if c.axis = 0 then target.x - c.point.x else if c.axis = 1 then target.y - c.point.y else target.z - c.point.z
      if diff * diff < s.2 then nearestRec h target fuel farChild s else .ok s

/-- kdtree.h 43-48: the two data members of `KDTree`. -/
structure Obj where
  root : Ptr
  size_ : Nat
  deriving DecidableEq

/-- The heap and the tree objects of a program; a destroyed object leaves a hole. -/
structure State (K : Type) where
  heap : Heap K
  objs : List (Option Obj)

/-- Nothing allocated, no object. -/
def State.init : State K := ⟨[], []⟩

/-- A call on the tree objects. `copy i` creates a new object from object `i`, `assign i j` is `i = j`. -/
inductive Op (K : Type) where
  | construct
  | build (i : Nat) (points : List (Vec3 K))
  | insert (i : Nat) (point : Vec3 K)
  | copy (i : Nat)
  | assign (i j : Nat)
  | destroy (i : Nat)

/-- Object `i`, if it is alive. -/
def State.obj (s : State K) (i : Nat) : Option Obj := s.objs[i]?.join

/-- kdtree.h 164 `KDTree()`. -/
def State.construct (s : State K) : State K := ⟨s.heap, s.objs ++ [some ⟨none, 0⟩]⟩

/-- kdtree.h 172-176 `build`: the old tree is deleted, `size_` is set, and `root` only when the new tree is complete. An exception in
between leaves `root` as it was. -/
def State.build [LT K] (nth : NthElement K) (A : Allocator) (s : State K) (i : Nat) (points : List (Vec3 K)) : Out (State K) Unit :=
  match s.obj i with
  | none => .ub
  | some o =>
    match deleteRec s.heap.length o.root s.heap with
    | .ub => .ub
    | .throws h => .throws ⟨h, s.objs⟩
    | .ok _ h =>
      match buildRec nth A points 0 h with
      | .ub => .ub
      | .throws h => .throws ⟨h, s.objs.set i (some ⟨o.root, points.length⟩)⟩
      | .ok r h => .ok () ⟨h, s.objs.set i (some ⟨r.1, points.length⟩)⟩

/-- kdtree.h 179-181 `insert`. -/
def State.insert [LT K] [DecidableLT K] (A : Allocator) (s : State K) (i : Nat) (point : Vec3 K) : Out (State K) Unit :=
  match s.obj i with
  | none => .ub
  | some o =>
    match insertRec A point s.heap.length o.root 0 (s.heap, o.size_) with
    | .ub => .ub
    | .throws t => .throws ⟨t.1, s.objs.set i (some ⟨o.root, t.2⟩)⟩
    | .ok p t => .ok () ⟨t.1, s.objs.set i (some ⟨p, t.2⟩)⟩

/-- kdtree.h 42-48: the copy constructor the compiler generates copies the two members, i.e. the pointer. -/
def State.copy (s : State K) (i : Nat) : Out (State K) Unit :=
  match s.obj i with
  | none => .ub
  | some o => .ok () ⟨s.heap, s.objs ++ [some o]⟩

/-- kdtree.h 42-48: the assignment the compiler generates copies the two members. -/
def State.assign (s : State K) (i j : Nat) : Out (State K) Unit :=
  match s.obj i, s.obj j with
  | some _, some o => .ok () ⟨s.heap, s.objs.set i (some o)⟩
  | _, _ => .ub

/-- kdtree.h 167-169 `~KDTree`. -/
def State.destroy (s : State K) (i : Nat) : Out (State K) Unit :=
  match s.obj i with
  | none => .ub
  | some o =>
    match deleteRec s.heap.length o.root s.heap with
    | .ub => .ub
    | .throws h => .throws ⟨h, s.objs⟩
    | .ok _ h => .ok () ⟨h, s.objs.set i none⟩

/-- One call. -/
def State.step [LT K] [DecidableLT K] (nth : NthElement K) (A : Allocator) (s : State K) : Op K → Out (State K) Unit
  | .construct => .ok () s.construct
  | .build i points => s.build nth A i points
  | .insert i point => s.insert A i point
  | .copy i => s.copy i
  | .assign i j => s.assign i j
  | .destroy i => s.destroy i

/-- The state after a list of calls; the program catches exceptions and goes on. `none` is undefined behaviour. -/
def State.run [LT K] [DecidableLT K] (nth : NthElement K) (A : Allocator) : State K → List (Op K) → Option (State K)
  | s, [] => some s
  | s, op :: ops =>
    match s.step nth A op with
    | .ok _ s => s.run nth A ops
    | .throws s => s.run nth A ops
    | .ub => none

/-- kdtree.h 184-188 `rangeSearch` on object `i`. -/
def State.rangeSearch [LE K] [DecidableLE K] (s : State K) (i : Nat) (lower upper : Vec3 K) : Res (List (Vec3 K)) :=
  match s.obj i with
  | none => .ub
  | some o => rangeSearchRec s.heap lower upper s.heap.length o.root []

/-- kdtree.h 191-199 `nearestNeighbor` on object `i`. -/
def State.nearestNeighbor [Add K] [Sub K] [Mul K] [LT K] [DecidableLT K] (s : State K) (i : Nat) (target : Vec3 K) : Res (Vec3 K) :=
  match s.obj i with
  | none => .ub
  | some o =>
    match o.root with
    | none => .throws
    | some a =>
      match get s.heap a with
      | none => .ub
      | some c => do
        let b ← nearestRec s.heap target s.heap.length (some a) (c.point, target.distanceSq c.point)
        .ok b.1

/-- kdtree.h 202-204 `size` of object `i`. -/
def State.size (s : State K) (i : Nat) : Res Nat :=
  match s.obj i with
  | none => .ub
  | some o => .ok o.size_

end Cmm.KDHeap
