import Verif.Model.KDHeap
/-!
Specification for the lifetimes of `KDTree` objects: what a program expects each object to hold, if objects were plain values.
-/
namespace Cmm.KDHeap
open Cmm.KD
variable {K : Type}

/-- What each object holds; `none` once it is destroyed. -/
abbrev Contents (K : Type) := List (Option (List (Vec3 K)))

/-- The effect of a call on the contents. `none` if the call uses an object that does not exist (any more). -/
def expectedStep (cs : Contents K) : Op K → Option (Contents K)
  | .construct => some (cs ++ [some []])
  | .build i points => cs[i]?.join.map fun _ => cs.set i (some points)
  | .insert i point => cs[i]?.join.map fun l => cs.set i (some (point :: l))
  | .copy i => cs[i]?.join.map fun l => cs ++ [some l]
  | .assign i j => cs[i]?.join.bind fun _ => cs[j]?.join.map fun l => cs.set i (some l)
  | .destroy i => cs[i]?.join.map fun _ => cs.set i none

/-- The contents after a history that uses only living objects. -/
def expected : Contents K → List (Op K) → Option (Contents K)
  | cs, [] => some cs
  | cs, op :: ops => (expectedStep cs op).bind fun cs => expected cs ops

/-- The history neither copies nor assigns a tree. -/
def NoCopies (ops : List (Op K)) : Prop := (∀ i, Op.copy i ∉ ops) ∧ ∀ i j, Op.assign i j ∉ ops

/-- The number of points the living objects hold together. -/
def total (cs : Contents K) : Nat := (cs.map fun l => (l.getD []).length).sum

end Cmm.KDHeap
