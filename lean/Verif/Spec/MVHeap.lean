import Verif.Model.MVHeap
/-!
Specification for the memory of `MemoryView` objects: which calls a careful program makes.
-/
namespace Cmm.MVHeap

/-- Where the memory of a view comes from: it is there for good (memory of the caller, or of a deserialized view), the view owns it (the
result of `copy()`), or it belongs to the view number `k`. -/
inductive Kind where
  | lasting
  | owner
  | of (k : Nat)
  deriving DecidableEq

/-- A view as the program sees it. -/
structure Ref where
  alive : Bool
  kind : Kind
  deriving DecidableEq

/-- The view exists. -/
def alive (rs : List Ref) (i : Nat) : Bool := rs[i]?.any (·.alive)

/-- The view exists, and so does the one that owns its memory. -/
def usable (rs : List Ref) (i : Nat) : Bool :=
  match rs[i]? with
  | some ⟨true, .of k⟩ => alive rs k
  | some ⟨true, _⟩ => true
  | _ => false

/-- The memory of a view made from view `i` without copying the memory. -/
def derived (rs : List Ref) (i : Nat) : Kind :=
  match rs[i]? with
  | some ⟨_, .of k⟩ => .of k
  | some ⟨_, .owner⟩ => .of i
  | _ => .lasting

/-- The views after a call of a careful program: it uses living views only, and memory only while its owner lives. -/
def carefulStep (rs : List Ref) : Op → Option (List Ref)
  | .view => some (rs ++ [⟨true, .lasting⟩])
  | .deserialize => some (rs ++ [⟨true, .lasting⟩])
  | .copy i => if usable rs i then some (rs ++ [⟨true, .owner⟩]) else none
  | .duplicate i => if alive rs i then some (rs ++ [⟨true, derived rs i⟩]) else none
  | .slice i => if alive rs i then some (rs ++ [⟨true, derived rs i⟩]) else none
  | .read i => if usable rs i then some rs else none
  | .destroy i => if alive rs i then some (rs.modify i fun r => { r with alive := false }) else none

/-- The views after the calls of a careful program; `none` if it is not careful. -/
def careful : List Ref → List Op → Option (List Ref)
  | rs, [] => some rs
  | rs, op :: ops => (carefulStep rs op).bind fun rs => careful rs ops

/-- The number of living views that own their memory. -/
def owners (rs : List Ref) : Nat := rs.countP fun r => r.alive && r.kind == .owner

end Cmm.MVHeap
