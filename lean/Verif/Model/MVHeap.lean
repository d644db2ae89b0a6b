import Verif.Model.Vec
/-!
Model of the memory behind `MemoryView` objects (cmmcore/memoryview.h): who allocates and who frees it. What the views show of the memory
is in `Model/MemoryView.lean`; here a view is its pointer and its flag.

The allocator is a parameter: it picks any address that is not in use. Exhausted memory is not modelled.
-/
namespace Cmm.MVHeap

/-- What `data_` points to: memory of the caller, which is taken to outlive all views, or a block the class allocated. -/
inductive Data where
  | caller
  | block (a : Nat)
  deriving DecidableEq

/-- memoryview.h 489-490: the members `is_managed_`, `data_`. -/
structure Obj where
  managed : Bool
  data : Data
  deriving DecidableEq

/-- The addresses of the blocks in use and the view objects; a destroyed object leaves a hole. -/
structure State where
  live : List Nat
  objs : List (Option Obj)
  deriving DecidableEq

/-- No block, no object. -/
def State.init : State := ⟨[], []⟩

/-- Memory allocation (`malloc`, `new T[]`): an address not in use. -/
structure Allocator where
  pick : List Nat → Nat
  fresh : ∀ used, pick used ∉ used

/-- A call on the views. `duplicate` is the copy constructor the compiler generates, `copy` the member function. -/
inductive Op where
  | view
  | copy (i : Nat)
  | duplicate (i : Nat)
  | slice (i : Nat)
  | deserialize
  | read (i : Nat)
  | destroy (i : Nat)
  deriving DecidableEq

/-- Object `i`, if it is alive. -/
def State.obj (s : State) (i : Nat) : Option Obj := s.objs[i]?.join

/-- The memory behind the pointer can be accessed. -/
def State.valid (s : State) : Data → Bool
  | .caller => true
  | .block a => decide (a ∈ s.live)

/-- memoryview.h 68-79: a view on the caller's memory. -/
def State.view (s : State) : State := ⟨s.live, s.objs ++ [some ⟨false, .caller⟩]⟩

/-- memoryview.h 103-114 `copy()`: a new managed block filled from the old memory (the number of elements is left out). -/
def State.copy (A : Allocator) (s : State) (i : Nat) : Res State :=
  match s.obj i with
  | none => .ub
  | some o => if s.valid o.data then .ok ⟨A.pick s.live :: s.live, s.objs ++ [some ⟨true, .block (A.pick s.live)⟩]⟩ else .ub

/-- The generated copy constructor of the class (memoryview.h 63-64, 489-493): all members are copied, also `is_managed_`. -/
def State.duplicate (s : State) (i : Nat) : Res State :=
  match s.obj i with
  | none => .ub
  | some o => .ok ⟨s.live, s.objs ++ [some o]⟩

/-- memoryview.h 116-198 `slice`, 214-228 `operator[]`: a view on the same memory that does not manage it. -/
def State.slice (s : State) (i : Nat) : Res State :=
  match s.obj i with
  | none => .ub
  | some o => .ok ⟨s.live, s.objs ++ [some ⟨false, o.data⟩]⟩

/-- memoryview.h 420-427 `deserialize`: a new block, and a view that does not manage it. -/
def State.deserialize (A : Allocator) (s : State) : State :=
  ⟨A.pick s.live :: s.live, s.objs ++ [some ⟨false, .block (A.pick s.live)⟩]⟩

/-- memoryview.h 231-247 `operator()`: access to the memory. -/
def State.read (s : State) (i : Nat) : Res State :=
  match s.obj i with
  | none => .ub
  | some o => if s.valid o.data then .ok s else .ub

/-- memoryview.h 476-486 `~MemoryView`: a managing view frees its memory. Freeing memory of the caller or a block that is not in use is
undefined. -/
def State.destroy (s : State) (i : Nat) : Res State :=
  match s.obj i with
  | none => .ub
  | some o =>
    if o.managed then
      match o.data with
      | .caller => .ub
      | .block a => if a ∈ s.live then .ok ⟨s.live.erase a, s.objs.set i none⟩ else .ub
    else .ok ⟨s.live, s.objs.set i none⟩

/-- One call. -/
def State.step (A : Allocator) (s : State) : Op → Res State
  | .view => .ok s.view
  | .copy i => s.copy A i
  | .duplicate i => s.duplicate i
  | .slice i => s.slice i
  | .deserialize => .ok (s.deserialize A)
  | .read i => s.read i
  | .destroy i => s.destroy i

/-- A list of calls. -/
def State.run (A : Allocator) : State → List Op → Res State
  | s, [] => .ok s
  | s, op :: ops => do
    let s ← s.step A op
    s.run A ops

end Cmm.MVHeap
