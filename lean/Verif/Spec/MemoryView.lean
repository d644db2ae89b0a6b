import Verif.Model.MemoryView
/-!
Specification vocabulary for memoryview.h: valid index tuples, the row-major enumeration, and what a slice selects.
-/
namespace Cmm.MV

/-- The index tuple addresses an element of an array with this shape. -/
inductive ValidIdx : (shape idx : List Nat) → Prop
  | nil : ValidIdx [] []
  | cons {d i : Nat} {ds is : List Nat} : i < d → ValidIdx ds is → ValidIdx (d :: ds) (i :: is)

/-- All index tuples of a shape in lexicographic order. -/
def rowMajor : List Nat → List (List Nat)
  | [] => [[]]
  | d :: ds => (List.range d).flatMap fun i => (rowMajor ds).map (i :: ·)

/-- Python's treatment of a slice bound: negative counts from the end, then clamped to `[0, d]`. -/
def bound (d : Nat) (x : Int) : Int := max 0 (min (if x < 0 then x + d else x) d)

/-- First position of a range slice of a dimension of length `d`. -/
def sliceStart (d : Nat) (s : Slice) : Int := bound d (if s.hasStart then s.start else 0)

/-- Exclusive end of a range slice of a dimension of length `d`. -/
def sliceStop (d : Nat) (s : Slice) : Int := bound d (if s.hasStop then s.stop else d)

/-- `Selects slices shape new old`: the element with index tuple `new` of the sliced array is the element with index tuple
`old` of the array: an integer drops its dimension, `start:stop:step` at position `k` means `start + k * step` as long as
that has not reached `stop`, and the remaining dimensions are kept. -/
inductive Selects : List Slice → (shape new old : List Nat) → Prop
  | rest {shape idx : List Nat} : ValidIdx shape idx → Selects [] shape idx idx
  | single {s : Slice} {ss : List Slice} {d i : Nat} {ds new old : List Nat} (hs : s.single = true)
      (hi : (i : Int) = if s.index < 0 then s.index + d else s.index) (hid : i < d) :
      Selects ss ds new old → Selects (s :: ss) (d :: ds) new (i :: old)
  | range {s : Slice} {ss : List Slice} {d k i : Nat} {ds new old : List Nat} (hs : s.single = false)
      (hi : (i : Int) = sliceStart d s + k * s.step)
      (hup : 0 < s.step → (i : Int) < sliceStop d s) (hdown : s.step ≤ 0 → sliceStop d s < (i : Int)) :
      Selects ss ds new old → Selects (s :: ss) (d :: ds) (k :: new) (i :: old)

/-- A view as the library builds them: as many strides as dimensions, offset a `size_t`. -/
structure View.WF (v : View) : Prop where
  len : v.strides.length = v.shape.length
  off : v.offset < 2 ^ 64

/-- The arguments of a slice are `int`s and so small that no `int` computation on a dimension of length `d` overflows. -/
structure SliceFits (d : Nat) (s : Slice) : Prop where
  index : -(2 ^ 31 : Int) ≤ s.index
  start : -(2 ^ 31 : Int) ≤ s.start
  stop : -(2 ^ 31 : Int) ≤ s.stop
  step : (d : Int) + |s.step| < 2 ^ 31

/-- A slice that must be refused on a dimension of length `d`: integer out of range, or step zero. -/
def BadSlice (s : Slice) (d : Nat) : Prop :=
  (s.single = true ∧ ((if s.index < 0 then s.index + d else s.index) < 0 ∨
    (d : Int) ≤ if s.index < 0 then s.index + d else s.index)) ∨ (s.single = false ∧ s.step = 0)

end Cmm.MV
