import Verif.Model.Vec
import Verif.Model.Serialization
/-!
Model of cmmcore/memoryview.h. `size_t` values are natural numbers below 2^64 and every `size_t` operation wraps
(`wrap`); `int` values are integers and an `int` operation that leaves the range is undefined behaviour (`i32`).
A view is its shape, strides and offset; the memory behind `data_` is a separate list.
-/
namespace Cmm.MV
open Cmm

/-- Conversion of a mathematical integer to `size_t` (modulo 2^64). -/
def wrap (x : Int) : Nat := (x % (2 ^ 64 : Int)).toNat

/-- Result of an `int` operation: undefined behaviour on overflow. -/
def i32 (x : Int) : Res Int := if -(2 ^ 31 : Int) ≤ x ∧ x < (2 ^ 31 : Int) then .ok x else .ub

/-- `static_cast<int>(n)` of a `size_t` (modulo 2^32, two's complement). -/
def castInt (n : Nat) : Int := Int.bmod n (2 ^ 32)

/-- memoryview.h 24-54 `Slice`. -/
structure Slice where
  single : Bool
  index : Int
  hasStart : Bool
  start : Int
  hasStop : Bool
  stop : Int
  step : Int
  deriving DecidableEq, Repr

/-- memoryview.h 40-42 `Slice()`; the unused members are uninitialised in the code and 0 here. -/
def Slice.all : Slice := ⟨false, 0, false, 0, false, 0, 1⟩

/-- memoryview.h 45-47 `Slice(int idx)`. -/
def Slice.at (i : Int) : Slice := ⟨true, i, false, 0, false, 0, 1⟩

/-- memoryview.h 50-53 `Slice(int s, int e, int st)`. -/
def Slice.range (s e st : Int) : Slice := ⟨false, 0, true, s, true, e, st⟩

/-- memoryview.h 490-493: shape, strides, offset of a `MemoryView`. -/
structure View where
  shape : List Nat
  strides : List Nat
  offset : Nat
  deriving DecidableEq, Repr

/-- memoryview.h 57-61 `compute_total_size`: 0 for an empty shape. -/
def totalSize (shape : List Nat) : Nat :=
  if shape.isEmpty then 0 else shape.foldl (fun (a d : Nat) => wrap (a * d)) 1

/-- memoryview.h 498-507 `compute_strides`: last stride 1, then right to left `strides[i+1] * shape[i+1]`. -/
def computeStrides : List Nat → List Nat
  | [] => []
  | [_] => [1]
  | _ :: b :: rest =>
    match computeStrides (b :: rest) with
    | [] => []
    | s :: ss => wrap (s * b) :: s :: ss

/-- memoryview.h 68-72: the public constructor. -/
def View.ofShape (shape : List Nat) : View := ⟨shape, computeStrides shape, 0⟩

/-- memoryview.h 238-245: the loop of `operator()`. Strides shorter than the shape would be an out-of-bounds read. -/
def accessLoop : (idx : Nat) → (indices shape strides : List Nat) → Res Nat
  | idx, [], _, _ => .ok idx
  | idx, i :: is, d :: ds, strides =>
    if i ≥ d then .throws
    else match strides with
      | s :: ss => accessLoop (wrap (idx + wrap (i * s))) is ds ss
      | [] => .ub
  | _, _ :: _, [], _ => .ub

/-- memoryview.h 231-247 `operator()`: the index into `data_` of the addressed element. -/
def View.access (v : View) (indices : List Nat) : Res Nat :=
  if indices.length ≠ v.shape.length then .throws
  else accessLoop v.offset indices v.shape v.strides

/-- memoryview.h 246: `data_[idx]` where `data_` points to `mem`. -/
def View.get {E : Type} (mem : List E) (v : View) (indices : List Nat) : Res E := do
  let a ← v.access indices
  match mem[a]? with
  | some e => .ok e
  | none => .ub

/-- memoryview.h 214-228 `operator[]`. -/
def View.sub (v : View) (index : Nat) : Res View :=
  match v.shape with
  | [] => .throws
  | d :: ds =>
    if index ≥ d then .throws
    else match v.strides with
      | s :: ss => .ok ⟨ds, ss, wrap (v.offset + wrap (index * s))⟩
      | [] => .ub

/-- memoryview.h 137-140, 155-156: a negative index counts from the end. -/
def normIndex (d : Nat) (x : Int) : Res Int := if x < 0 then i32 (x + castInt d) else .ok x

/-- memoryview.h 159-160: clamp to `[0, shape]`. -/
def clamp (d : Nat) (x : Int) : Int := max 0 (min x (castInt d))

/-- memoryview.h 168-183: number of elements of a range slice with clamped `start`, `stop`. C++ division truncates. -/
def sliceLength (start stop step : Int) : Res Int :=
  if step > 0 then
    if start < stop then do
      let a ← i32 (stop - start)
      let b ← i32 (a + step)
      let c ← i32 (b - 1)
      .ok (max (Int.tdiv c step) 0)
    else .ok 0
  else
    if start > stop then do
      let a ← i32 (start - stop)
      let b ← i32 (a - step)
      let c ← i32 (b - 1)
      let m ← i32 (-step)
      .ok (max (Int.tdiv c m) 0)
    else .ok 0

/-- memoryview.h 118-197: the loop of `slice` over the slices, then the unsliced dimensions. -/
def sliceLoop : List Slice → (shape strides : List Nat) → (offset : Nat) → Res View
  | [], shape, strides, offset => .ok ⟨shape, strides, offset⟩
  | _ :: _, [], _, _ => .throws
  | s :: ss, d :: ds, strides, offset =>
    if s.single then do
      let idx ← normIndex d s.index
      if idx < 0 ∨ idx ≥ castInt d then .throws
      else match strides with
        | [] => .ub
        | st :: sts => sliceLoop ss ds sts (wrap (offset + wrap (idx * st)))
    else do
      let start ← normIndex d (if s.hasStart then s.start else 0)
      let stop ← normIndex d (if s.hasStop then s.stop else castInt d)
      let start := clamp d start
      let stop := clamp d stop
      if s.step = 0 then .throws
      else do
        let length ← sliceLength start stop s.step
        match strides with
        | [] => .ub
        | st :: sts => do
          let w ← sliceLoop ss ds sts (wrap (offset + wrap (start * st)))
          .ok ⟨wrap length :: w.shape, wrap (st * s.step) :: w.strides, w.offset⟩

/-- memoryview.h 116-198 `slice`. -/
def View.slice (v : View) (slices : List Slice) : Res View := sliceLoop slices v.shape v.strides v.offset

/-- memoryview.h 201-211 `reshape`. -/
def View.reshape (v : View) (newShape : List Nat) : Res View :=
  if totalSize newShape ≠ totalSize v.shape then .throws
  else .ok ⟨newShape, computeStrides newShape, v.offset⟩

/-- memoryview.h 94-102 `size`: the loop multiplies the loop counter instead of the result. `fuel` counts iterations,
`none` means the loop is still running. -/
def sizeLoop (shape : List Nat) : (fuel i : Nat) → Option Nat
  | 0, _ => none
  | fuel + 1, i =>
    match shape[i]? with
    | none => some 1
    | some d => sizeLoop shape fuel (wrap (wrap (i * d) + 1))

/-- memoryview.h 94-102 `size()` observed for `fuel` steps. -/
def View.size (v : View) (fuel : Nat) : Option Nat := sizeLoop v.shape fuel 0

/-- memoryview.h 103-114 `copy()`: `size()` elements are copied from the start of `data_`; shape, strides and offset are
kept. Reading past `mem` is undefined behaviour. -/
def View.copy {E : Type} (mem : List E) (v : View) (fuel : Nat) : Option (Res (List E × View)) :=
  (v.size fuel).map fun n => if n ≤ mem.length then .ok (mem.take n, v) else .ub

/-- memoryview.h 250-258 `begin()`, `end()` as positions in `data_`. -/
def View.begin (v : View) : Nat := v.offset
/-- See `View.begin`. -/
def View.end_ (v : View) : Nat := wrap (v.offset + totalSize v.shape)

/-- memoryview.h 261-293 `to_string`: the positions in `data_` whose values are printed: the first
`min(preview_limit, total)` multiples of the first stride. (Total 0 for rank 0, so `strides_[0]` is not read then.) -/
def View.preview (v : View) (limit : Nat) : List Nat :=
  (List.range (min limit (totalSize v.shape))).map fun i : Nat => wrap (v.offset + wrap (i * v.strides.headD 0))

/-! Serialization -/

abbrev Byte := Cmm.Ser.Byte

/-- The eight bytes of a `size_t`, least significant first. -/
def encSize (n : Nat) : List Byte := Cmm.Ser.encDouble (BitVec.ofNat 64 n)

/-- Eight bytes read back as `size_t`; `none` if fewer are there. -/
def decSize (b : List Byte) : Option Nat :=
  match Cmm.Ser.decDouble b with
  | .ok (v, _) => some v.toNat
  | .error _ => none

/-- memoryview.h 306-346 `serialize()`: `typeName` are the bytes of `typeid(T).name()`, `esz` is `sizeof(T)`, `mem` the
bytes behind `data_`. Reading past `mem` is undefined behaviour. -/
def View.serialize (typeName : List Byte) (esz : Nat) (mem : List Byte) (v : View) : Res (List Byte) :=
  let dataSize := wrap (totalSize v.shape * esz)
  if v.offset * esz + dataSize ≤ mem.length then
    .ok (encSize typeName.length ++ (typeName ++ (encSize v.shape.length ++ (v.shape.flatMap encSize ++
      (v.strides.flatMap encSize ++ (encSize v.offset ++ (mem.drop (v.offset * esz)).take dataSize))))))
  else .ub

/-- Bytes `pos .. pos+n` of the buffer; reading past the end is undefined behaviour. -/
def slice8 (buf : List Byte) (pos n : Nat) : Res (List Byte) :=
  if pos + n ≤ buf.length then .ok ((buf.drop pos).take n) else .ub

/-- The pattern `if (pos + n > buffer.size()) throw …; memcpy(…, n)` of memoryview.h 356-424, with `size_t` addition. -/
def readN (buf : List Byte) (pos n : Nat) : Res (List Byte) :=
  if wrap (pos + n) > buf.length then .throws else slice8 buf pos n

/-- One `size_t` read with its bounds check (memoryview.h 356-362, 378-384, 405-411). -/
def readSize (buf : List Byte) (pos : Nat) : Res Nat := do
  let b ← readN buf pos 8
  match decSize b with
  | some n => .ok n
  | none => .ub

/-- `ndim` consecutive `size_t` values of a block (memoryview.h 392, 401). -/
def decSizes : Nat → List Byte → Option (List Nat)
  | 0, _ => some []
  | n + 1, b =>
    match decSize b with
    | none => none
    | some x => (decSizes n (b.drop 8)).map (x :: ·)

/-- memoryview.h 387-402: shape and strides blocks; `std::vector(ndim)` throws `length_error` above its maximal size
(2^60 - 1 for `size_t` elements); the check comes first. -/
def readSizes (buf : List Byte) (pos ndim : Nat) : Res (List Nat) := do
  if wrap (pos + wrap (8 * ndim)) > buf.length then .throws
  else if ndim ≥ 2 ^ 60 then .throws
  else
    let b ← slice8 buf pos (8 * ndim)
    match decSizes ndim b with
    | some l => .ok l
    | none => .ub

/-- memoryview.h 351-428 `deserialize`: the result is the new memory and the view on it. `std::string(ptr, n)` throws
`length_error` for `n ≥ 2^63 - 1`; `new T[n]` throws if `n * sizeof(T)` does not fit. Bytes after the data are ignored. -/
def deserialize (typeName : List Byte) (esz : Nat) (buf : List Byte) : Res (List Byte × View) := do
  let nameLen ← readSize buf 0
  if wrap (8 + nameLen) > buf.length then .throws
  else if nameLen ≥ 2 ^ 63 - 1 then .throws
  else do
    let name ← slice8 buf 8 nameLen
    let pos := 8 + nameLen
    if name ≠ typeName then .throws
    else do
      let ndim ← readSize buf pos
      let pos := pos + 8
      let shape ← readSizes buf pos ndim
      let pos := pos + 8 * ndim
      let strides ← readSizes buf pos ndim
      let pos := pos + 8 * ndim
      let _offset ← readSize buf pos
      let pos := pos + 8
      let total := totalSize shape
      if wrap (pos + wrap (total * esz)) > buf.length then .throws
      else if total * esz ≥ 2 ^ 63 then .throws
      else do
        let data ← slice8 buf pos (total * esz)
        .ok (data, ⟨shape, strides, 0⟩)

end Cmm.MV
