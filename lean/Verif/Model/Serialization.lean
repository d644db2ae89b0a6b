/-
Model of cmmcore/serialization.h (whole file) at byte level.

A `double` is its 64-bit pattern, an `int` its 32-bit pattern, a byte is `BitVec 8`.
The read cursor `const uint8_t *&data` is the list of bytes from the cursor to the end of the buffer;
reading past the end of that list is undefined behaviour (`Fault.ub`), an exception is `Fault.throws`.
Machine: little-endian, `sizeof(int) = 4`, `sizeof(double) = 8` (as on every platform the project builds for).
Memory exhaustion in `std::vector(size)` is not modelled.
-/
namespace Cmm.Ser

/-- A byte of the buffer (`uint8_t`). -/
abbrev Byte := BitVec 8

/-- How a run can end abnormally: undefined behaviour, or a C++ exception. -/
inductive Fault where
  | ub
  | throws
  deriving DecidableEq, Repr

/-- Bit pattern of a `double`. -/
abbrev F64 := BitVec 64

/-- `vec4` as four doubles (vec.h 681-690). -/
structure V4 where
  x : F64
  y : F64
  z : F64
  w : F64
  deriving DecidableEq, Repr

/-- The observable fields of `NURBSCurve` that serialization touches (nurbs.h 519-526: `_degree`, `_periodic`,
`control_points`, `knots`). `_interval`, `_aabb` are recomputed from these by the constructor, `_hull` is unused here. -/
structure Curve where
  degree : BitVec 32
  periodic : Bool
  cpts : List V4
  knots : List F64
  deriving DecidableEq, Repr

/-- A decoder: takes the bytes from the cursor on, returns the value and the bytes after the new cursor. -/
abbrev Dec (α : Type) := List Byte → Except Fault (α × List Byte)

/-- serialization.h 25-28 `serializeInt`: the four bytes of the int, least significant first. -/
def encInt (v : BitVec 32) : List Byte :=
  [BitVec.ofNat 8 v.toNat, BitVec.ofNat 8 (v.toNat / 256), BitVec.ofNat 8 (v.toNat / 65536),
   BitVec.ofNat 8 (v.toNat / 16777216)]

/-- serialization.h 31-36 `deserializeInt`: memcpy of four bytes, cursor += 4. -/
def decInt : Dec (BitVec 32)
  | b0 :: b1 :: b2 :: b3 :: rest =>
    .ok (BitVec.ofNat 32 (b0.toNat + 256 * b1.toNat + 65536 * b2.toNat + 16777216 * b3.toNat), rest)
  | _ => .error .ub

/-- serialization.h 39-42 `serializeDouble`: the eight bytes, least significant first. -/
def encDouble (v : F64) : List Byte :=
  [BitVec.ofNat 8 v.toNat, BitVec.ofNat 8 (v.toNat / 256), BitVec.ofNat 8 (v.toNat / 65536),
   BitVec.ofNat 8 (v.toNat / 16777216), BitVec.ofNat 8 (v.toNat / 4294967296),
   BitVec.ofNat 8 (v.toNat / 1099511627776), BitVec.ofNat 8 (v.toNat / 281474976710656),
   BitVec.ofNat 8 (v.toNat / 72057594037927936)]

/-- serialization.h 45-50 `deserializeDouble`: memcpy of eight bytes, cursor += 8. -/
def decDouble : Dec F64
  | b0 :: b1 :: b2 :: b3 :: b4 :: b5 :: b6 :: b7 :: rest =>
    .ok (BitVec.ofNat 64 (b0.toNat + 256 * b1.toNat + 65536 * b2.toNat + 16777216 * b3.toNat
      + 4294967296 * b4.toNat + 1099511627776 * b5.toNat + 281474976710656 * b6.toNat
      + 72057594037927936 * b7.toNat), rest)
  | _ => .error .ub

/-- serialization.h 53-55 `serializeBool`: one byte, 0 or 1. -/
def encBool (v : Bool) : List Byte := [if v then 1#8 else 0#8]

/-- serialization.h 58-62 `deserializeBool`: any non-zero byte is `true`. -/
def decBool : Dec Bool
  | b :: rest => .ok (b != 0#8, rest)
  | _ => .error .ub

/-- serialization.h 83-87 `serializeVec4`: x, y, z, w in this order (`v[i]`, vec.h). -/
def encVec4 (v : V4) : List Byte :=
  encDouble v.x ++ (encDouble v.y ++ (encDouble v.z ++ encDouble v.w))

/-- serialization.h 90-96 `deserializeVec4`. -/
def decVec4 : Dec V4 := fun s => do
  let (x, s) ← decDouble s
  let (y, s) ← decDouble s
  let (z, s) ← decDouble s
  let (w, s) ← decDouble s
  .ok (⟨x, y, z, w⟩, s)

/-- The loop `for (int i = 0; i < size; ++i) vec[i] = deserialize…(data)` of serialization.h 76-78, 110-112, 151-153. -/
def decN {α : Type} (d : Dec α) : Nat → Dec (List α)
  | 0, s => .ok ([], s)
  | n + 1, s => do
    let (v, s) ← d s
    let (vs, s) ← decN d n s
    .ok (v :: vs, s)

/-- serialization.h 65-70 and 99-104: the length (a `size_t`, converted to `int`, i.e. modulo 2^32), then the elements. -/
def encVec {α : Type} (e : α → List Byte) (l : List α) : List Byte :=
  encInt (BitVec.ofNat 32 l.length) ++ l.flatMap e

/-- serialization.h 73-80 and 107-114: a negative `int size` converted to `size_t` makes `std::vector(size)` throw
`std::length_error`; otherwise `size` elements are read. -/
def decVec {α : Type} (d : Dec α) : Dec (List α) := fun s => do
  let (size, s) ← decInt s
  if size.toInt < 0 then .error .throws
  else decN d size.toNat s

/-- serialization.h 65-80. -/
def encVectorDouble : List F64 → List Byte := encVec encDouble
/-- serialization.h 73-80. -/
def decVectorDouble : Dec (List F64) := decVec decDouble
/-- serialization.h 99-104. -/
def encVectorVec4 : List V4 → List Byte := encVec encVec4
/-- serialization.h 107-114. -/
def decVectorVec4 : Dec (List V4) := decVec decVec4

/-- vec.h `vec4::operator[]`: component `i` (0..3). -/
def V4.comp (v : V4) : Nat → F64
  | 0 => v.x
  | 1 => v.y
  | 2 => v.z
  | _ => v.w

/-- nurbs.h 165-169: the inner loop over the four components; `eqd` is the C++ `==` on doubles
(a parameter: it is not bit equality, `0.0 == -0.0` and `NaN != NaN`). -/
def sameV4 (eqd : F64 → F64 → Bool) (a b : V4) : Bool :=
  eqd (a.comp 0) (b.comp 0) && eqd (a.comp 1) (b.comp 1) && eqd (a.comp 2) (b.comp 2) && eqd (a.comp 3) (b.comp 3)

/-- nurbs.h 163-172 `is_periodic`: the loop `for j in 0..degree-1` from index `j`; an index outside `control_points`
is undefined behaviour (`none`). `size - degree + j` wraps for `degree > size`, giving an out-of-range index. -/
def isPeriodicFrom (eqd : F64 → F64 → Bool) (cpts : List V4) (degree : Nat) : Nat → Nat → Option Bool
  | 0, _ => some true
  | fuel + 1, j =>
    if degree ≤ cpts.length then
      match cpts[j]?, cpts[cpts.length - degree + j]? with
      | some a, some b => if sameV4 eqd a b then isPeriodicFrom eqd cpts degree fuel (j + 1) else some false
      | _, _ => none
    else none

/-- nurbs.h 163-172 `is_periodic`; a non-positive degree makes the loop empty. -/
def isPeriodic (eqd : F64 → F64 → Bool) (c : Curve) : Option Bool :=
  if c.degree.toInt ≤ 0 then some true
  else isPeriodicFrom eqd c.cpts c.degree.toNat c.degree.toNat 0

/-- serialization.h 117-124 `serializeNURBSCurve`: note that the flag written is `is_periodic()`, not `_periodic`. -/
def encCurve (eqd : F64 → F64 → Bool) (c : Curve) : Option (List Byte) := do
  let p ← isPeriodic eqd c
  some (encInt c.degree ++ (encBool p ++ (encVectorVec4 c.cpts ++ encVectorDouble c.knots)))

/-- nurbs.h 120-125, the constructor used by the decoder: `update_interval` dereferences `min_element(knots)`
(undefined for an empty knot vector) and `rebuildAABB` (nurbs.h 528-534) reads `control_points[0]`. -/
def mkCurve (cpts : List V4) (degree : BitVec 32) (knots : List F64) (periodic : Bool) : Except Fault Curve :=
  if knots.isEmpty || cpts.isEmpty then .error .ub
  else .ok ⟨degree, periodic, cpts, knots⟩

/-- serialization.h 127-133 `deserializeNURBSCurve`. -/
def decCurve : Dec Curve := fun s => do
  let (degree, s) ← decInt s
  let (periodic, s) ← decBool s
  let (cpts, s) ← decVectorVec4 s
  let (knots, s) ← decVectorDouble s
  let c ← mkCurve cpts degree knots periodic
  .ok (c, s)

/-- serialization.h 139-142: the loop appending each curve's bytes. -/
def encCurveList (eqd : F64 → F64 → Bool) : List Curve → Option (List Byte)
  | [] => some []
  | c :: cs => do
    let b ← encCurve eqd c
    let bs ← encCurveList eqd cs
    some (b ++ bs)

/-- serialization.h 136-144 `serializeNURBSCurves`; `none` is undefined behaviour in `is_periodic`. -/
def serializeCurves (eqd : F64 → F64 → Bool) (cs : List Curve) : Option (List Byte) := do
  let body ← encCurveList eqd cs
  some (encInt (BitVec.ofNat 32 cs.length) ++ body)

/-- serialization.h 147-155 `deserializeNURBSCurves` as a decoder that also shows the final cursor. -/
def decCurves : Dec (List Curve) := decVec decCurve

/-- serialization.h 147-155 `deserializeNURBSCurves`: trailing bytes are ignored. -/
def deserializeCurves (buf : List Byte) : Except Fault (List Curve) := do
  let (cs, _) ← decCurves buf
  .ok cs

end Cmm.Ser
