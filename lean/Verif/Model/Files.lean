import Verif.Model.Serialization
import Verif.Model.MemoryView
/-!
Model of the functions that write to and read from files: serialization.h 157-175 and memoryview.h 431-478. The operating system is modelled by the
bytes of each file; what can go wrong (opening fails, the device takes only part of the bytes, the stream cannot be positioned or read) is a parameter.
-/
namespace Cmm.Files
open Cmm.Ser (Byte Curve F64 Fault)

/-- The files by name; `none`: there is no such file. -/
abbrev Disk := String → Option (List Byte)

/-- The disk after the file `name` got the contents `b`. -/
def Disk.set (d : Disk) (name : String) (b : List Byte) : Disk := fun n => if n = name then some b else d n

/-- serialization.h 158-166 `writeNURBSCurvesToFile`: the answer and the disk afterwards. The curves are encoded first (`none`: undefined behaviour there).
Opening (`opens`) truncates the file. `std::ofstream` hands the first `early` bytes to the device in `write` and the others when the stream is
destroyed, after `good()` was asked; the device takes `room` bytes. -/
def writeCurves (eqd : F64 → F64 → Bool) (d : Disk) (name : String) (cs : List Curve) (opens : Bool) (early room : Nat) : Option (Bool × Disk) := do
  let data ← Cmm.Ser.serializeCurves eqd cs
  if opens then some (decide (min early data.length ≤ room), d.set name (data.take room))
  else some (false, d)

/-- serialization.h 158-166: what can be on the disk if the program or the machine stops at some point of `writeNURBSCurvesToFile`: nothing done
yet, or the file was opened and `k` bytes have arrived. -/
def crashStates (eqd : F64 → F64 → Bool) (d : Disk) (name : String) (cs : List Curve) : Option (List Disk) := do
  let data ← Cmm.Ser.serializeCurves eqd cs
  some (d :: (List.range (data.length + 1)).map fun k => d.set name (data.take k))

/-- serialization.h 169-176 `readNURBSCurvesFromFile`. -/
def readCurves (d : Disk) (name : String) : Except Fault (List Curve) :=
  match d name with
  | none => .error .throws
  | some b => Cmm.Ser.deserializeCurves b

/-- A `FILE *` that is not null: the bytes of the file, the position, and whether `fseek`/`ftell` and `fread` work on it. -/
structure Stream where
  bytes : List Byte
  pos : Nat
  seekable : Bool
  readable : Bool

/-- `fwrite` of `data` at the position: the bytes there are replaced; a gap after the end of the file is filled with zeros. -/
def Stream.put (s : Stream) (data : List Byte) : Stream :=
  { s with bytes := s.bytes.take s.pos ++ List.replicate (s.pos - s.bytes.length) 0#8 ++ data ++ s.bytes.drop (s.pos + data.length)
           pos := s.pos + data.length }

/-- memoryview.h 432-444 `write_to_file`: the outcome and the stream afterwards; `none` is a null pointer, `accepted` is the number of bytes the
stream takes. -/
def writeView (typeName : List Byte) (esz : Nat) (mem : List Byte) (v : Cmm.MV.View) (accepted : Nat) :
    Option Stream → Res Unit × Option Stream
  | none => (.throws, none)
  | some s =>
    match v.serialize typeName esz mem with
    | .ok b => (if (b.take accepted).length ≠ b.length then .throws else .ok (), some (s.put (b.take accepted)))
    | .throws => (.throws, some s)
    | .ub => (.ub, some s)

/-- memoryview.h 447-478 `read_from_file`: the whole file is read from its start, wherever the position was. -/
def readView (typeName : List Byte) (esz : Nat) : Option Stream → Res (List Byte × Cmm.MV.View) × Option Stream
  | none => (.throws, none)
  | some s =>
    if s.seekable then
      let got := if s.readable then s.bytes else []
      (if got.length ≠ s.bytes.length then .throws else Cmm.MV.deserialize typeName esz got, some { s with pos := got.length })
    else (.throws, some s)

end Cmm.Files
