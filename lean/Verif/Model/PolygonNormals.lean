import Verif.Model.Separability
import Verif.Model.VecOps
/-!
Model of the normals of cmmcore/polygon.h in exact arithmetic.
-/
namespace Cmm.Sep
open Cmm.Geom Cmm.VecOps
variable {K : Type} [Field K] [LinearOrder K]

/-- polygon.h 126-132: the loop from edge `i` on; `acc` is the content of `normals`. `normals[i]` exists: the vector has grown `i + 1` times. -/
def normalsLoop (sqrt : K → K) (normalize : Bool) : List (Vec2 K) → Nat → List (Vec2 K) → Res (List (Vec2 K))
  | [], _, acc => .ok acc
  | n :: ns, i, acc =>
    if normalize then do
      let u ← unitize2 sqrt ((acc ++ [n]).getD i ⟨0, 0⟩)
      normalsLoop sqrt normalize ns (i + 1) ((acc ++ [n]).set i u)
    else normalsLoop sqrt normalize ns (i + 1) (acc ++ [n])

/-- polygon.h 124-133 `polygonNormals`: the content of `normals` afterwards, from its content `out` before. -/
def polygonNormals (sqrt : K → K) (polygon out : List (Vec2 K)) (normalize : Bool) : Res (List (Vec2 K)) :=
  normalsLoop sqrt normalize (normals polygon) 0 out

/-- polygon.h 138-151: the loop over the normals. `set` is the content of the hash set, `ins` decides whether `insert` adds a normal. Inserting the zero
vector throws (polygon.h 22, vec.h 193-195). -/
def uniqueLoop (sqrt : K → K) (ins : List (Vec2 K) → Vec2 K → Bool) (normalize : Bool) : List (Vec2 K) → List (Vec2 K) → Res (List (Vec2 K))
  | [], set => .ok set
  | n :: ns, set =>
    if contains set n then uniqueLoop sqrt ins normalize ns set
    else do
      let m ← if normalize then unitize2 sqrt n else .ok n
      if m.sqLength = 0 then .throws
      else uniqueLoop sqrt ins normalize ns (if ins set m then m :: set else set)

/-- polygon.h 136-152 `polygonUniqueNormals`. -/
def polygonUniqueNormals (sqrt : K → K) (ins : List (Vec2 K) → Vec2 K → Bool) (polygon set : List (Vec2 K)) (normalize : Bool) : Res (List (Vec2 K)) :=
  uniqueLoop sqrt ins normalize (normals polygon) set

end Cmm.Sep
