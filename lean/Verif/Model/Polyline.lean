import Verif.Model.Hash
/-!
Model of polyline.h: assembling polylines from segments. A `Segment*` is the position of the segment in the input vector, an `Endpoint*` that position
with the flag `is_p1`. The spatial index is a function from keys to lists (a missing key is the empty list; cells are searched in a fixed order, so
the order of the hash table does not matter). The key functions and the length are parameters, so that the assembly can be studied apart from the range
of the keys; `assemble` is the code.
-/
namespace Cmm.Poly
open Cmm.Hash (PointKey)
variable {K : Type} [Field K] [LinearOrder K]

/-- polyline.h 72-75 `Segment`. -/
structure Segment (K : Type) where
  p1 : Vec3 K
  p2 : Vec3 K
deriving DecidableEq

/-- polyline.h 78-82 `Endpoint`; `id` stands for the address of the segment. -/
structure Endpoint (K : Type) where
  segment : Segment K
  id : Nat
  isP1 : Bool
deriving DecidableEq

/-- polyline.h 129-132: the point of an endpoint. -/
def Endpoint.point (e : Endpoint K) : Vec3 K := if e.isP1 then e.segment.p1 else e.segment.p2

/-- polyline.h 155, 186, 217: the other end of its segment. -/
def Endpoint.far (e : Endpoint K) : Vec3 K := if e.isP1 then e.segment.p2 else e.segment.p1

/-- Pointer equality of endpoints. -/
def Endpoint.same (a b : Endpoint K) : Bool := a.id == b.id && a.isP1 == b.isP1

/-- polyline.h 129-132: two endpoints for every segment, in order. -/
def endpoints (segments : List (Segment K)) : List (Endpoint K) :=
  segments.zipIdx.flatMap fun s => [⟨s.1, s.2, true⟩, ⟨s.1, s.2, false⟩]

/-- polyline.h 85 `SpatialIndex`. -/
abbrev Index (K : Type) := PointKey → List (Endpoint K)

/-- polyline.h 88-91 `add_to_index`. -/
def addToIndex (key : Vec3 K → Res PointKey) (index : Index K) (e : Endpoint K) : Res (Index K) := do
  let k ← key e.point
  pure fun k' => if k' = k then index k' ++ [e] else index k'

/-- polyline.h 94-101 `remove_from_index`; the key is computed by `tkey`, which is not the function used for insertion. -/
def removeFromIndex (tkey : Vec3 K → Res PointKey) (index : Index K) (e : Endpoint K) : Res (Index K) := do
  let k ← tkey e.point
  pure fun k' => if k' = k then (index k').filter fun f => !f.same e else index k'

/-- Sum of two `int` numbers. -/
def addInt (a b : Int) : Res Int := if -2147483648 ≤ a + b ∧ a + b ≤ 2147483647 then .ok (a + b) else .ub

/-- polyline.h 108-110: the offsets, in the order of the three loops. -/
def offsets : List (Int × Int × Int) :=
  [-1, 0, 1].flatMap fun dx => [-1, 0, 1].flatMap fun dy => [-1, 0, 1].map fun dz => (dx, dy, dz)

/-- polyline.h 107-117: endpoints in the neighbouring cells. -/
def collect (index : Index K) (k : PointKey) : List (Int × Int × Int) → Res (List (Endpoint K))
  | [] => .ok []
  | d :: ds => do
    let x ← addInt k.x d.1
    let y ← addInt k.y d.2.1
    let z ← addInt k.z d.2.2
    let rest ← collect index k ds
    pure (index ⟨x, y, z⟩ ++ rest)

/-- polyline.h 104-120 `find_nearby_endpoints`. -/
def findNearby (key : Vec3 K → Res PointKey) (index : Index K) (point : Vec3 K) : Res (List (Endpoint K)) := do
  let k ← key point
  collect index k offsets

/-- polyline.h 41. -/
def eps : K := 1 / 2 ^ 52

/-- polyline.h 184, 215, 242: `(a - b).length() < eps`. -/
def near (length : Vec3 K → K) (a b : Vec3 K) : Bool := decide (length (a - b) < eps)

/-- polyline.h 179-185, 210-216: first endpoint of an unused segment at the given point. -/
def findNext (key : Vec3 K → Res PointKey) (length : Vec3 K → K) (index : Index K) (processed : List Nat) (point : Vec3 K) :
    Res (Option (Endpoint K)) := do
  let l ← findNearby key index point
  pure (l.find? fun ep => !processed.contains ep.id && near length ep.point point)

/-- polyline.h 158-170, 190-202, 221-233: the endpoint and then the opposite one are removed from the index. -/
def removeBoth (tkey : Vec3 K → Res PointKey) (eps : List (Endpoint K)) (index : Index K) (ep : Endpoint K) : Res (Index K) := do
  let index ← removeFromIndex tkey index ep
  match eps.find? fun e => e.id == ep.id && e.isP1 != ep.isP1 with
  | none => pure index
  | some opp => removeFromIndex tkey index opp

/-- The variables of the loop of lines 173-238. -/
structure State (K : Type) where
  index : Index K
  processed : List Nat
  polyline : List (Vec3 K)

/-- polyline.h 176-205: try to extend at the front. -/
def extendFront (key tkey : Vec3 K → Res PointKey) (length : Vec3 K → K) (eps : List (Endpoint K)) (s : State K) : Res (Bool × State K) :=
  match s.polyline with
  | [] => .ub
  | p :: _ => do
    match ← findNext key length s.index s.processed p with
    | none => pure (false, s)
    | some ep => do
      let index ← removeBoth tkey eps s.index ep
      pure (true, ⟨index, ep.id :: s.processed, ep.far :: s.polyline⟩)

/-- polyline.h 207-236: try to extend at the back. -/
def extendBack (key tkey : Vec3 K → Res PointKey) (length : Vec3 K → K) (eps : List (Endpoint K)) (s : State K) : Res (Bool × State K) :=
  match s.polyline.getLast? with
  | none => .ub
  | some p => do
    match ← findNext key length s.index s.processed p with
    | none => pure (false, s)
    | some ep => do
      let index ← removeBoth tkey eps s.index ep
      pure (true, ⟨index, ep.id :: s.processed, s.polyline ++ [ep.far]⟩)

/-- polyline.h 173-238: the loop, with a bound on the number of rounds; `none` if the bound is reached. -/
def extend (key tkey : Vec3 K → Res PointKey) (length : Vec3 K → K) (eps : List (Endpoint K)) : Nat → State K → Res (Option (State K))
  | 0, _ => .ok none
  | n + 1, s => do
    let (f, s) ← extendFront key tkey length eps s
    let (b, s) ← extendBack key tkey length eps s
    if f || b then extend key tkey length eps n s else pure (some s)

/-- polyline.h 241-245: a closed polyline loses its last point. -/
def close (length : Vec3 K → K) (polyline : List (Vec3 K)) : List (Vec3 K) :=
  match polyline.head?, polyline.getLast? with
  | some f, some b => if near length f b then polyline.dropLast else polyline
  | _, _ => polyline

/-- polyline.h 145-249: the main loop over the remaining endpoints. -/
def mainLoop (key tkey : Vec3 K → Res PointKey) (length : Vec3 K → K) (eps : List (Endpoint K)) (bound : Nat) :
    List (Endpoint K) → Index K → List Nat → List (List (Vec3 K)) → Res (Option (List (List (Vec3 K))))
  | [], _, _, branches => .ok (some branches)
  | e :: es, index, processed, branches =>
    if processed.contains e.id then mainLoop key tkey length eps bound es index processed branches
    else do
      let index ← removeBoth tkey eps index e
      match ← extend key tkey length eps bound ⟨index, e.id :: processed, [e.point, e.far]⟩ with
      | none => pure none
      | some s => mainLoop key tkey length eps bound es s.index s.processed (branches ++ [close length s.polyline])

/-- polyline.h 134-136: the index of all endpoints. -/
def buildIndex (key : Vec3 K → Res PointKey) : List (Endpoint K) → Index K → Res (Index K)
  | [], index => .ok index
  | e :: es, index => do
    let index ← addToIndex key index e
    buildIndex key es index

/-- polyline.h 123-252 `assemble_polylines` for given key functions. -/
def assembleWith (key tkey : Vec3 K → Res PointKey) (length : Vec3 K → K) (segments : List (Segment K)) (branches : List (List (Vec3 K))) :
    Res (Option (List (List (Vec3 K)))) := do
  let index ← buildIndex key (endpoints segments) fun _ => []
  mainLoop key tkey length (endpoints segments) (segments.length + 1) (endpoints segments) index [] branches

/-- polyline.h 47, 95: the key used for removal is made of the truncated coordinates. -/
def truncKey [FloorRing K] (p : Vec3 K) : Res PointKey := do
  let x ← Hash.toInt p.x
  let y ← Hash.toInt p.y
  let z ← Hash.toInt p.z
  pure ⟨x, y, z⟩

/-- polyline.h 123-252 `assemble_polylines`. -/
def assemble [FloorRing K] (length : Vec3 K → K) (segments : List (Segment K)) (branches : List (List (Vec3 K))) :
    Res (Option (List (List (Vec3 K)))) :=
  assembleWith Hash.pointKey truncKey length segments branches

end Cmm.Poly
