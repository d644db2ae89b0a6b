import Verif.Model.ClosestPoint
/-!
Model of cmmcore/gjk.h over an ordered field `K` (exact arithmetic).
-/
namespace Cmm.Gjk
open Cmm.Geom
variable {K : Type} [Field K] [LinearOrder K]

/-- gjk.h 141-146 `operator<` on `vec3`. -/
def lexLt (l r : Vec3 K) : Bool :=
  if l.x < r.x then true
  else if l.x = r.x ∧ l.y < r.y then true
  else if l.x = r.x ∧ l.y = r.y ∧ l.z < r.z then true
  else false

/-- gjk.h 48-138 `handleSimplex`: whether the origin was found inside, the new simplex and the new direction. The first element of the
list is `simplex[0]`. -/
def handleSimplex (simplex : List (Vec3 K)) (direction : Vec3 K) (tol : K) : Res (Bool × List (Vec3 K) × Vec3 K) :=
  match simplex with
  | [b, a] =>
    let ab := b - a
    let ao := -a
    if ab.dot ao > tol then .ok (false, [b, a], (ab.cross ao).cross ab) else .ok (false, [a], ao)
  | [c, b, a] =>
    let ab := b - a
    let ac := c - a
    let ao := -a
    let abc := ab.cross ac
    let abPerp := abc.cross ac
    let acPerp := ab.cross abc
    if abPerp.dot ao > tol then .ok (false, [b, a], abPerp)
    else if acPerp.dot ao > tol then .ok (false, [c, a], acPerp)
    else if abc.dot ao > tol then .ok (false, [c, b, a], abc)
    else .ok (false, [b, c, a], -abc)
  | [d, c, b, a] =>
    let ab := b - a
    let ac := c - a
    let ad := d - a
    let ao := -a
    let abc := ab.cross ac
    let acd := ac.cross ad
    let adb := ad.cross ab
    if abc.dot ao > 0 then .ok (false, [c, b, a], abc)
    else if acd.dot ao > 0 then .ok (false, [d, c, a], acd)
    else if adb.dot ao > 0 then .ok (false, [d, b, a], adb)
    else .ok (true, [d, c, b, a], direction)
  | _ => .throws

/-- gjk.h 46 `CMMCORE_SIMPLEX_FACES`. -/
def simplexFaces : List (Nat × Nat × Nat) := [(1, 2, 3), (0, 3, 2), (0, 1, 3), (0, 2, 1)]

/-- gjk.h 151-180 `closestPointOnSimplex`; `none` is a NaN. Without points the default vector is returned. For four points the bound `mindist` is
never lowered, so the last face whose result is a number wins (a NaN distance is not below it; with exact numbers every other one is). With more
points the loop reads past the four faces of the table, which is undefined. -/
def closestPointOnSimplex (simplex : List (Vec3 K)) : Res (Option (Vec3 K)) :=
  match simplex with
  | [] => .ok (some 0)
  | [p] => .ok (some p)
  | [p0, p1] => .ok (closestPointOnSegm p1 p0)
  | [p0, p1, p2] => .ok (closestPointOnTriangle p2 p1 p0)
  | [_, _, _, _] => .ok (simplexFaces.foldl (fun cpt f =>
      match closestPointOnTriangle (simplex.getD f.1 0) (simplex.getD f.2.1 0) (simplex.getD f.2.2 0) with
      | some pt => some pt
      | none => cpt) (some 0))
  | _ => .ub

/-- gjk.h 186-199 `supportVector`: the loop with the best index and value so far (`none`: the initial `-DBL_MAX`, below every product;
the result is then -1). -/
def supportGo (d : Vec3 K) : List (Vec3 K) → Nat → Option (Nat × K) → Option (Nat × K)
  | [], _, best => best
  | v :: vs, i, best =>
    let dotValue := v.dot d
    match best with
    | none => supportGo d vs (i + 1) (some (i, dotValue))
    | some (j, highest) => if dotValue > highest then supportGo d vs (i + 1) (some (i, dotValue)) else supportGo d vs (i + 1) (some (j, highest))

/-- gjk.h 186-199 `supportVector`; `none` is -1. -/
def supportVector (vertices : List (Vec3 K)) (d : Vec3 K) : Option Nat := (supportGo d vertices 0 none).map Prod.fst

/-- `vertices[index]` for the result of `supportVector`: undefined for -1. -/
def vertexAt (vertices : List (Vec3 K)) (i : Option Nat) : Res (Vec3 K) :=
  match i with
  | none => .ub
  | some i =>
    match vertices[i]? with
    | none => .ub
    | some v => .ok v

/-- gjk.h 201-205 `support`. -/
def support (verticesA verticesB : List (Vec3 K)) (d : Vec3 K) : Res (Vec3 K) := do
  let a ← vertexAt verticesA (supportVector verticesA d)
  let b ← vertexAt verticesB (supportVector verticesB (-d))
  pure (a - b)

/-- What `GJK` returns and writes, and the number of rounds of its loop. -/
structure Out (K : Type) where
  collide : Bool
  simplex : List (Vec3 K)
  closest : Option (Vec3 K)
  rounds : Nat

/-- gjk.h 234-270: the loop with the remaining number of rounds, and what follows it: the closest point is computed and then overwritten.
(The counter is an `int`; limits above its range are left out.) -/
def gjkLoop (verticesA verticesB : List (Vec3 K)) (tolerance : K) (closest : Option (Vec3 K)) :
    Nat → Nat → List (Vec3 K) → Vec3 K → Res (Out K)
  | 0, rounds, simplex, _ => do
    let _ ← closestPointOnSimplex simplex
    pure ⟨true, simplex, some 0, rounds⟩
  | n + 1, rounds, simplex, direction =>
    match support verticesA verticesB direction with
    | .throws => .throws
    | .ub => .ub
    | .ok point =>
      if point.dot direction < 0 then do
        let c ← closestPointOnSimplex simplex
        pure ⟨false, simplex, c, rounds + 1⟩
      else
        match handleSimplex (simplex ++ [point]) direction tolerance with
        | .throws => .throws
        | .ub => .ub
        | .ok (true, simplex', _) => .ok ⟨true, simplex', closest, rounds + 1⟩
        | .ok (false, simplex', direction') => gjkLoop verticesA verticesB tolerance closest n (rounds + 1) simplex' direction'

/-- gjk.h 207-271 `GJK`, with the simplex and the closest point as they are passed in. -/
def gjk (verticesA verticesB simplex : List (Vec3 K)) (closest : Option (Vec3 K)) (tolerance : K) (maxIterations : Nat) : Res (Out K) :=
  match verticesA, verticesB with
  | [], _ => .ub
  | _, [] => .ub
  | a0 :: _, b0 :: _ =>
    let direction := b0 - a0
    let direction := if direction.sqLength = 0 then ⟨1, 0, 0⟩ else direction
    match support verticesA verticesB direction with
    | .throws => .throws
    | .ub => .ub
    | .ok point => gjkLoop verticesA verticesB tolerance closest maxIterations 0 (simplex ++ [point]) (-point)

end Cmm.Gjk
