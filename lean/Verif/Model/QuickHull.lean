import Verif.Model.Hull3d
import Mathlib.Algebra.Order.Group.Abs
import Mathlib.Data.Fin.SuccPred
import Mathlib.Data.Fin.VecNotation
import Mathlib.Data.List.Sort
/-!
Model of the class `quick_hull` of cmmcore/_convexhull/quickhull.hpp for dimension 3, the only one that is used. A point is its place in the list of
points; the deque `facets_` is a map from numbers to facets together with its size. Left out: `coplanar_` of a facet and `affine_dim_`, which nothing
reads, `hypervolume` of fewer than four points, and lines 962-1040 of `check`, which are not reached for a simplex. Assertions are checked. `sqrt` is the square
root.
-/
namespace Cmm.Quick
open Cmm.Hull3d
variable {K : Type} [Field K] [LinearOrder K]

/-! ### Linear algebra -/

/-- quickhull.hpp 293-338 `det`, the last two columns of a 3x3 matrix after the first step. -/
def det2 (eps a b c d : K) : K :=
  let swap := decide (|a| < |c|)
  let p := if swap then c else a
  let q := if swap then d else b
  let r := if swap then a else c
  let s := if swap then b else d
  if ¬ eps < |p| then 0
  else
    let last := s - r / p * q
    if ¬ eps < |last| then 0 else (if swap then -1 else 1) * p * last

/-- quickhull.hpp 293-338 `det` of the matrix with the given rows: elimination with row pivoting; a pivot not above `eps` gives zero. -/
def det3 (eps : K) (r0 r1 r2 : Vec3 K) : K :=
  let pivot : Nat := if |r0.x| < |r1.x| then (if |r1.x| < |r2.x| then 2 else 1) else (if |r0.x| < |r2.x| then 2 else 0)
  let p := match pivot with | 0 => r0 | 1 => r1 | _ => r2
  let s := match pivot with | 1 => r0 | _ => r1
  let t := match pivot with | 2 => r0 | _ => r2
  if ¬ eps < |p.x| then 0
  else
    (if pivot = 0 then 1 else -1) * p.x *
      det2 eps (s.y - s.x / p.x * p.y) (s.z - s.x / p.x * p.z) (t.y - t.x / p.x * p.y) (t.z - t.x / p.x * p.z)

/-- quickhull.hpp 345-366 `set_hyperplane_equation` with 251-260 `matrix_transpose_copy` and 262-278 `matrix_restore`: the unit normal and `D`. -/
def hyperplane (sqrt : K → K) (eps : K) (a b c : Vec3 K) : Vec3 K × K :=
  let rx : Vec3 K := ⟨a.x, b.x, c.x⟩
  let ry : Vec3 K := ⟨a.y, b.y, c.y⟩
  let rz : Vec3 K := ⟨a.z, b.z, c.z⟩
  let one : Vec3 K := ⟨1, 1, 1⟩
  let n : Vec3 K := ⟨det3 eps one ry rz, det3 eps rx one rz, det3 eps rx ry one⟩
  let len := sqrt n.sqLength
  (n.sdiv len, -det3 eps rx ry rz / len)

/-- quickhull.hpp 127-134 `facet::distance` of the point `p` from the plane through three points. -/
def planeDistance (sqrt : K → K) (eps : K) (a b c p : Vec3 K) : K :=
  (hyperplane sqrt eps a b c).2 + (hyperplane sqrt eps a b c).1.dot p

/-- quickhull.hpp 727-759 `hypervolume` of four points: the vectors from the last one to the others. -/
def hypervolume (eps : K) (a b c d : Vec3 K) : K := det3 eps (a - d) (b - d) (c - d)

/-! ### The initial simplex -/

/-- The components of a vector from number `i` on (the loops `for (k = i; k < dimension_; ++k)`). -/
def tailFrom : Nat → Vec3 K → Vec3 K
  | 0, v => v
  | 1, v => ⟨0, v.y, v.z⟩
  | 2, v => ⟨0, 0, v.z⟩
  | _, _ => ⟨0, 0, 0⟩

/-- The unit vector number `i`. -/
def axis : Nat → Vec3 K
  | 0 => ⟨1, 0, 0⟩
  | 1 => ⟨0, 1, 0⟩
  | _ => ⟨0, 0, 1⟩

/-- The reflection `x - u (u · x)`. -/
def reflect (u x : Vec3 K) : Vec3 K := x - u.smul (u.dot x)

/-- quickhull.hpp 382-419, the loop of `orthonormalize` over the rows from number `i` on, the reflections `us` having been found: all the reflection vectors, or
`none` where it returns `false`. The earlier reflections are applied to a row when its turn comes. -/
def orthonormalize (sqrt : K → K) (eps : K) : Nat → List (Vec3 K) → List (Vec3 K) → Option (List (Vec3 K))
  | _, us, [] => some us
  | i, us, r :: rows =>
    let row := us.foldl (fun x u => reflect u x) r
    let t := tailFrom i row
    let sum := t.sqLength
    let norm := sqrt sum
    if ¬ eps < norm then none
    else
      let norm' := if row.coord i < 0 then -norm else norm
      let factor := sqrt (sum + row.coord i * norm')
      if ¬ eps < factor then none
      else orthonormalize sqrt eps (i + 1) (us ++ [(t + (axis i).smul norm').sdiv factor]) rows

/-- quickhull.hpp 422-443 `forward_transformation`: row `i` of Q. -/
def qRow (us : List (Vec3 K)) (i : Nat) : Vec3 K := us.foldr reflect (axis i)

/-- quickhull.hpp 463-470: the square of the distance of `p` from the subspace through `origin` with the orthonormal basis `qs`. -/
def offSubspace (qs : List (Vec3 K)) (origin p : Vec3 K) : K :=
  (qs.foldl (fun r q => r + q.smul (-(q.dot (p - origin)))) (p - origin)).sqLength

/-- quickhull.hpp 459-475: the first point with the largest positive value of `d`. -/
def furthest (d : Nat → K) : List Nat → K → Option Nat → Option Nat
  | [], _, best => best
  | i :: rest, dist, best => if dist < d i then furthest d rest (d i) (some i) else furthest d rest dist best

/-- quickhull.hpp 445-481 `steal_best`: the point of `outside` furthest from the affine hull of `basis` moves to its end. -/
def stealBest (sqrt : K → K) (eps : K) (P : Nat → Vec3 K) (basis outside : List Nat) : Option (List Nat × List Nat) :=
  let o := basis.getLastD 0
  match orthonormalize sqrt eps 0 [] (basis.dropLast.map fun i => P i - P o) with
  | none => none
  | some us =>
    match furthest (fun i => offSubspace ((List.range us.length).map (qRow us)) (P o) (P i)) outside 0 none with
    | none => none
    | some i => some (basis ++ [i], outside.erase i)

/-- quickhull.hpp 798-803, the loop of `get_affine_basis`. -/
def growBasis (sqrt : K → K) (eps : K) (P : Nat → Vec3 K) : Nat → List Nat → List Nat → List Nat × List Nat
  | 0, basis, outside => (basis, outside)
  | n + 1, basis, outside =>
    match stealBest sqrt eps P basis outside with
    | none => (basis, outside)
    | some (b, o) => growBasis sqrt eps P n b o

/-- quickhull.hpp 782-805 `get_affine_basis`, with the points that are left. -/
def affineBasis (sqrt : K → K) (eps : K) (P : Nat → Vec3 K) : List Nat → List Nat × List Nat
  | [] => ([], [])
  | i :: rest => growBasis sqrt eps P 3 [i] rest

/-! ### Facets -/

/-- quickhull.hpp 113-135 `facet`. The plane is not stored: it is computed from the vertices whenever they change. -/
structure Facet where
  vertices : Fin 3 → Nat
  neighbours : Fin 3 → Nat
  outside : List Nat

/-- quickhull.hpp 139, 483, 505-529, 611, 641-642, 876: the state of the algorithm. `removed` and `outside` are lists whose head is the back of the vector
and the front of the list; `ranking` holds the entries of the multimap in the order of their insertion. -/
structure State (K : Type) where
  facets : Nat → Facet
  size : Nat
  removed : List Nat
  ranking : List (K × Nat)
  outside : List Nat
  ridges : List (Nat × Fin 3)
  visited : List Nat
  visible : List Nat
  fresh : List Nat

/-- The state before the first facet is made. -/
def State.start (outside : List Nat) : State K := ⟨fun _ => ⟨fun _ => 0, fun _ => 0, []⟩, 0, [], [], outside, [], [], [], []⟩

/-- The facet number `f` replaced. -/
def State.put (s : State K) (f : Nat) (x : Facet) : State K := { s with facets := Function.update s.facets f x }

/-- quickhull.hpp 162-186 `make_facet` from the simplex: the three vertices other than number `f`, with the numbers of the facets against them. -/
def simplexFacet (simplex : Fin 4 → Nat) (swap : Bool) (f : Fin 4) : Facet :=
  let others : Fin 3 → Fin 4 := f.succAbove
  let order : Fin 3 → Fin 3 := if swap == decide ((3 - f.val) % 2 = 0) then fun k => 2 - k else id
  ⟨fun k => simplex (others (order k)), fun k => (others (order k)).val, []⟩

/-- quickhull.hpp 531-552 `partition`: the largest distance, the points the facet takes (the furthest first), and the points that are left. -/
def partition (eps : K) (d : Nat → K) : List Nat → K → List Nat → K × List Nat × List Nat
  | [], dist, taken => (dist, taken, [])
  | i :: rest, dist, taken =>
    if eps < d i then
      if dist < d i then partition eps d rest (d i) (i :: taken) else partition eps d rest dist (taken ++ [i])
    else
      let r := partition eps d rest dist taken
      (r.1, r.2.1, i :: r.2.2)

/-- quickhull.hpp 511-517 `rank`. -/
def State.rank (eps : K) (s : State K) (orientation : K) (f : Nat) : State K :=
  if eps < orientation then { s with ranking := s.ranking ++ [(orientation, f)] } else s

/-- quickhull.hpp 519-527 `unrank`. -/
def State.unrank (s : State K) (f : Nat) : State K :=
  { s with ranking := s.ranking.filter fun e => decide (e.2 ≠ f), removed := f :: s.removed }

/-- quickhull.hpp 859, 890-892: `rank(partition(facet_), f)`. `dist vs i` is the distance of the point `i` from the plane of the vertices `vs`. -/
def State.settle (eps : K) (dist : (Fin 3 → Nat) → Nat → K) (s : State K) (f : Nat) : State K :=
  let r := partition eps (dist (s.facets f).vertices) s.outside 0 []
  (({ s with outside := r.2.2 } : State K).put f { s.facets f with outside := r.2.1 }).rank eps r.1 f

/-- quickhull.hpp 854-861: the four facets of the simplex. -/
def simplexState (eps : K) (dist : (Fin 3 → Nat) → Nat → K) (simplex : Fin 4 → Nat) (swap : Bool) (outside : List Nat) : State K :=
  let s := ([0, 1, 2, 3] : List (Fin 4)).foldl (fun s f =>
    (({ s with size := s.size + 1 } : State K).put f.val (simplexFacet simplex swap f)).settle eps dist f.val) (State.start outside)
  { s with outside := [] }

/-- quickhull.hpp 554-558 `get_best_facet`: the last of the entries with the largest key. -/
def best : List (K × Nat) → Option (K × Nat)
  | [] => none
  | e :: rest =>
    match best rest with
    | none => some e
    | some b => if b.1 < e.1 then some e else some b

/-- quickhull.hpp 560-572 `replace_neighbour`: the first occurrence. -/
def replaceFirst (n : Fin 3 → Nat) (old new : Nat) : Fin 3 → Nat :=
  if n 0 = old then Function.update n 0 new
  else if n 1 = old then Function.update n 1 new
  else if n 2 = old then Function.update n 2 new
  else n

/-- quickhull.hpp 560-572 `replace_neighbour`. -/
def State.replaceNeighbour (s : State K) (f old new : Nat) : State K :=
  if old = new then s else s.put f { s.facets f with neighbours := replaceFirst (s.facets f).neighbours old new }

/-- quickhull.hpp 580-601, `operator ==` of two ridges given by the vertices of their facets and the vertex left out: every vertex of the first is one of the
second. -/
def sameRidge (a : Fin 3 → Nat) (v : Fin 3) (b : Fin 3 → Nat) (w : Fin 3) : Bool :=
  ([0, 1, 2] : List (Fin 3)).all fun i => decide (a i = a v) ||
    ([0, 1, 2] : List (Fin 3)).any fun j => decide (b j ≠ b w) && decide (a i = b j)

/-- quickhull.hpp 625-636, the loop body of `find_adjacent_facets`: the ridge of the facet `f` against its vertex `v` is matched with an equal one, or kept.
Equal ridges have equal hashes. -/
def State.matchRidge (s : State K) (f : Nat) (v : Fin 3) : State K :=
  match s.ridges.find? fun r => sameRidge (s.facets f).vertices v (s.facets r.1).vertices r.2 with
  | none => { s with ridges := s.ridges ++ [(f, v)] }
  | some r =>
    let s1 := s.put r.1 { s.facets r.1 with neighbours := Function.update (s.facets r.1).neighbours r.2 f }
    let s2 := s1.put f { s1.facets f with neighbours := Function.update (s1.facets f).neighbours v r.1 }
    { s2 with ridges := s.ridges.erase r }

/-- quickhull.hpp 615-637 `find_adjacent_facets`. -/
def State.findAdjacent (s : State K) (f : Nat) (skip : Fin 3) : State K :=
  ([0, 1, 2] : List (Fin 3)).foldl (fun s v => if v ≠ skip then s.matchRidge f v else s) s

/-- quickhull.hpp 485-503 `add_facet` with `make_facet` (148-160) and `reuse_facet` (188-200): the number of the new facet and the state; the facet `f` with its
vertex number `v` replaced by `apex`, and `neighbour` against it. -/
def State.addFacet (s : State K) (f : Nat) (v : Fin 3) (apex neighbour : Nat) : Nat × State K :=
  let vertices := Function.update (s.facets f).vertices v apex
  match s.removed with
  | [] => (s.size, ({ s with size := s.size + 1 } : State K).put s.size ⟨vertices, Function.update (fun _ => 0) v neighbour, []⟩)
  | n :: rest =>
    (n, ({ s with removed := rest } : State K).put n ⟨vertices, Function.update (s.facets n).neighbours v neighbour, (s.facets n).outside⟩)

/-- quickhull.hpp 663-667, the body of the loop of `process_visibles` if the neighbour is not visible. -/
def State.cone (s : State K) (f : Nat) (v : Fin 3) (apex neighbour : Nat) : State K :=
  let (n, s) := s.addFacet f v apex neighbour
  let s : State K := { s with fresh := s.fresh ++ [n] }
  (s.replaceNeighbour neighbour f n).findAdjacent n v

/-- quickhull.hpp 659-669: the loop over the neighbours of a visible facet; `rec` is the recursive call. -/
def edgeLoop (apex : Nat) (rec : Nat → State K → Option (Bool × State K)) (f : Nat) : List (Fin 3) → State K → Option (State K)
  | [], s => some s
  | v :: vs, s =>
    let n := (s.facets f).neighbours v
    match rec n s with
    | none => none
    | some (seen, s) => edgeLoop apex rec f vs (if seen then s else s.cone f v apex n)

/-- quickhull.hpp 644-672 `process_visibles`: whether the facet `f` is visible from the apex, and the state; `none` if the recursion is deeper than the first
argument. -/
def processVisibles (dist : (Fin 3 → Nat) → Nat → K) (apex : Nat) : Nat → Nat → State K → Option (Bool × State K)
  | 0, _, _ => none
  | fuel + 1, f, s =>
    if f ∈ s.visited then some (decide (f ∈ s.visible), s)
    else
      let s : State K := { s with visited := f :: s.visited }
      if ¬ 0 < dist (s.facets f).vertices apex then some (false, s)
      else
        let s : State K := { s with visible := f :: s.visible, outside := s.outside ++ (s.facets f).outside }
        let s := s.put f { s.facets f with outside := [] }
        match edgeLoop apex (processVisibles dist apex fuel) f [0, 1, 2] s with
        | none => none
        | some s => some (true, s.unrank f)

/-- quickhull.hpp 878-895, the body of the loop of `create_convex_hull`, for the facet `f` and the first of its points; `none` if an assertion fails. -/
def State.addPoint (eps : K) (dist : (Fin 3 → Nat) → Nat → K) (s : State K) (f apex : Nat) : Option (State K) :=
  let s := s.put f { s.facets f with outside := (s.facets f).outside.tail }
  match processVisibles dist apex (s.size + 1) f s with
  | none => none
  | some (false, _) => none
  | some (true, s) =>
    if s.ridges ≠ [] then none
    else
      let s := s.fresh.foldl (State.settle eps dist) { s with visited := [], visible := [] }
      some { s with fresh := [], outside := [] }

/-- quickhull.hpp 877-897, the loop of `create_convex_hull`; `none` if it runs longer than the first argument, or if an assertion fails. -/
def hullLoop (eps : K) (dist : (Fin 3 → Nat) → Nat → K) : Nat → State K → Option (State K)
  | 0, _ => none
  | fuel + 1, s =>
    match best s.ranking with
    | none => some s
    | some (_, f) =>
      match (s.facets f).outside with
      | [] => none
      | apex :: _ =>
        match s.addPoint eps dist f apex with
        | none => none
        | some s => hullLoop eps dist fuel s

/-- quickhull.hpp 674-701 `compactify`: the last facet moves to the place of a removed one, for the removed ones in falling order. The neighbours, which
nothing reads afterwards, are left as they are. -/
def compactify : List Nat → State K → State K
  | [], s => s
  | d :: ds, s => compactify ds (({ s with size := s.size - 1 } : State K).put d (s.facets (s.size - 1)))

/-- quickhull.hpp 703-725 `check_local_convexity` of the facet `f`; `plane` gives the normal and `D` for the vertices of a facet. -/
def localConvex (eps : K) (P : Nat → Vec3 K) (plane : (Fin 3 → Nat) → Vec3 K × K) (s : State K) (f : Nat) : Bool :=
  ([0, 1, 2] : List (Fin 3)).all fun k =>
    let n := (s.facets f).neighbours k
    let here := plane (s.facets f).vertices
    if here.1.dot (plane (s.facets n).vertices).1 < 1 then
      match ([0, 1, 2] : List (Fin 3)).find? fun v => decide ((s.facets n).neighbours v = f) with
      | none => true
      | some v => !decide (eps < here.2 + here.1.dot (P ((s.facets n).vertices v)))
    else true

/-- quickhull.hpp 904-1043 `check`, with the point `inner` of 817-830; `none` if the ray from `inner` through the centre of the first facet runs towards another
facet, where lines 962-1040 would look for the intersection. -/
def check (eps : K) (P : Nat → Vec3 K) (plane : (Fin 3 → Nat) → Vec3 K × K) (inner : Vec3 K) (s : State K) : Option Bool :=
  let dist := fun f => (plane (s.facets f).vertices).2 + (plane (s.facets f).vertices).1.dot inner
  let v := (s.facets 0).vertices
  let ray := (P (v 0) + P (v 1) + P (v 2)).sdiv 3 - inner
  if ¬ (List.range s.size).all (localConvex eps P plane s) then some false
  else if ¬ dist 0 < 0 then some false
  else if ¬ 0 < ray.dot (plane v).1 then some false
  else
    (List.range' 1 (s.size - 1)).foldr (fun f rest =>
      if ¬ dist f < 0 then some false
      else if 0 < ray.dot (plane (s.facets f).vertices).1 then none
      else rest) (some true)

/-- quickhull.hpp 1094-1105 in `convex_hull3d` with 807-865 `create_initial_simplex` and 868-900 `create_convex_hull`, after `get_affine_basis` found four points: the
facets' vertices, or `none` if an assertion fails. `flag` is the value of `lower_dimensional_hull_`, which no constructor sets; if the volume of the simplex is
below `eps` it is set and there are no facets. -/
def facetsOf (sqrt : K → K) (eps : K) (P : Nat → Vec3 K) (flag : Bool) (b0 b1 b2 b3 : Nat) (outside : List Nat) : Option (List (List Nat)) :=
  let plane := fun (vs : Fin 3 → Nat) => hyperplane sqrt eps (P (vs 0)) (P (vs 1)) (P (vs 2))
  let dist := fun (vs : Fin 3 → Nat) i => planeDistance sqrt eps (P (vs 0)) (P (vs 1)) (P (vs 2)) (P i)
  let volume := hypervolume eps (P b0) (P b1) (P b2) (P b3)
  if |volume| < eps then some []
  else
    let s := simplexState eps dist ![b0, b1, b2, b3] (decide (volume < 0)) outside
    let list := fun (s : State K) => (List.range s.size).map fun f => [(s.facets f).vertices 0, (s.facets f).vertices 1, (s.facets f).vertices 2]
    match check eps P plane ((P b3 + P b0 + P b1 + P b2).sdiv 4) s with
    | some true =>
      if flag then some (list s)
      else
        match hullLoop eps dist (outside.length + 1) s with
        | none => none
        | some s =>
          if 3 < s.size - s.removed.length then some (list (compactify (s.removed.insertionSort (· ≥ ·)) s)) else none
    | _ => none

/-- quickhull.hpp 1058-1106 in `convex_hull3d`: what the class answers for a list of points; `eps` is the machine epsilon (cm_limits.h). -/
def quickHull (sqrt : K → K) (flag : Bool) : QuickHull K where
  basis pts := (affineBasis sqrt (1 / 2 ^ 52) (fun i => pts.getD i ⟨0, 0, 0⟩) (List.range pts.length)).1
  facets pts :=
    let P := fun i => pts.getD i ⟨0, 0, 0⟩
    match affineBasis sqrt (1 / 2 ^ 52) P (List.range pts.length) with
    | ([b0, b1, b2, b3], outside) => (facetsOf sqrt (1 / 2 ^ 52) P flag b0 b1 b2 b3 outside).getD []
    | _ => []

end Cmm.Quick
