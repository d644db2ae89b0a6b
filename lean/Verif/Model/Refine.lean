import Verif.Model.Curve
/-!
Model of `knot_refinement` of cmmcore/nurbs_utils.h. The vectors `new_ctrlpts` and `new_kv` are written in place, so they are functions here; their sizes
are `n + r_val + 2` and `m + r_val + 2`, and accesses past these ends are checked where they can happen.
-/
namespace Cmm.Nurbs
variable {K : Type} [Field K] [LinearOrder K]

/-- `std::set<double>::insert` on the increasing list of its members. -/
def setInsert (x : K) : List K → List K
  | [] => [x]
  | y :: l => if x < y then x :: y :: l else if y < x then y :: setInsert x l else y :: l

/-- nurbs_utils.h 865-866: sorted, without duplicates. -/
def sortedSet (l : List K) : List K := l.foldl (fun s x => setInsert x s) []

/-- nurbs_utils.h 870-876, one round of the density refinement on a vector that is not empty. -/
def halveOnce : List K → List K
  | [] => []
  | [x] => [x]
  | x :: y :: l => x :: (x + (y - x) / 2) :: halveOnce (y :: l)

/-- nurbs_utils.h 869-877. With an empty vector `size() - 1` wraps around and `back()` is undefined. -/
def halveTimes : Nat → List K → Res (List K)
  | 0, l => .ok l
  | d + 1, l => if l.isEmpty then .ub else halveTimes d (halveOnce l)

/-- nurbs_utils.h 855-877: the parameters at which the curve is refined. `density` is a natural number; all values up to 1 behave the same. -/
def refineParams (degree : Nat) (knots knotList addList : List K) (density : Nat) : Res (List K) :=
  if knotList.isEmpty ∧ knots.length < 2 * degree then .ub
  else
    let base := if knotList.isEmpty then (knots.take (knots.length - degree)).drop degree else knotList
    halveTimes (density - 1) (sortedSet (base ++ addList))

/-- nurbs_utils.h 880-887: the knots `X` to insert. -/
def knotsToInsert (degree : Nat) (knots params : List K) : List K :=
  params.flatMap fun mk => List.replicate (degree - findMultiplicity mk knots) mk

/-- The variables of the loop in nurbs_utils.h 914-942. -/
structure RefState (K : Type) where
  i : Nat
  k : Nat
  P : Nat → Vec4 K
  kv : Nat → K

/-- nurbs_utils.h 919-924, the inner `while` loop for `X[j] = x`. -/
def refShift (degree : Nat) (knots : List K) (cpts : List (Vec4 K)) (a : Nat) (x : K) (i k : Nat) (P : Nat → Vec4 K) (kv : Nat → K) : RefState K :=
  if x ≤ ix knots i ∧ a < i then
    refShift degree knots cpts a x (i - 1) (k - 1) (upd P (k - degree - 1) (ix cpts (i - degree - 1))) (upd kv k (ix knots i))
  else ⟨i, k, P, kv⟩
  termination_by i

/-- nurbs_utils.h 929, the tolerance. -/
def refineTol : K := 1 / 10 ^ 8

/-- nurbs_utils.h 926-938, the rounds of the `for` loop from `l` on, `count` of them. -/
def refBlend (degree : Nat) (knots : List K) (x : K) (i k : Nat) (kv : Nat → K) : Nat → Nat → (Nat → Vec4 K) → (Nat → Vec4 K)
  | 0, _, P => P
  | count + 1, l, P =>
    let idx := k - degree + l
    let alpha := kv (k + l) - x
    let v := if |alpha| < refineTol then P idx
      else lerp4 (alpha / (kv (k + l) - ix knots (i - degree + l))) (P (idx - 1)) (P idx)
    refBlend degree knots x i k kv count (l + 1) (upd P (idx - 1) v)

/-- nurbs_utils.h 918-942, the outer `while` loop: the list holds `X[j], X[j-1], ..., X[0]`, `size` is the size of `new_ctrlpts`. -/
def refLoop (degree : Nat) (knots : List K) (cpts : List (Vec4 K)) (a size : Nat) : List K → RefState K → Res (RefState K)
  | [], s => .ok s
  | x :: rest, s =>
    let s1 := refShift degree knots cpts a x s.i s.k s.P s.kv
    if size ≤ s1.k then .ub
    else
      let P1 := upd s1.P (s1.k - degree - 1) (s1.P (s1.k - degree))
      let P2 := refBlend degree knots x s1.i s1.k s1.kv degree 1 P1
      refLoop degree knots cpts a size rest ⟨s1.i, s1.k - 1, P2, upd s1.kv s1.k x⟩

/-- nurbs_utils.h 845-945 `knot_refinement`: the new control points and the new knots. A knot vector that is too short for the control points is read past
its end. -/
def knotRefinement (degree : Nat) (knots : List K) (cpts : List (Vec4 K)) (knotList addList : List K) (density : Nat) : Res (List (Vec4 K) × List K) :=
  if cpts.isEmpty then .ub
  else do
    let n := cpts.length - 1
    let m := n + degree + 1
    let params ← refineParams degree knots knotList addList density
    match knotsToInsert degree knots params with
    | [] => .throws
    | x0 :: X =>
      if knots.length ≤ m then .ub
      else do
        let r := X.length
        let a := findSpan n degree x0 (ix knots)
        let b := findSpan n degree ((x0 :: X).getLastD x0) (ix knots) + 1
        let P0 : Nat → Vec4 K := fun j => if b + r ≤ j ∧ j ≤ n + r + 1 then ix cpts (j - (r + 1)) else if j ≤ a - degree then ix cpts j else 0
        let kv0 : Nat → K := fun j => if b + degree + r + 1 ≤ j ∧ j ≤ m + r + 1 then ix knots (j - (r + 1)) else if j ≤ a then ix knots j else 0
        let s ← refLoop degree knots cpts a (n + r + 2) (x0 :: X).reverse ⟨b + degree - 1, b + degree + r, P0, kv0⟩
        .ok ((List.range (n + r + 2)).map s.P, (List.range (m + r + 2)).map s.kv)

end Cmm.Nurbs
