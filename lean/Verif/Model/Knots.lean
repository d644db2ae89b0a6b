import Verif.Model.Vec
import Verif.Model.Arith
/-!
Model of the knot-vector code of cmmcore/nurbs_utils.h and cmmcore/nurbs.h over an arbitrary ordered field `K`
(exact arithmetic instead of `double`).

A `std::vector<double>` that is only read is represented by its accessor `U : Nat → K`; a vector that is built or
resized is a `List`, read with `ix`.
-/
namespace Cmm.Nurbs
variable {K : Type}

/-- `v[i]` on a `std::vector`; an index past the end gives 0 here. Callers whose index can leave the vector check the
bound explicitly and answer `Res.ub`. -/
def ix {α : Type} [Zero α] (l : List α) (i : Nat) : α := l.getD i 0

section order
variable [LE K] [DecidableLE K]

/-- nurbs_utils.h 68-71, the `while` loop of `find_span`: `stop` is `control_points_count`. -/
def scanSpan (U : Nat → K) (u : K) (stop span : Nat) : Nat :=
  if span < stop ∧ U span ≤ u then scanSpan U u stop (span + 1) else span
  termination_by stop - span

/-- nurbs_utils.h 63-76 `find_span` (the flag `is_periodic` is ignored by the code). `int` is modelled by `Nat`:
negative `n` and `degree` are not modelled. -/
def findSpan (n degree : Nat) (u : K) (U : Nat → K) : Nat := scanSpan U u (n + 1) (degree + 1) - 1
end order

/-- nurbs_utils.h 714-725 `knot_insertion_kv`: `r` times `insert(begin()+span+1, u)`. -/
def knotInsertionKv (knots : List K) (u : K) (span : Nat) : Nat → List K
  | 0 => knots
  | r + 1 => (knotInsertionKv knots u span r).insertIdx (span + 1) u

/-- `std::min_element(...)[0]`, nurbs.h 176: undefined for an empty vector. -/
def minElement [LT K] [DecidableLT K] : List K → Res K
  | [] => .ub
  | a :: l => .ok (l.foldl (fun m x => if x < m then x else m) a)

/-- `std::max_element(...)[0]`, nurbs.h 177: undefined for an empty vector. -/
def maxElement [LT K] [DecidableLT K] : List K → Res K
  | [] => .ub
  | a :: l => .ok (l.foldl (fun m x => if m < x then x else m) a)

/-- nurbs_utils.h 1074-1082, the loop of `uniqueKnots`: `seen` is the hash set, `out` the output vector, to which new
values are appended. -/
def uniqueKnotsLoop [DecidableEq K] : List K → List K → List K → List K
  | [], _, out => out
  | k :: ks, seen, out => if k ∈ seen then uniqueKnotsLoop ks seen out else uniqueKnotsLoop ks (k :: seen) (out ++ [k])

/-- nurbs_utils.h 1074-1082 `uniqueKnots(knots, out)`: returns the new contents of `out`. -/
def uniqueKnots [DecidableEq K] (knots out : List K) : List K := uniqueKnotsLoop knots [] out

/-- nurbs_utils.h 589, the tolerance of `find_multiplicity`. -/
def multTol [Arith K] : K := 1 / ((10 ^ 12 : Nat) : K)

/-- `std::abs`. -/
def absA [Arith K] [Max K] (x : K) : K := max x (-x)

/-- nurbs_utils.h 584-593 `find_multiplicity`. -/
def findMultiplicity [Arith K] [Max K] [LE K] [DecidableLE K] (knot : K) : List K → Nat
  | [] => 0
  | kv :: rest => (if absA (knot - kv) ≤ multTol then 1 else 0) + findMultiplicity knot rest

section arith
variable [Field K] [LinearOrder K]

/-- nurbs_utils.h 1059, the tolerance of `getKnotMultiplicities`. -/
def knotTol : K := 1 / 10 ^ 8

/-- nurbs_utils.h 1058-1069, the loop of `getKnotMultiplicities` with the current run `(last, count)`. -/
def multLoop : List K → K → Nat → List (K × Nat)
  | [], last, count => [(last, count)]
  | k :: ks, last, count =>
    if |k - last| < knotTol then multLoop ks last (count + 1) else (last, count) :: multLoop ks k 1

/-- nurbs_utils.h 1050-1070 `getKnotMultiplicities`: the two output vectors `unique_knots` and `multiplicities`, paired. -/
def getKnotMultiplicities : List K → List (K × Nat)
  | [] => []
  | k :: ks => multLoop ks k 1

/-- nurbs.h 198-208 `generate_knots` and nurbs.h 794-810 `generate_knots_u` / `generate_knots_v`: `n` control points,
degree `p`. With `n < p` the range given to `std::iota` is reversed, which is undefined. -/
def generateKnots {K : Type} [Arith K] (n p : Nat) : Res (List K) :=
  if n < p then .ub
  else .ok (List.replicate (p + 1) 0 ++ (List.range (n - p)).map (fun i : Nat => (i : K) + 1) ++
    List.replicate p ((n - p : Nat) : K))

/-- nurbs.h 232-240 `generate_knots_periodic`. -/
def generateKnotsPeriodic (n p : Nat) : List K := (List.range (n + p + 1)).map fun i : Nat => (i : K) - (p : K)

/-- nurbs.h 186-195 `normalize_knots`. -/
def normalizeKnots {K : Type} [Arith K] [LT K] [DecidableLT K] (knots : List K) : Res (List K) := do
  let start ← minElement knots
  let stop ← maxElement knots
  let d := 1 / (stop - start)
  .ok (knots.map fun k => (k - start) * d)

end arith
end Cmm.Nurbs
