import Verif.Model.Knots
import Verif.Model.AABB
import Verif.Model.Arith
/-!
Model of B-spline evaluation and knot insertion (cmmcore/nurbs_utils.h) and of `NURBSCurve` (cmmcore/nurbs.h) over an
arbitrary ordered field `K`.
-/
namespace Cmm.Nurbs
variable {K : Type}

/-- nurbs_utils.h 30-35: `CMMCORE_MAX_DEGREE`; the work arrays have `maxDegree + 1` entries. -/
def maxDegree : Nat := 8

section rounded
variable [Arith K]

/-- nurbs_utils.h 102-106, the inner loop of `basis_funs` over `r`, on the rest of the array `N[r..]`; `left[k] = u -
U[i+1-k]`, `right[k] = U[i+k] - u` (lines 98-99). The final `N[j] = saved` (line 107) is the end of the recursion. -/
def basisInner (U : Nat → K) (i : Nat) (u : K) (j : Nat) : Nat → K → List K → List K
  | _, saved, [] => [saved]
  | r, saved, nr :: rest =>
    let temp := nr / ((U (i + (r + 1)) - u) + (u - U (i + 1 - (j - r))))
    (saved + (U (i + (r + 1)) - u) * temp) :: basisInner U i u j (r + 1) ((u - U (i + 1 - (j - r))) * temp) rest

/-- nurbs_utils.h 97-108, the outer loop of `basis_funs`: `N[0..j]` after step `j`. -/
def basisFuns (i : Nat) (u : K) (U : Nat → K) : Nat → List K
  | 0 => [1]
  | j + 1 => basisInner U i u (j + 1) 0 0 (basisFuns i u U j)

/-- nurbs_utils.h 134-141, the loop of `curve_point`: running `sum_of_weights` and `result`; `k` is the index
`span - p + i`. -/
def curveAcc (P : Nat → Vec4 K) : List K → Nat → K → Vec3 K → K × Vec3 K
  | [], _, sw, res => (sw, res)
  | n :: ns, k, sw, res =>
    let b := n * (P k).w
    curveAcc P ns (k + 1) (sw + b) ⟨res.x + b * (P k).x, res.y + b * (P k).y, res.z + b * (P k).z⟩

/-- nurbs_utils.h 122-147 `curve_point` (the span is an argument here). -/
def curvePointAt (span p : Nat) (U : Nat → K) (P : Nat → Vec4 K) (u : K) : Vec3 K :=
  let a := curveAcc P (basisFuns span u U p) (span - p) 0 0
  a.2.sdiv a.1

/-- nurbs_utils.h 122-147 `curve_point`. -/
def curvePoint [LE K] [DecidableLE K] (n p : Nat) (U : Nat → K) (P : Nat → Vec4 K) (u : K) : Vec3 K :=
  curvePointAt (findSpan n p u U) p U P u
end rounded

section basis
variable [Arith K]

/-- nurbs_utils.h 605-608 `knot_insertion_alpha`. -/
def knotInsertionAlpha (u : K) (U : Nat → K) (span idx leg : Nat) : K :=
  (u - U (leg + idx)) / (U (idx + span + 1) - U (leg + idx))

/-- Assignment `a[i] = v` to an array given by its accessor. -/
def upd {V : Type} (a : Nat → V) (i : Nat) (v : V) : Nat → V := fun j => if j = i then v else a j

/-- nurbs_utils.h 680 `temp[i + 1] * alpha + temp[i] * (1 - alpha)` on `vec4`. -/
def lerp4 (alpha : K) (a b : Vec4 K) : Vec4 K := a.smul alpha + b.smul (1 - alpha)

/-- nurbs_utils.h 678-681, the inner loop of `knot_insertion` over `i`, `count` more rounds. `lerp` is the combination of
line 680. -/
def insInner {V : Type} (lerp : K → V → V → V) (alpha : Nat → K) : Nat → Nat → (Nat → V) → (Nat → V)
  | 0, _, temp => temp
  | count + 1, i, temp => insInner lerp alpha count (i + 1) (upd temp i (lerp (alpha i) (temp (i + 1)) (temp i)))

/-- nurbs_utils.h 676-684, the loop of `knot_insertion` over `j`: the pair `(temp, ctrlpts_new)` after `j` rounds. -/
def insOuter {V : Type} (lerp : K → V → V → V) (degree : Nat) (U : Nat → K) (u : K) (num s span : Nat)
    (temp new : Nat → V) : Nat → (Nat → V) × (Nat → V)
  | 0 => (temp, new)
  | j' + 1 =>
    let st := insOuter lerp degree U u num s span temp new j'
    let j := j' + 1
    let L := span - degree + j
    let temp' := insInner lerp (fun i => knotInsertionAlpha u U span i L) (degree - j - s + 1) 0 st.1
    (temp', upd (upd st.2 L (temp' 0)) (span + num - j - s) (temp' (degree - j - s)))

/-- nurbs_utils.h 687-690, the last loop of `knot_insertion`: `count` more rounds from index `i`. -/
def insFinal {V : Type} (temp : Nat → V) (L : Nat) : Nat → Nat → (Nat → V) → (Nat → V)
  | 0, _, new => new
  | count + 1, i, new => insFinal temp L count (i + 1) (upd new i (temp (i - L)))

/-- nurbs_utils.h 665-690, the array part of `knot_insertion`. `init` is what the output vector holds after
`resize`. -/
def insArray {V : Type} (lerp : K → V → V → V) (degree : Nat) (U : Nat → K) (P : Nat → V) (u : K) (num s span : Nat)
    (init : Nat → V) : Nat → V :=
  let new0 := fun i => if i < span - degree + 1 then P i else init i
  let new1 := fun i => if span - s + num ≤ i then P (i - num) else new0 i
  let temp := fun i => P (span - degree + i)
  let st := insOuter lerp degree U u num s span temp new1 num
  let L := span - degree + num
  insFinal st.1 L (span - s - (L + 1)) (L + 1) st.2

/-- nurbs_utils.h 655-692 `knot_insertion`: `degree - j - s` is unsigned, so `num + s > degree` makes the inner loop run
out of the work array; the other guards are the bounds of the copied ranges (the last one read is `span - s`). (The code also
survives `num = 0` with `s > degree`; that case is reported as undefined here.) The guard on `maxDegree` is the fixed-size work array (nurbs_utils.h 19-24, 670-674;
`VLA_SUPPORTED` is 0). `init` is the previous contents of the output. -/
def knotInsertion (degree : Nat) (U : Nat → K) (ctrlpts : List (Vec4 K)) (u : K) (num s span : Nat)
    (init : Nat → Vec4 K) : Res (List (Vec4 K)) :=
  if degree < num + s ∨ span < degree ∨ ctrlpts.length + s ≤ span ∨ maxDegree < degree then .ub
  else .ok ((List.range (ctrlpts.length + num)).map (insArray lerp4 degree U (ix ctrlpts) u num s span init))
end basis

/-- nurbs.h 50-65, 518-526 `NURBSCurve`: control points, degree, knots, `_periodic` and `_interval`. The cached hull
and box are left out: nothing modelled here reads them. A negative degree is not modelled. -/
structure Curve (K : Type) where
  cpts : List (Vec4 K)
  degree : Nat
  knots : List K
  periodic : Bool
  lo : K
  hi : K
  deriving DecidableEq

section curve
variable [Field K] [LinearOrder K]

/-- nurbs.h 175-178 `update_interval`. -/
def Curve.updateInterval {K : Type} [LT K] [DecidableLT K] (c : Curve K) : Res (Curve K) := do
  let lo ← minElement c.knots
  let hi ← maxElement c.knots
  .ok { c with lo, hi }

/-- nurbs.h 198-208 `generate_knots` on the object. -/
def Curve.generateKnots (c : Curve K) : Res (Curve K) := do
  let k ← Nurbs.generateKnots c.cpts.length c.degree
  ({ c with knots := k } : Curve K).updateInterval

/-- nurbs.h 232-240 `generate_knots_periodic` on the object. -/
def Curve.generateKnotsPeriodic (c : Curve K) : Res (Curve K) :=
  ({ c with knots := Nurbs.generateKnotsPeriodic c.cpts.length c.degree } : Curve K).updateInterval

/-- nurbs.h 164-170, the double loop of `is_periodic` from index `j`, `fuel` more rounds. -/
def isPeriodicFrom (cpts : List (Vec4 K)) (degree : Nat) : Nat → Nat → Res Bool
  | 0, _ => .ok true
  | fuel + 1, j =>
    if cpts.length < degree then .ub
    else if ix cpts j ≠ ix cpts (cpts.length - degree + j) then .ok false
    else isPeriodicFrom cpts degree fuel (j + 1)

/-- nurbs.h 163-172 `is_periodic`: compares the first `degree` control points with the last ones, all four coordinates.
With fewer control points than the degree the index wraps around, which is undefined. -/
def Curve.isPeriodic (c : Curve K) : Res Bool := isPeriodicFrom c.cpts c.degree c.degree 0

/-- nurbs.h 211-229 `make_periodic`. -/
def Curve.makePeriodic (c : Curve K) : Res (Curve K) := do
  let b ← c.isPeriodic
  if b then .ok c
  else
    let c' ← ({ c with cpts := c.cpts ++ c.cpts.take c.degree } : Curve K).generateKnotsPeriodic
    .ok { c' with periodic := true }

/-- nurbs.h 107-118 the constructor from control points, degree and flag (the box it rebuilds needs a control point). -/
def Curve.make (cpts : List (Vec4 K)) (degree : Nat) (periodic : Bool) : Res (Curve K) := do
  let c : Curve K := ⟨cpts, degree, [], periodic, 0, 1⟩
  let c ← if periodic then c.generateKnotsPeriodic else c.generateKnots
  let c ← if periodic then c.makePeriodic else .ok c
  if cpts.isEmpty then .ub else .ok c

/-- nurbs.h 120-125 the constructor from control points, degree, knots and flag. -/
def Curve.ofKnots {K : Type} [Arith K] [LT K] [DecidableLT K] (cpts : List (Vec4 K)) (degree : Nat) (knots : List K) (periodic : Bool) : Res (Curve K) := do
  let c ← (⟨cpts, degree, knots, periodic, 0, 1⟩ : Curve K).updateInterval
  if cpts.isEmpty then .ub else .ok c

/-- nurbs.h 186-195 `normalize_knots` on the object. -/
def Curve.normalizeKnots {K : Type} [Arith K] [LT K] [DecidableLT K] (c : Curve K) : Res (Curve K) := do
  let k ← Nurbs.normalizeKnots c.knots
  ({ c with knots := k } : Curve K).updateInterval

/-- nurbs.h 319-325 `evaluate`. Undefined behaviour: a degree above 8 overruns the work arrays, and the spans read the
knots up to `span + degree` and the control points up to `span`. -/
def Curve.evaluate {K : Type} [Arith K] [LE K] [DecidableLE K] (c : Curve K) (t : K) : Res (Vec3 K) :=
  let span := findSpan (c.cpts.length - 1) c.degree t (ix c.knots)
  if maxDegree < c.degree ∨ c.cpts.length ≤ span ∨ c.knots.length ≤ span + c.degree ∨
    c.knots.length < c.cpts.length then .ub
  else .ok (curvePoint (c.cpts.length - 1) c.degree (ix c.knots) (ix c.cpts) t)

/-- nurbs.h 243-265 `insert_knot`. The junk written to the front of the control points before `knot_insertion` is the
`init` argument: nurbs.h 256-258 `control_points[i] = cpts.back() - i`. `count ≥ 0` only. The guard is the range of knots
`find_span` and, for `count > 0`, `knot_insertion_alpha` read (up to `span + degree - s`). -/
def Curve.insertKnot {K : Type} [Arith K] [LT K] [DecidableLT K] [LE K] [DecidableLE K] [Max K] (c : Curve K) (t : K) (count : Nat) : Res (Curve K) := do
  let span := findSpan (c.cpts.length - 1) c.degree t (ix c.knots)
  let kv := knotInsertionKv c.knots t span count
  let s := findMultiplicity t c.knots
  let junk : Nat → Vec4 K := fun i =>
    if i ≤ count then ix c.cpts (c.cpts.length - 1) - ⟨(i : K), (i : K), (i : K), (i : K)⟩ else ix c.cpts i
  if (0 < count ∧ c.knots.length + s ≤ span + c.degree) ∨ c.knots.length < c.cpts.length then .ub
  else
  let cp ← knotInsertion c.degree (ix c.knots) c.cpts t count s span junk
  ({ c with cpts := cp, knots := kv } : Curve K).updateInterval

/-- nurbs.h 270, 1e-12: how close to the ends `split` refuses a parameter. -/
def splitTol {K : Type} [Arith K] : K := 1 / ((10 ^ 12 : Nat) : K)

/-- nurbs.h 268-316 `split(param, normalize)`. A multiplicity above the degree gives a negative insertion count in the
code (reported as undefined here). -/
def Curve.split {K : Type} [Arith K] [LT K] [DecidableLT K] [LE K] [DecidableLE K] [Max K] (c : Curve K) (param : K)
    (normalize : Bool) : Res (Curve K × Curve K) :=
  if param ≤ c.lo ∨ c.hi ≤ param ∨ absA (param - c.lo) ≤ splitTol ∨ absA (param - c.hi) ≤ splitTol then .throws
  else do
    let ks := findSpan c.cpts.length c.degree param (ix c.knots) - c.degree + 1
    let s := findMultiplicity param c.knots
    if c.degree < s then .ub
    else
      let r := c.degree - s
      let t0 ← Curve.ofKnots c.cpts c.degree c.knots c.periodic
      let t ← t0.insertKnot param r
      let knotSpan := findSpan t.cpts.length c.degree param (ix t.knots) + 1
      let kv1 := t.knots.take knotSpan ++ [param]
      let kv2 := List.replicate (c.degree + 1) param ++ t.knots.drop knotSpan
      let c1 ← Curve.ofKnots (t.cpts.take (ks + r)) c.degree kv1 false
      let c2 ← Curve.ofKnots (t.cpts.drop (ks + r - 1)) c.degree kv2 false
      if normalize then do
        let n1 ← c1.normalizeKnots
        let n2 ← c2.normalizeKnots
        .ok (n1, n2)
      else .ok (c1, c2)

/-- nurbs.h 528-539 `rebuildAABB` / `bbox`: the box of the control points divided by their weights. -/
def Curve.bbox {K : Type} [Div K] [Min K] [Max K] (c : Curve K) : Res (AABB K) :=
  match c.cpts with
  | [] => .ub
  | p :: ps => .ok ((p :: ps).foldl (fun b q => b.expand q.toVec3) ⟨p.toVec3, p.toVec3⟩)
end curve

end Cmm.Nurbs
