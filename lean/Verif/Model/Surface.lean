import Verif.Model.Curve
/-!
Model of `surface_point` (cmmcore/nurbs_utils.h), of `NURBSSurface` (cmmcore/nurbs.h) and of the free functions
`extract_isocurve` / `extract_surface_boundaries` (cmmcore/boundary_intersection.h) over an arbitrary ordered field `K`.
-/
namespace Cmm.Nurbs
variable {K : Type}

/-- Runs `f` on the elements in order and stops at the first exception or undefined behaviour (a C++ loop filling a
vector). -/
def mapRes {α β : Type} (f : α → Res β) : List α → Res (List β)
  | [] => .ok []
  | a :: l => do
    let b ← f a
    let bs ← mapRes f l
    .ok (b :: bs)

/-- nurbs.h 1095-1102 `_interval[d][0]`, `_interval[d][1]`: the first and the last knot; undefined without knots. -/
def frontBack [Zero K] : List K → Res (K × K)
  | [] => .ub
  | k :: ks => .ok (k, ix (k :: ks) ks.length)

section point
variable [Arith K]

/-- The accumulation `acc += g(k) * n` over the basis values, on four coordinates: nurbs_utils.h 463-481 (inner loop over
`k`, with `temp[l][d] += Nu[k] * Pw[..][d]`), 485-489 (outer loop over `l`) and nurbs.h 1216-1218, 1249-1251. The code
multiplies coordinate by coordinate in either order. -/
def acc4 (g : Nat → Vec4 K) : List K → Nat → Vec4 K → Vec4 K
  | [], _, a => a
  | n :: ns, k, a => acc4 g ns (k + 1) (a + (g k).smul n)

/-- nurbs_utils.h 457-489, the homogeneous point `Sw` for given spans; `P i j` is `Pw[i][j]`. The periodicity flags are
always 0 in the calls (nurbs.h 813-814). -/
def surfaceSum (p q : Nat) (U V : Nat → K) (P : Nat → Nat → Vec4 K) (us vs : Nat) (u v : K) : Vec4 K :=
  acc4 (fun j => acc4 (fun i => P i j) (basisFuns us u U p) (us - p) 0) (basisFuns vs v V q) (vs - q) 0

/-- nurbs_utils.h 491-499: division by the weight. A zero weight fails the assertion (undefined without it). -/
def dehomog [DecidableEq K] (s : Vec4 K) : Res (Vec3 K) :=
  if s.w = 0 then .ub else .ok ⟨s.x / s.w, s.y / s.w, s.z / s.w⟩
end point

/-- nurbs.h 706-720, 1094-1103 `NURBSSurface`: control points `[u][v]`, degrees, `_size`, knots and `_interval`. The cached
boxes are left out. -/
structure Surface (K : Type) where
  cpts : List (List (Vec4 K))
  du : Nat
  dv : Nat
  su : Nat
  sv : Nat
  ku : List K
  kv : List K
  u0 : K
  u1 : K
  v0 : K
  v1 : K
  deriving DecidableEq

/-- `_control_points[i][j]`. -/
def cell [Zero K] (c : List (List (Vec4 K))) (i j : Nat) : Vec4 K := ix (c.getD i []) j

section surface
variable [Field K] [LinearOrder K]

/-- nurbs.h 1114-1119 `update_interval`. -/
def Surface.updateInterval {K : Type} [Zero K] (s : Surface K) : Res (Surface K) := do
  let iu ← frontBack s.ku
  let iv ← frontBack s.kv
  .ok { s with u0 := iu.1, u1 := iu.2, v0 := iv.1, v1 := iv.2 }

/-- nurbs.h 712-730 the constructor. Empty knot vectors are generated (794-810). -/
def Surface.make {K : Type} [Arith K] (cpts : List (List (Vec4 K))) (du dv : Nat) (ku kv : List K) : Res (Surface K) :=
  match cpts with
  | [] => .throws
  | [] :: _ => .throws
  | (a :: r) :: rest => do
    let su := ((a :: r) :: rest).length
    let sv := (a :: r).length
    let ku' ← if ku.isEmpty then Nurbs.generateKnots su du else .ok ku
    let kv' ← if kv.isEmpty then Nurbs.generateKnots sv dv else .ok kv
    (⟨(a :: r) :: rest, du, dv, su, sv, ku', kv', 0, 0, 0, 0⟩ : Surface K).updateInterval

/-- The control points cover the index range `[0, su) × [0, sv)` that `_size` promises. -/
def Surface.covered {K : Type} (s : Surface K) : Bool := decide (s.su ≤ s.cpts.length) && (s.cpts.take s.su).all fun r => decide (s.sv ≤ r.length)

/-- nurbs.h 812-815 `evaluate`. Undefined behaviour as for curves: degree above 8, or knots and control points that do not
cover what the spans read. (`_size` only enters through `find_span`; size 0 gives `n = -1` in the code, for which
`find_span` answers the degree, as it does here.) -/
def Surface.evaluate {K : Type} [Arith K] [LE K] [DecidableLE K] [DecidableEq K] (s : Surface K) (u v : K) : Res (Vec3 K) :=
  let us := findSpan (s.su - 1) s.du u (ix s.ku)
  let vs := findSpan (s.sv - 1) s.dv v (ix s.kv)
  if maxDegree < s.du ∨ maxDegree < s.dv ∨ s.cpts.length ≤ us ∨
    ((s.cpts.drop (us - s.du)).take (s.du + 1)).any (fun r => decide (r.length ≤ vs)) ∨ s.ku.length ≤ us + s.du ∨
    s.ku.length < s.su ∨ s.kv.length ≤ vs + s.dv ∨ s.kv.length < s.sv then .ub
  else dehomog (surfaceSum s.du s.dv (ix s.ku) (ix s.kv) (cell s.cpts) us vs u v)

/-- nurbs.h 960-968 `control_points_flat`. -/
def Surface.flat {K : Type} [Zero K] (s : Surface K) : Res (List (Vec4 K)) :=
  if s.covered = false then .ub
  else .ok ((List.range s.su).flatMap fun i => (List.range s.sv).map fun j => cell s.cpts i j)

/-- nurbs.h 35-48 `flipControlPointsU`: undefined for an empty grid or rows shorter than the first. -/
def flipControlPoints {K : Type} [Zero K] (c : List (List (Vec4 K))) : Res (List (List (Vec4 K))) :=
  match c with
  | [] => .ub
  | r0 :: rest => mapRes (fun i => mapRes (fun row => if i < row.length then .ok (ix row i) else .ub) (r0 :: rest))
      (List.range r0.length)

/-- nurbs.h 843-867 `insert_knot` with `direction == 0` (and 873-875 `insert_knot_u`). `_interval` is left as it is. -/
def Surface.insertKnotU {K : Type} [Arith K] [LE K] [DecidableLE K] [Max K] (s : Surface K) (t : K) (count : Nat) : Res (Surface K) := do
  let m := findMultiplicity t s.ku
  let span := findSpan (s.cpts.length - 1) s.du t (ix s.ku)
  if (0 < count ∧ s.ku.length + m ≤ span + s.du) ∨ s.ku.length < s.cpts.length then .ub
  else
  let kv := knotInsertionKv s.ku t span count
  let flat ← s.flat
  let cols ← mapRes (fun v =>
    knotInsertion s.du (ix s.ku) ((List.range s.su).map fun u => ix flat (u * s.sv + v)) t count m span (fun _ => 0))
    (List.range s.sv)
  let c ← flipControlPoints cols
  .ok { s with cpts := c, su := s.su + count, ku := kv }

/-- nurbs.h 877-895 `insert_knot_v`. -/
def Surface.insertKnotV {K : Type} [Arith K] [LE K] [DecidableLE K] [Max K] (s : Surface K) (t : K) (count : Nat) : Res (Surface K) :=
  match s.cpts with
  | [] => .ub
  | r0 :: rest => do
    let span := findSpan (s.sv - 1) s.dv t (ix s.kv)
    let m := findMultiplicity t s.kv
    if (0 < count ∧ s.kv.length + m ≤ span + s.dv) ∨ s.kv.length < s.sv then .ub
    else
    let kv := knotInsertionKv s.kv t span count
    let c ← mapRes (fun row => knotInsertion s.dv (ix s.kv) row t count m span (fun _ => 0)) (r0 :: rest)
    ({ s with cpts := c, kv := kv, sv := r0.length + count } : Surface K).updateInterval

/-- nurbs.h 843-871 `insert_knot`: any direction other than 0 means v. -/
def Surface.insertKnot {K : Type} [Arith K] [LE K] [DecidableLE K] [Max K] (s : Surface K) (t : K) (direction : Int) (count : Nat) : Res (Surface K) :=
  if direction = 0 then s.insertKnotU t count else s.insertKnotV t count

/-- nurbs.h 897 the default tolerance of `split_surface_u` / `split_surface_v`. -/
def surfSplitTol {K : Type} [Arith K] : K := 1 / ((10 ^ 7 : Nat) : K)

/-- nurbs.h 897-928 `split_surface_u`. A multiplicity above the degree gives a negative count (reported as undefined). -/
def Surface.splitU {K : Type} [Arith K] [LE K] [DecidableLE K] [Max K] (s : Surface K) (param tol : K) : Res (Surface K × Surface K) :=
  if param ≤ s.u0 ∨ s.u1 ≤ param ∨ absA (param - s.u0) ≤ tol ∨ absA (param - s.u1) ≤ tol then .throws
  else do
    let ks := findSpan (s.su - 1) s.du param (ix s.ku) - s.du + 1
    let m := findMultiplicity param s.ku
    if s.du < m then .ub
    else
      let r := s.du - m
      let t ← s.insertKnotU param r
      let knotSpan := findSpan (t.su - 1) s.du param (ix t.ku) + 1
      let kv1 := t.ku.take knotSpan ++ [param]
      let kv2 := List.replicate (s.du + 1) param ++ t.ku.drop knotSpan
      let s1 ← Surface.make (t.cpts.take (ks + r)) s.du s.dv kv1 s.kv
      let s2 ← Surface.make (t.cpts.drop (ks + r - 1)) s.du s.dv kv2 s.kv
      .ok (s1, s2)

/-- nurbs.h 930-958 `split_surface_v`. -/
def Surface.splitV {K : Type} [Arith K] [LE K] [DecidableLE K] [Max K] (s : Surface K) (param tol : K) : Res (Surface K × Surface K) :=
  if param ≤ s.v0 ∨ s.v1 ≤ param ∨ absA (param - s.v0) ≤ tol ∨ absA (param - s.v1) ≤ tol then .throws
  else do
    let ks := findSpan (s.sv - 1) s.dv param (ix s.kv) - s.dv + 1
    let m := findMultiplicity param s.kv
    if s.dv < m then .ub
    else
      let r := s.dv - m
      let t ← s.insertKnotV param r
      if t.cpts.length < s.su then .ub
      else
      let knotSpan := findSpan (t.sv - 1) s.dv param (ix t.kv) + 1
      let kv1 := t.kv.take knotSpan ++ [param]
      let kv2 := List.replicate (s.dv + 1) param ++ t.kv.drop knotSpan
      let s1 ← Surface.make ((t.cpts.take s.su).map fun r' => r'.take (ks + r)) s.du s.dv s.ku kv1
      let s2 ← Surface.make ((t.cpts.take s.su).map fun r' => r'.drop (ks + r - 1)) s.du s.dv s.ku kv2
      .ok (s1, s2)

/-- nurbs.h 1027-1042 (and 1044-1062) `subdivide(umid, vmid)`: the order is s11, s12, s21, s22. -/
def Surface.subdivideAt {K : Type} [Arith K] [LE K] [DecidableLE K] [Max K] (s : Surface K) (umid vmid : K) :
    Res (Surface K × Surface K × Surface K × Surface K) := do
  let a ← s.splitU umid surfSplitTol
  let b ← a.1.splitV vmid surfSplitTol
  let c ← a.2.splitV vmid surfSplitTol
  .ok (b.1, b.2, c.1, c.2)

/-- nurbs.h 1009-1025 (and 1064-1074) `subdivide()`. -/
def Surface.subdivide {K : Type} [Arith K] [LE K] [DecidableLE K] [Max K] (s : Surface K) : Res (Surface K × Surface K × Surface K × Surface K) :=
  s.subdivideAt (1 / 2 * (s.u1 + s.u0)) (1 / 2 * (s.v1 + s.v0))

/-- nurbs.h 1080-1093 `bbox`. -/
def Surface.bbox (s : Surface K) : Res (AABB K) :=
  if s.covered = false ∨ s.su = 0 ∨ s.sv = 0 then .ub
  else .ok (((List.range s.su).flatMap fun i => (List.range s.sv).map fun j => (cell s.cpts i j).toVec3).foldl AABB.expand
    ⟨(cell s.cpts 0 0).toVec3, (cell s.cpts 0 0).toVec3⟩)

/-- nurbs.h 60-70 the constructor `NURBSCurve(cpt_size, degree)`: zero control points and generated knots. -/
def Curve.ofSize (m degree : Nat) : Res (Curve K) := do
  let c ← (⟨List.replicate m 0, degree, [], false, 0, 1⟩ : Curve K).generateKnots
  c.updateInterval

/-- nurbs.h 1182-1222 `extract_isocurve`, direction `U` (the u parameter is fixed). -/
def Surface.isocurveU (s : Surface K) (param : K) : Res (Curve K) :=
  if param < s.u0 ∨ s.u1 < param then .throws
  else do
    let span := findSpan (s.su - 1) s.du param (ix s.ku)
    if maxDegree < s.du ∨ s.covered = false ∨ s.su ≤ span ∨ s.ku.length ≤ span + s.du ∨ s.ku.length < s.su then .ub
    else
    let basis := basisFuns span param (ix s.ku) s.du
    let c ← Curve.ofSize s.sv s.dv
    ({ c with knots := s.kv,
              cpts := (List.range s.sv).map fun i => acc4 (fun j => cell s.cpts j i) basis (span - s.du) 0 } :
      Curve K).updateInterval

/-- nurbs.h 1223-1256 `extract_isocurve`, direction `V` (the v parameter is fixed). -/
def Surface.isocurveV (s : Surface K) (param : K) : Res (Curve K) :=
  if param < s.v0 ∨ s.v1 < param then .throws
  else do
    let span := findSpan (s.sv - 1) s.dv param (ix s.kv)
    if maxDegree < s.dv ∨ s.covered = false ∨ s.sv ≤ span ∨ s.kv.length ≤ span + s.dv ∨ s.kv.length < s.sv then .ub
    else
    let basis := basisFuns span param (ix s.kv) s.dv
    let c ← Curve.ofSize s.su s.du
    ({ c with knots := s.ku,
              cpts := (List.range s.su).map fun i => acc4 (fun j => cell s.cpts i j) basis (span - s.dv) 0 } :
      Curve K).updateInterval

/-- nurbs.h 1265-1276 `extract_surface_boundaries`: u_min, u_max, v_min, v_max. -/
def Surface.boundaries (s : Surface K) : Res (List (Curve K)) := do
  let a ← s.isocurveU s.u0
  let b ← s.isocurveU s.u1
  let c ← s.isocurveV s.v0
  let d ← s.isocurveV s.v1
  .ok [a, b, c, d]

/-- boundary_intersection.h 22-62, the free `extract_isocurve`, direction `U`: writes the surface knots over the generated
ones one by one (undefined if there are more of them). -/
def freeIsocurveU (s : Surface K) (param : K) : Res (Curve K) :=
  if param < s.u0 ∨ s.u1 < param then .throws
  else do
    let span := findSpan (s.su - 1) s.du param (ix s.ku)
    if maxDegree < s.du ∨ s.covered = false ∨ s.su ≤ span ∨ s.ku.length ≤ span + s.du ∨ s.ku.length < s.su then .ub
    else
    let basis := basisFuns span param (ix s.ku) s.du
    let c ← Curve.ofSize s.sv s.dv
    if c.knots.length < s.kv.length then .ub
    else
    ({ c with knots := s.kv ++ c.knots.drop s.kv.length,
              cpts := (List.range s.sv).map fun i => acc4 (fun j => cell s.cpts j i) basis (span - s.du) 0 } :
      Curve K).updateInterval

/-- boundary_intersection.h 63-101, the free `extract_isocurve`, direction `V`: the curve keeps the generated knots, the
surface's u knots are not copied. -/
def freeIsocurveV (s : Surface K) (param : K) : Res (Curve K) :=
  if param < s.v0 ∨ s.v1 < param then .throws
  else do
    let span := findSpan (s.sv - 1) s.dv param (ix s.kv)
    if maxDegree < s.dv ∨ s.covered = false ∨ s.sv ≤ span ∨ s.kv.length ≤ span + s.dv ∨ s.kv.length < s.sv then .ub
    else
    let basis := basisFuns span param (ix s.kv) s.dv
    let c ← Curve.ofSize s.su s.du
    .ok { c with cpts := (List.range s.su).map fun i => acc4 (fun j => cell s.cpts i j) basis (span - s.dv) 0 }

/-- nurbs.h 1121-1169 `get_derivative(direction)`: `none` in the code is the exception for other directions. `_size` and
`_interval` of the result are left at their defaults (zero). A zero denominator is a division by zero in `double`
(infinite factor): reported as undefined here. -/
def Surface.derivativeNet (s : Surface K) (direction : Int) : Res (Surface K) :=
  if direction ≠ 0 ∧ direction ≠ 1 then .throws
  else if s.covered = false ∨ s.su = 0 ∨ s.sv = 0 then .ub
  else if direction = 0 then
    if s.ku.length < s.su + s.du ∨ s.ku.length < 2 ∨ s.du = 0 ∨
      (List.range (s.su - 1)).any (fun i => decide (ix s.ku (i + s.du + 1) - ix s.ku (i + 1) = 0)) then .ub
    else .ok ⟨(List.range (s.su - 1)).map fun i => (List.range s.sv).map fun j =>
        (cell s.cpts (i + 1) j - cell s.cpts i j).smul ((s.du : K) / (ix s.ku (i + s.du + 1) - ix s.ku (i + 1))),
      s.du - 1, s.dv, 0, 0, s.ku.tail.dropLast, s.kv, 0, 0, 0, 0⟩
  else
    if s.kv.length < s.sv + s.dv ∨ s.kv.length < 2 ∨ s.dv = 0 ∨
      (List.range (s.sv - 1)).any (fun j => decide (ix s.kv (j + s.dv + 1) - ix s.kv (j + 1) = 0)) then .ub
    else .ok ⟨(List.range s.su).map fun i => (List.range (s.sv - 1)).map fun j =>
        (cell s.cpts i (j + 1) - cell s.cpts i j).smul ((s.dv : K) / (ix s.kv (j + s.dv + 1) - ix s.kv (j + 1))),
      s.du, s.dv - 1, 0, 0, s.ku, s.kv.tail.dropLast, 0, 0, 0, 0⟩

end surface
end Cmm.Nurbs
