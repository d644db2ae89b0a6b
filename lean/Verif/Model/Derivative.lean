import Verif.Model.Curve
/-!
Model of the derivative code of curves: `ders_basis_funs`, `curve_derivs_alg1`, `get_nurbs_derivative`
(cmmcore/nurbs_utils.h) and the derivative members of `NURBSCurve` (cmmcore/nurbs.h).
-/
namespace Cmm.Nurbs
variable {K : Type}

section ders
variable [Field K]

/-- nurbs_utils.h 177-196, the table `ndu` after the first loops of `ders_basis_funs`. The entries on and above the diagonal
are the basis functions: column `b` is the array `N` of `basis_funs` after step `b` (the two loops are the same, so the model
shares them); the entries below the diagonal are the denominators `right[b + 1] + left[a - b]`. -/
def nduAt (U : Nat → K) (i : Nat) (u : K) (a b : Nat) : K :=
  if a ≤ b then (basisFuns i u U b).getD a 0 else (U (i + (b + 1)) - u) + (u - U (i + 1 - (a - b)))

/-- nurbs_utils.h 224-227, the loop of `ders_basis_funs` over `j`, `count` more rounds: the row `a[s2]` and `d`. -/
def dersInner (ndu : Nat → Nat → K) (p r k : Nat) (a1 : Nat → K) : Nat → Nat → (Nat → K) × K → (Nat → K) × K
  | 0, _, s => s
  | count + 1, j, s =>
    let v := (a1 j - a1 (j - 1)) / ndu (p - k + 1) (r + j - k)
    dersInner ndu p r k a1 count (j + 1) (upd s.1 j v, s.2 + v * ndu (r + j - k) (p - k))

/-- nurbs_utils.h 209-234, one round of the loop of `ders_basis_funs` over the order `k` (`1 ≤ k ≤ p`) for the function number
`r`: the new row `a[s2]` and the value `d`. `a1` is the row `a[s1]`, `a2` what `a[s2]` held before. -/
def dersStep (ndu : Nat → Nat → K) (p r k : Nat) (a1 a2 : Nat → K) : (Nat → K) × K :=
  let s0 : (Nat → K) × K :=
    if k ≤ r then (upd a2 0 (a1 0 / ndu (p - k + 1) (r - k)), a1 0 / ndu (p - k + 1) (r - k) * ndu (r - k) (p - k))
    else (upd a2 0 0, 0)
  let j1 := if k ≤ r + 1 then 1 else k - r
  let j2 := if r ≤ p - k + 1 then k - 1 else p - r
  let s1 := dersInner ndu p r k a1 (j2 + 1 - j1) j1 s0
  if r ≤ p - k then
    (upd s1.1 k (-(a1 (k - 1)) / ndu (p - k + 1) r), s1.2 + -(a1 (k - 1)) / ndu (p - k + 1) r * ndu r (p - k))
  else (upd s1.1 k 0, s1.2)

/-- nurbs_utils.h 208-240, the loop over the orders `k`, `count` more rounds: the values `d` and the two rows `a[s1]`,
`a[s2]` at the end (each round ends with a swap). -/
def dersOrders (ndu : Nat → Nat → K) (p r : Nat) : Nat → Nat → (Nat → K) → (Nat → K) → List K × (Nat → K) × (Nat → K)
  | 0, _, a1, a2 => ([], a1, a2)
  | count + 1, k, a1, a2 =>
    let s := dersStep ndu p r k a1 a2
    let rest := dersOrders ndu p r count (k + 1) s.1 a1
    (s.2 :: rest.1, rest.2)

/-- nurbs_utils.h 203-241, the loop over the functions `r`, `count` more rounds: for each function the list of the values
`d` of all orders. `A0`, `A1` are `a[0]`, `a[1]`, which keep their contents between the rounds. -/
def dersFuncs (ndu : Nat → Nat → K) (p n : Nat) : Nat → Nat → (Nat → K) → (Nat → K) → List (List K)
  | 0, _, _, _ => []
  | count + 1, r, A0, A1 =>
    let s := dersOrders ndu p r n 1 (upd A0 0 1) A1
    s.1 :: (if n % 2 = 0 then dersFuncs ndu p n count (r + 1) s.2.1 s.2.2 else dersFuncs ndu p n count (r + 1) s.2.2 s.2.1)

/-- nurbs_utils.h 244-250, the factor of row `k`: `p (p - 1) ⋯ (p - k + 1)`. -/
def dersFactor (p : Nat) : Nat → Nat
  | 0 => 1
  | k + 1 => dersFactor p k * (p - k)

/-- nurbs_utils.h 164-251 `ders_basis_funs` for `n ≤ p ≤ 3`: the rows `ders[0], …, ders[n]`. -/
def dersBasisFuns (i : Nat) (u : K) (p n : Nat) (U : Nat → K) : List (List K) :=
  let cols := dersFuncs (nduAt U i u) p n (p + 1) 0 (fun _ => 0) (fun _ => 0)
  basisFuns i u U p ::
    (List.range n).map fun k => cols.map fun c => c.getD k 0 * (dersFactor p (k + 1) : K)

/-- nurbs_utils.h 291-302, the loop of `curve_derivs_alg1` over `j` for one order: all four stored coordinates are summed,
without dividing by the weights. `idx` is `span - p + j`. -/
def derivAcc (P : Nat → Vec4 K) : List K → Nat → Vec4 K → Vec4 K
  | [], _, res => res
  | n :: ns, idx, res =>
    derivAcc P ns (idx + 1) ⟨res.x + n * (P idx).x, res.y + n * (P idx).y, res.z + n * (P idx).z, res.w + n * (P idx).w⟩
end ders

section curve
variable [Field K] [LinearOrder K]

/-- nurbs_utils.h 269-303 `curve_derivs_alg1`, called with the members of the curve. The rows of the table are `vec4`, whose
`operator[]` throws `invalid_argument` from index 4 on (vec.h 788-803), so a degree of 4 or more throws; before that the knots
up to `span + 4` are read. The periodic case reduces `idx` modulo the number of control points, which changes nothing because
`idx ≤ span`. -/
def Curve.derivs (c : Curve K) (t : K) (d : Nat) : Res (List (Vec4 K)) :=
  let span := findSpan (c.cpts.length - 1) c.degree t (ix c.knots)
  if c.knots.length < c.cpts.length ∨ c.knots.length ≤ span + min c.degree 4 then .ub
  else if 4 ≤ c.degree then .throws
  else if c.cpts.length ≤ span then .ub
  else .ok ((dersBasisFuns span t c.degree (min d c.degree) (ix c.knots)).map fun row =>
    derivAcc (ix c.cpts) row (span - c.degree) ⟨0, 0, 0, 0⟩)

/-- nurbs.h 327-337 `derivative(t, result)`: reads `CK[1]`, which a curve of degree 0 does not have. -/
def Curve.derivative (c : Curve K) (t : K) : Res (Vec3 K) := do
  let ck ← c.derivs t 1
  match ck[1]? with
  | none => .ub
  | some q => .ok ⟨q.x, q.y, q.z⟩

/-- nurbs.h 380-397 `derivative(t, result, d)` (399-401 is the case `d = result.size()`): entries `CK[0], …, CK[d-1]`; there are
only `min(d, degree) + 1` of them. -/
def Curve.derivativeList (c : Curve K) (t : K) (d : Nat) : Res (List (Vec3 K)) := do
  let ck ← c.derivs t d
  if ck.length < d then .ub else .ok ((ck.take d).map fun q => ⟨q.x, q.y, q.z⟩)

/-- nurbs_utils.h 1028-1045, one control point of `get_nurbs_derivative`. -/
def hodographPoint (degree : Nat) (U : Nat → K) (P : Nat → Vec4 K) (i : Nat) : Vec4 K :=
  let p1 := P i
  let p2 := P (i + 1)
  let denominator := (U (i + degree + 1) - U (i + 1)) * (p1.w + p2.w)
  let w := (p1.w * p2.w) / (p1.w + p2.w)
  ⟨(p2.x * p2.w - p1.x * p1.w) / denominator * (degree : K) / w, (p2.y * p2.w - p1.y * p1.w) / denominator * (degree : K) / w,
   (p2.z * p2.w - p1.z * p1.w) / denominator * (degree : K) / w, 1⟩

/-- nurbs.h 450-457 `get_derivative()` with nurbs_utils.h 1011-1046 `get_nurbs_derivative`. The default constructed result is
not periodic. Too few knots or no control points are undefined behaviour; degree 0 (a negative degree of the result) is not
modelled. -/
def Curve.getDerivative (c : Curve K) : Res (Curve K) :=
  if c.cpts.length = 0 ∨ c.knots.length < 2 ∨ c.knots.length < c.cpts.length + c.degree ∨ c.degree = 0 then .ub
  else (⟨(List.range (c.cpts.length - 1)).map (hodographPoint c.degree (ix c.knots) (ix c.cpts)), c.degree - 1,
    (c.knots.drop 1).take (c.knots.length - 2), false, 0, 1⟩ : Curve K).updateInterval

/-- nurbs.h 402, 412: the step `1e-5` of the finite differences. -/
def fdStep : K := 1 / 10 ^ 5

/-- nurbs.h 411-417 `derivative_fdm`: central difference. -/
def Curve.derivativeFdm (c : Curve K) (t : K) : Res (Vec3 K) := do
  let temp ← c.evaluate (t - fdStep)
  let r ← c.evaluate (t + fdStep)
  .ok ((r - temp).sdiv (2 / 10 ^ 5))

/-- nurbs.h 424-430 `second_derivative_fdm`: the same first difference as `derivative_fdm`. -/
def Curve.secondDerivativeFdm (c : Curve K) (t : K) : Res (Vec3 K) := do
  let temp ← c.evaluate (t - fdStep)
  let r ← c.evaluate (t + fdStep)
  .ok ((r - temp).sdiv (2 / 10 ^ 5))

/-- nurbs.h 399-409 `derivatives(t, d0, d1, d2)`. -/
def Curve.derivatives (c : Curve K) (t : K) : Res (Vec3 K × Vec3 K × Vec3 K) := do
  let d0 ← c.evaluate t
  let temp ← c.evaluate (t - fdStep)
  let d2 ← c.evaluate (t + fdStep)
  .ok (d0, (d2 - temp).sdiv (2 / 10 ^ 5), (d2 - d0.smul 2 + temp).sdiv (1 / 10 ^ 10))

end curve
end Cmm.Nurbs
