import Verif.Model.GaussMap
import Verif.Model.SurfaceCross
/-!
Model of functions of cmmcore that write into an object of the caller which may already hold data: the output is one more argument. (`Model/Monomial` and
`Model/GaussMap` are the same functions on new objects.)
-/
namespace Cmm.Reuse
open Cmm.Mat Cmm.Mono Cmm.Nurbs Cmm.Gauss
variable {K : Type} [Field K] [LinearOrder K]

/-- monomial.h 34 `CMMCORE_RESIZE_TENSOR2D(var, n, m, vec3, 0, 0, 0)`: rows that exist keep their content and their length. -/
def resizeTensor (t : Tensor K) (n m : Nat) : Tensor K := t.take n ++ List.replicate (n - t.length) (List.replicate m 0)

/-- The first `m` cells of every row assigned: undefined if a row is shorter, and a longer row keeps its tail. -/
def writeRows (f : Nat → Nat → Vec3 K) (m : Nat) (rows : Tensor K) : Res (Tensor K) :=
  if rows.all fun r => decide (m ≤ r.length) then .ok (rows.mapIdx fun i r => (List.range m).map (f i) ++ r.drop m) else .ub

/-- monomial.h 63-99 `compute_partial_derivative(coeffs, variable, result)`. -/
def partialDerivativeInto (c : Tensor K) (v : Param) (out : Tensor K) : Res (Tensor K) :=
  match c with
  | [] => .ub
  | r0 :: rest =>
    match v with
    | .U =>
      if rest.all fun r => decide (r0.length ≤ r.length) then
        writeRows (fun i j => (tcell (r0 :: rest) (i + 1) j).smul ((i + 1 : Nat) : K)) r0.length
          (resizeTensor out ((r0 :: rest).length - 1) r0.length)
      else .ub
    | .V =>
      if r0.length = 0 then .throws
      else if rest.all fun r => decide (r0.length ≤ r.length) then
        writeRows (fun i j => (tcell (r0 :: rest) i (j + 1)).smul ((j + 1 : Nat) : K)) (r0.length - 1)
          (resizeTensor out (r0 :: rest).length (r0.length - 1))
      else .ub

/-- monomial.h 124-129 `result[i][j] += p`: undefined outside the tensor. -/
def addCell? (t : Tensor K) (i j : Nat) (p : Vec3 K) : Res (Tensor K) :=
  match t[i]? with
  | none => .ub
  | some row => if j < row.length then .ok (addCell t i j p) else .ub

/-- monomial.h 101-135 `cross(a_coeffs, b_coeffs, result)`. -/
def crossInto (a b out : Tensor K) : Res (Tensor K) :=
  match a, b with
  | a0 :: as, b0 :: bs =>
    if as.all (fun r => decide (a0.length ≤ r.length)) && bs.all (fun r => decide (b0.length ≤ r.length)) then
      if a0.length + b0.length = 0 then .throws
      else
      let n1 := (a0 :: as).length
      let n2 := (b0 :: bs).length
      let idx := (List.range n1).flatMap fun i1 => (List.range a0.length).flatMap fun j1 =>
        (List.range n2).flatMap fun i2 => (List.range b0.length).map fun j2 => (i1, j1, i2, j2)
      idx.foldlM (fun t q => addCell? t (q.1 + q.2.2.1) (q.2.1 + q.2.2.2)
        ((tcell (a0 :: as) q.1 q.2.1).cross (tcell (b0 :: bs) q.2.2.1 q.2.2.2))) (resizeTensor out (n1 + n2 - 1) (a0.length + b0.length - 1))
    else .ub
  | _, _ => .ub

/-- monomial.h 51-61 `setVectorTensor2DComponent` for one row: as many cells as the row has are read from the matrix, undefined behind its data. -/
def setRow (x y z : MatrixD K) (i : Nat) (row : List (Vec4 K)) : Res (List (Vec4 K)) :=
  if row.length = 0 ∨ i * x.cols + row.length ≤ x.data.length ∧ i * y.cols + row.length ≤ y.data.length ∧ i * z.cols + row.length ≤ z.data.length then
    .ok (row.mapIdx fun j p => ⟨x.get i j, y.get i j, z.get i j, p.w⟩)
  else .ub

/-- monomial.h 51-61 for all rows, from row `i` on: the weights stay. -/
def setRows (x y z : MatrixD K) : Nat → List (List (Vec4 K)) → Res (List (List (Vec4 K)))
  | _, [] => .ok []
  | i, row :: rows => do
    let r ← setRow x y z i row
    let rs ← setRows x y z (i + 1) rows
    .ok (r :: rs)

/-- monomial.h 202-232 `to_bezier(surf)`. -/
def toBezierInto (q : Monomial K) (surf : Surface K) : Res (Surface K) := do
  let T ← q.MvInv.transpose
  let r ← sandwich q.MuInv q.coefficients T
  let rows ← setRows r.1 r.2.1 r.2.2 0 (resizeRows surf.cpts q.n q.m)
  if q.n = 0 ∨ q.m = 0 then .ub
  else
  let ku ← Nurbs.generateKnots q.n (q.n - 1)
  let kv ← Nurbs.generateKnots q.m (q.m - 1)
  ({ surf with cpts := rows, du := q.n - 1, dv := q.m - 1, su := q.n, sv := q.m, ku := ku, kv := kv } : Surface K).updateInterval

/-- gauss_map.h 67-81 `build(srf)` of an existing object: `pts` and `pts_inv` are replaced, the surface is written by `to_bezier`. -/
def buildInto (old : Map K) (s : Surface K) : Res (Map K) := do
  let mono ← Monomial.ofSurface s
  let normal ← mono.normal
  let surf ← toBezierInto normal old.surf
  let pts ← Csx.surfacePoints surf
  .ok { old with pts := pts, ptsInv := inverted pts, surf := surf }

/-- nurbs.h 1121-1162 `get_derivative(direction, result)`: `_size` and `_interval` of the result are not assigned. -/
def derivativeNetInto (s : Surface K) (direction : Int) (out : Surface K) : Res (Surface K) := do
  let r ← s.derivativeNet direction
  .ok { out with cpts := r.cpts, du := r.du, dv := r.dv, ku := r.ku, kv := r.kv }

end Cmm.Reuse
