import Verif.Model.Matrix
import Verif.Model.Vec
import Mathlib.Algebra.Order.Group.Abs
/-!
Model of the parameter step of cmmcore/ssx.h and of cmmcore/point_inversion.h over an ordered field `K`.
-/
namespace Cmm.Ssx
open Cmm.Mat
variable {K : Type} [Field K] [LinearOrder K]

/-- ssx.h 43-51 one pass of the selection loop: `best` is the best determinant so far and the matrix it belongs to (`none` for `n == -1`). -/
def pick (best : K × Option Nat) (m : M2 K × Nat) : K × Option Nat :=
  if best.1 < m.1.det then (m.1.det, some m.2) else best

/-- ssx.h 34-62 the rest of `improve_uv`, for any three matrices and right-hand sides. `tiny` is `std::numeric_limits<double>::min()` and `eps` is
`CMMCORE_NUMERIC_EPSILON_DOUBLE`; `none` is the return value false. -/
def chooseAndSolve (tiny eps : K) (mats : List (M2 K)) (ys : List (K × K)) : Option (K × K) :=
  let best := mats.zipIdx.foldl pick (tiny, none)
  match best.2 with
  | none => none
  | some n =>
    if |best.1| ≤ eps then none
    else match mats[n]?, ys[n]? with
      | some m, some y => some ((y.1 * m.d - m.b * y.2) / best.1, (m.a * y.2 - y.1 * m.c) / best.1)
      | _, _ => none

/-- ssx.h 38-42: the right-hand sides. -/
def rhs (delta : Vec3 K) : List (K × K) := [(delta.x, delta.y), (delta.x, delta.z), (delta.y, delta.z)]

/-- ssx.h 17-63 `improve_uv`. The three matrices are built from nested braces. -/
def improveUv (tiny eps : K) (du dv delta : Vec3 K) : Option (K × K) :=
  chooseAndSolve tiny eps
    [M2.ofBraces [[du.x, dv.x], [du.y, dv.y]], M2.ofBraces [[du.x, dv.x], [du.z, dv.z]], M2.ofBraces [[du.y, dv.y], [du.z, dv.z]]] (rhs delta)

/-- point_inversion.h 18-29 `solve2x2` on arrays; `none` is the return value false. -/
def solveArr (eps : K) (m : M2 K) (y : K × K) : Option (K × K) :=
  let det := m.a * m.d - m.b * m.c
  if |det| < eps then none else some ((y.1 * m.d - m.b * y.2) / det, (m.a * y.2 - y.1 * m.c) / det)

/-- The evaluation functions `point_inversion_surface` calls. -/
structure SurfFns (K : Type) where
  pt : K → K → Res (Vec3 K)
  du : K → K → Res (Vec3 K)
  dv : K → K → Res (Vec3 K)

/-- The evaluation functions `point_inversion_curve` calls. -/
structure CurveFns (K : Type) where
  pt : K → Res (Vec3 K)
  d1 : K → Res (Vec3 K)
  d2 : K → Res (Vec3 K)

/-- `a / b ≤ c` for doubles: a quotient by zero is infinite or not a number, and the comparison is false (the tolerance is finite). -/
def divLe (a b c : K) : Bool := if b = 0 then false else decide (a / b ≤ c)

/-- point_inversion.h 122-177 the loop of `point_inversion_surface`. -/
def invertSurf (sqrt : K → K) (eps : K) (F : SurfFns K) (P : Vec3 K) (tol1 tol2 : K) : Nat → K × K → Res (K × K)
  | 0, uv => .ok uv
  | n + 1, uv => do
    let s ← F.pt uv.1 uv.2
    let du ← F.du uv.1 uv.2
    let dv ← F.dv uv.1 uv.2
    match solveArr eps ⟨du.dot du, du.dot dv, dv.dot du, dv.dot dv⟩ (du.dot (s - P), dv.dot (s - P)) with
    | none => .throws
    | some delta =>
      let uv1 := (uv.1 - delta.1, uv.2 - delta.2)
      if (uv1.1 - uv.1) * sqrt du.sqLength + (uv1.2 - uv.2) * sqrt dv.sqLength ≤ tol1 then .ok uv
      else do
        let s1 ← F.pt uv1.1 uv1.2
        if sqrt (s1 - P).sqLength ≤ tol1 then .ok uv
        else do
          let du1 ← F.du uv1.1 uv1.2
          if divLe |du1.dot (s1 - P)| (sqrt du1.sqLength * sqrt (s1 - P).sqLength) tol2 then .ok uv
          else invertSurf sqrt eps F P tol1 tol2 n uv1

/-- point_inversion.h 55-96 the loop of `point_inversion_curve`, with the point and derivatives held on entry to an iteration. -/
def invertCurveLoop (sqrt : K → K) (eps : K) (F : CurveFns K) (P : Vec3 K) (tol1 tol2 : K) : Nat → K → Vec3 K → Vec3 K → Vec3 K → Res K
  | 0, u, _, _, _ => .ok u
  | n + 1, u, c, c1, c2 =>
    let fi := c1.dot (c - P)
    let fpi := c2.dot (c - P) + c1.dot c1
    if |fpi| < eps then .ok u
    else
      let u1 := u - fi / fpi
      if |u1 - u| * sqrt c1.sqLength ≤ tol1 then .ok u
      else do
        let p ← F.pt u1
        if sqrt (p - P).sqLength ≤ tol1 then .ok u
        else do
          let d ← F.d1 u1
          if divLe |d.dot (p - P)| (sqrt d.sqLength * sqrt (p - P).sqLength) tol2 then .ok u
          else do
            let d' ← F.d2 u1
            invertCurveLoop sqrt eps F P tol1 tol2 n u1 p d d'

/-- point_inversion.h 42-97 `point_inversion_curve`. -/
def invertCurve (sqrt : K → K) (eps : K) (F : CurveFns K) (P : Vec3 K) (u0 tol1 tol2 : K) (maxIter : Nat) : Res K := do
  let c ← F.pt u0
  let c1 ← F.d1 u0
  let c2 ← F.d2 u0
  invertCurveLoop sqrt eps F P tol1 tol2 maxIter u0 c c1 c2

/-- ssx.h 65-83 `improve_uv_robust`: the improved parameters are overwritten by the point inversion. The result is the final value of `uv_new`. -/
def improveUvRobust (sqrt : K → K) (tiny eps : K) (F : SurfFns K) (uvOld : K × K) (du dv xyzOld xyzNew : Vec3 K) (tol : K) (maxIter : Nat) :
    Res (K × K) :=
  let _unused := (improveUv tiny eps du dv (xyzNew - xyzOld)).map fun r => (r.1 + uvOld.1, r.2 + uvOld.2)
  invertSurf sqrt eps F xyzNew tol tol maxIter uvOld

end Cmm.Ssx
