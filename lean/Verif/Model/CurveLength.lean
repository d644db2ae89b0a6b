import Verif.Model.Derivative
import Verif.Model.Integrate
/-! Model of the arc length members of `NURBSCurve` (cmmcore/nurbs.h 340-378). -/
namespace Cmm.Nurbs
variable {K : Type} [Field K] [LinearOrder K]

/-- nurbs.h 345-349, the integrand: the length of the derivative (vec.h 411-419; `sqrt` is a parameter). -/
def Curve.speed (sqrt : K → K) (c : Curve K) (t : K) : Res K := do
  let d ← c.derivative t
  .ok (sqrt d.sqLength)

/-- The integrand as a total function; the value 0 is only used where the call itself does not return. -/
def Curve.speedD (sqrt : K → K) (c : Curve K) (t : K) : K :=
  match c.speed sqrt t with
  | .ok x => x
  | _ => 0

/-- The outcome of calling the integrand at the given points in order: the first call that does not return decides. -/
def Curve.callAll (sqrt : K → K) (c : Curve K) : List K → Res Unit
  | [] => .ok ()
  | t :: ts => do
    let _ ← c.speed sqrt t
    c.callAll sqrt ts

/-- nurbs.h 340-355 `length(t0, t1, tol)`: `integrate` of the speed with its default depth 20. -/
def Curve.length (sqrt : K → K) (c : Curve K) (t0 t1 tol : K) : Res K := do
  let q := Num.integrate (c.speedD sqrt) t0 t1 tol 20
  let _ ← c.callAll sqrt q.calls
  .ok q.result

/-- nurbs.h 26 `CMMCORE_NURBS_INTEGRATION_TOL`. -/
def lengthTol : K := 1 / 10 ^ 3

/-- nurbs.h 357-359 `length(t, tol)`: from the start of the interval. -/
def Curve.lengthTo (sqrt : K → K) (c : Curve K) (t tol : K) : Res K := c.length sqrt c.lo t tol

/-- nurbs.h 361-363 `length()`. -/
def Curve.fullLength (sqrt : K → K) (c : Curve K) : Res K := c.length sqrt c.lo c.hi lengthTol

/-- nurbs.h 365-374 `lengthAt(l, t0, initial_guess, tol)`: `find_t1_newton` with 20 iterations. The first call of the integrand is
at `t0`; if it does not return, neither does this. (For knots that do not fit the control points later calls could be undefined
although the first one is not; that is not modelled.) -/
def Curve.lengthAt (sqrt : K → K) (c : Curve K) (l t0 guess tol : K) : Res (Num.NewtonEnd K) := do
  let _ ← c.speed sqrt t0
  .ok (Num.findT1 t0 l (c.speedD sqrt) guess tol 20)

/-- nurbs.h 376-378 `lengthAt(l, tol)`. -/
def Curve.lengthAtDefault (sqrt : K → K) (c : Curve K) (l tol : K) : Res (Num.NewtonEnd K) :=
  c.lengthAt sqrt l c.lo ((c.lo + c.hi) * (1 / 2)) tol

end Cmm.Nurbs
