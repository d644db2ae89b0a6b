import Verif.Model.Csx
import Verif.Model.GaussMap
import Verif.Model.Newton
import Verif.Model.CurveLength
import Verif.Model.SurfaceDerivative
import Mathlib.Data.Fin.VecNotation
/-!
Model of cmmcore/csx.h with the functions it calls filled in: Newton's method (newthon2.h), the degeneracy test, the separability test and the length of the curve.
-/
namespace Cmm.Csx
open Cmm.Nurbs Cmm.Ccx
variable {K : Type} [Field K] [LinearOrder K]

/-- csx.h 177-185 `equation`: the squared distance of the points at the parameters t, u, v. An evaluation that does not return a point counts as NaN. -/
def equation (c : Curve K) (s : Surface K) (x : Newton.Vec 3 K) : Newton.Val K :=
  match c.evaluate (x 0), s.evaluate (x 1) (x 2) with
  | .ok p, .ok q => .fin (p - q).sqLength
  | _, _ => .nan

/-- csx.h 187-189 `initial_guess`: the middle of the intervals. -/
def guess (c : Curve K) (s : Surface K) : Newton.Vec 3 K := ![(c.lo + c.hi) * (1 / 2), (s.u0 + s.u1) * (1 / 2), (s.v0 + s.v1) * (1 / 2)]

/-- csx.h 191: the call of `newtonsMethod<3>` with 15 iterations. A line search without end (`none`) is undefined behaviour. -/
def newtonCode (sqrt : K → K) (tiny ptol : K) (rounds : Nat) (c : Curve K) (s : Surface K) : Res (Option (K × K × K)) :=
  match Newton.newtonsMethod sqrt tiny (equation c s) ptol rounds 15 (guess c s) with
  | none => .ub
  | some r => .ok (some (r.1 0, r.1 1, r.1 2))

/-- csx.h 213-219 `_is_degenerate`. -/
def degenerateCode (sqrt : K → K) (tolerance : K) (p : K × K × K) (c : Curve K) (s : Surface K) : Res Bool := do
  let tangent ← c.derivative p.1
  let normal ← s.normal sqrt p.2.1 p.2.2
  .ok (decide (|tangent.dot normal| < tolerance))

/-- csx.h 45-226: the functions the search calls, for the given tolerances. -/
def codeEnv (env : Gauss.Env K) (tiny : K) (rounds : Nat) (tolerance ptol : K) : Env K :=
  ⟨env.sqrt, newtonCode env.sqrt tiny ptol rounds, degenerateCode env.sqrt tolerance, Gauss.centralTest env⟩

/-- csx.h 229-236 (and 237-246) `csx`, with 222-226 `computePtol` (division by zero is not modelled). -/
def csxCode (env : Gauss.Env K) (tiny : K) (rounds fuel : Nat) (c : Curve K) (s : Surface K) (tol : K) : Option (Res (List (Hit K))) :=
  andThen (some (c.fullLength env.sqrt)) fun l => csx (codeEnv env tiny rounds tol (computePtol c l tol)) l fuel c s tol

end Cmm.Csx
