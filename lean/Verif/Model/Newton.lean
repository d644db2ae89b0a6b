import Verif.Model.Vec
import Mathlib.Data.List.FinRange
/-!
Model of cmmcore/newthon2.h: finite differences, Cholesky solver, line search and Newton's method, for any dimension `N` and
over an arbitrary ordered field `K` (exact arithmetic). Function values can be non-finite.
-/
namespace Cmm.Newton
variable {K : Type} {N : Nat}

/-- A `double` as far as newthon2.h tells them apart: a finite number, an infinity or NaN. -/
inductive Val (K : Type) where
  | fin (x : K)
  | posInf
  | negInf
  | nan
  deriving DecidableEq, Repr

/-- `<=` on `double`: false if a side is NaN. -/
def Val.le [LE K] : Val K → Val K → Prop
  | .fin x, .fin y => x ≤ y
  | .nan, _ => False
  | _, .nan => False
  | .negInf, _ => True
  | _, .posInf => True
  | _, _ => False

instance [LE K] [DecidableLE K] (a b : Val K) : Decidable (a.le b) := by
  cases a <;> cases b <;> simp only [Val.le] <;> infer_instance

/-- `v + d` for a finite `d`. -/
def Val.addFin [Add K] : Val K → K → Val K
  | .fin x, d => .fin (x + d)
  | v, _ => v

/-- `std::array<double, N>`. -/
abbrev Vec (N : Nat) (K : Type) := Fin N → K

/-- `MatrixSq<N>`. -/
abbrev Sq (N : Nat) (K : Type) := Fin N → Fin N → K

section
variable [Field K] [LinearOrder K]

/-- newthon2.h 26-28 `dotProduct`. -/
def dotProduct (a b : Vec N K) : K := (List.finRange N).foldl (fun s i => s + a i * b i) 0

/-- newthon2.h 32-68 `computeGradient`, central differences; a component is 0 if a value is not finite. (`h` is never zero in
the calls; the messages are left out.) -/
def computeGradient (f : Vec N K → Val K) (point : Vec N K) (h : K) : Vec N K := fun i =>
  match f (Function.update point i (point i + h)), f (Function.update point i (point i - h)) with
  | .fin a, .fin b => (a - b) / (2 * h)
  | _, _ => 0

/-- newthon2.h 95-116: the values one step forward and backward along axis `i`, both replaced by `f0` if one of them is not
finite. -/
def forwardBackward (f : Vec N K → Val K) (point : Vec N K) (h f0 : K) (i : Fin N) : K × K :=
  match f (Function.update point i (point i + h)), f (Function.update point i (point i - h)) with
  | .fin a, .fin b => (a, b)
  | _, _ => (f0, f0)

/-- newthon2.h 124-152: the mixed second difference for the axes `i < j`; not finite if one of the four values is not
(reported as NaN: only finiteness is looked at). -/
def mixedDifference (f : Vec N K → Val K) (point : Vec N K) (h : K) (i j : Fin N) : Val K :=
  match f (Function.update (Function.update point i (point i + h)) j (point j + h)),
    f (Function.update (Function.update point i (point i + h)) j (point j - h)),
    f (Function.update (Function.update point i (point i - h)) j (point j + h)),
    f (Function.update (Function.update point i (point i - h)) j (point j - h)) with
  | .fin pp, .fin pm, .fin mp, .fin mm => .fin ((pp - pm - mp + mm) / (4 * h * h))
  | _, _, _, _ => .nan

/-- newthon2.h 71-155 `computeHessian`; 1e6 times the identity if the value at the point is not finite. -/
def computeHessian (f : Vec N K → Val K) (point : Vec N K) (h : K) : Fin N → Fin N → Val K := fun i j =>
  match f point with
  | .fin f0 =>
    if i = j then
      let fb := forwardBackward f point h f0 i
      .fin ((fb.1 - 2 * f0 + fb.2) / (h * h))
    else if i < j then mixedDifference f point h i j
    else mixedDifference f point h j i
  | _ => if i = j then .fin (10 ^ 6) else .fin 0

/-- Writing one entry of a matrix. -/
def setEntry (L : Sq N K) (i j : Fin N) (v : K) : Sq N K := Function.update L i (Function.update (L i) j v)

/-- newthon2.h 165-176, the body of the double loop of `choleskyDecomposition`; `none` is the return value false. -/
def cholEntry (sqrt : K → K) (H L : Sq N K) (i j : Fin N) : Option (Sq N K) :=
  let sum := ((List.finRange N).filter (· < j)).foldl (fun s k => s - L i k * L j k) (H i j)
  if i = j then
    if sum ≤ 0 then none else some (setEntry L i j (sqrt sum))
  else some (setEntry L i j (sum / L j j))

/-- The pairs `(i, j)` with `j <= i` in loop order. -/
def lowerPairs (N : Nat) : List (Fin N × Fin N) :=
  (List.finRange N).flatMap fun i => ((List.finRange N).filter (· ≤ i)).map fun j => (i, j)

/-- newthon2.h 159-180 `choleskyDecomposition`. -/
def choleskyDecomposition (sqrt : K → K) (H : Sq N K) : Option (Sq N K) :=
  (lowerPairs N).foldlM (fun L ij => cholEntry sqrt H L ij.1 ij.2) (fun _ _ => 0)

/-- newthon2.h 183-191 `forwardSubstitution`; `y0` is the content of the array before. -/
def forwardSubstitution (L : Sq N K) (b y0 : Vec N K) : Vec N K :=
  (List.finRange N).foldl (fun y i =>
    Function.update y i (((List.finRange N).filter (· < i)).foldl (fun s k => s - L i k * y k) (b i) / L i i)) y0

/-- newthon2.h 194-202 `backwardSubstitution`. -/
def backwardSubstitution (L : Sq N K) (y x0 : Vec N K) : Vec N K :=
  (List.finRange N).reverse.foldl (fun x i =>
    Function.update x i (((List.finRange N).filter (i < ·)).foldl (fun s k => s - L k i * x k) (y i) / L i i)) x0

/-- newthon2.h 205-217 `solveLinearSystem`: `none` is the return value false. -/
def solveLinearSystem (sqrt : K → K) (H : Sq N K) (b y0 x0 : Vec N K) : Option (Vec N K) :=
  match choleskyDecomposition sqrt H with
  | none => none
  | some L => some (backwardSubstitution L (forwardSubstitution L b y0) x0)

/-- newthon2.h 230-237, the loop of `lineSearch` from the current `alpha` on, at most `fuel` rounds (`none` if that is not
enough: the loop has no bound of its own). Arithmetic is exact except that a step length below `tiny` becomes 0, as in
`double`, so that the loop behaves as it does in the code when no step is accepted. -/
def lineSearchFrom (tiny : K) (f : Vec N K → Val K) (point direction : Vec N K) (gd rho c : K) : Nat → K → Option K
  | 0, _ => none
  | fuel + 1, alpha =>
    if (f fun i => point i + alpha * direction i).le ((f point).addFin (c * alpha * gd)) then some alpha
    else lineSearchFrom tiny f point direction gd rho c fuel (if alpha * rho < tiny then 0 else alpha * rho)

/-- newthon2.h 220-239 `lineSearch` with its default arguments. -/
def lineSearch (tiny : K) (f : Vec N K → Val K) (point direction grad : Vec N K) (fuel : Nat) : Option K :=
  lineSearchFrom tiny f point direction (dotProduct grad direction) (1 / 2) (1 / 10 ^ 4) fuel 1

/-- newthon2.h 286-297: tries the shifts `mu = 1e-6 * 10^k` up to 1e6 until the system can be solved (13 rounds in exact
arithmetic). The scratch arrays start as zeros here, they are overwritten entirely. -/
def solveShifted (sqrt : K → K) (H : Sq N K) (grad : Vec N K) : Option (Vec N K) :=
  (List.range 13).findSome? fun k =>
    solveLinearSystem sqrt (fun i j => if i = j then H i j + 10 ^ k / 10 ^ 6 else H i j) grad (fun _ => 0) (fun _ => 0)

/-- `std::isfinite`. -/
def Val.toFin? : Val K → Option K
  | .fin x => some x
  | _ => none

/-- newthon2.h 267-283: the Hessian if all its entries are finite. -/
def finiteHessian (H : Fin N → Fin N → Val K) : Option (Sq N K) :=
  if (List.finRange N).all fun i => (List.finRange N).all fun j => (H i j).toFin?.isSome then
    some fun i j => (H i j).toFin?.getD 0
  else none

/-- newthon2.h 316-324: whether the update counts as converged. -/
def converged (tol alpha : K) (step newPoint : Vec N K) : Bool :=
  (List.finRange N).all fun i => !decide (tol * max 1 |newPoint i| ≤ |alpha * step i|)

/-- newthon2.h 242-334 `newtonsMethod` with the default finite-difference steps: the returned point and the number of updates
made. `fuel` bounds the rounds of each line search, `none` means that one did not end within it. (The gradient is always
finite in exact arithmetic, lines 253-263 are dropped.) -/
def newtonsMethod (sqrt : K → K) (tiny : K) (f : Vec N K → Val K) (tol : K) (fuel : Nat) :
    Nat → Vec N K → Option (Vec N K × Nat)
  | 0, point => some (point, 0)
  | maxIter + 1, point =>
    let grad := computeGradient f point (1 / 10 ^ 7)
    match finiteHessian (computeHessian f point (1 / 10 ^ 5)) with
    | none => some (point, 0)
    | some H =>
      match solveShifted sqrt H grad with
      | none => some (point, 0)
      | some x =>
        let step : Vec N K := fun i => -x i
        match lineSearch tiny f point step grad fuel with
        | none => none
        | some alpha =>
          if alpha = 0 then some (point, 0)
          else
            let newPoint : Vec N K := fun i => point i + alpha * step i
            if converged tol alpha step newPoint then some (newPoint, 1)
            else (newtonsMethod sqrt tiny f tol fuel maxIter newPoint).map fun r => (r.1, r.2 + 1)

end

end Cmm.Newton
