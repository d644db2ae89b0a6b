import Verif.Model.Knots
/-!
Model of cmmcore/integrate.h: adaptive Simpson integration and the inverse of an integral by Newton's method, over numbers of an ordered
type `K` with any arithmetic (exact or rounded; every value finite).
-/
namespace Cmm.Num
open Cmm.Nurbs (absA)
variable {K : Type} [Arith K] [LinearOrder K]

/-- What a call accumulates: `result`, `error`, the points where `fun` was called (in order), and the accepted intervals
(bookkeeping only, never read by the algorithm). -/
structure Quad (K : Type) where
  result : K
  error : K
  calls : List K
  leaves : List (K × K)

/-- integrate.h 24-49 `adaptiveSimpson`. -/
def adaptiveSimpson (f : K → K) (a b fa fb fm S tol : K) (acc : Quad K) (depth maxDepth : Nat) : Quad K :=
  let m := 1 / 2 * (a + b)
  let h := b - a
  let m1 := 1 / 2 * (a + m)
  let m2 := 1 / 2 * (m + b)
  let f1 := f m1
  let f2 := f m2
  let sLeft := (h / 12) * (fa + 4 * f1 + fm)
  let sRight := (h / 12) * (fm + 4 * f2 + fb)
  let total := sLeft + sRight
  let estimate := (total - S) / 15
  let acc1 : Quad K := { acc with calls := acc.calls ++ [m1, m2] }
  if _h : maxDepth ≤ depth ∨ absA estimate < tol then
    { acc1 with result := acc1.result + total, error := acc1.error + absA estimate, leaves := acc1.leaves ++ [(a, b)] }
  else
    adaptiveSimpson f m b fm fb f2 sRight (tol / 2)
      (adaptiveSimpson f a m fa fm f1 sLeft (tol / 2) acc1 (depth + 1) maxDepth) (depth + 1) maxDepth
termination_by maxDepth - depth

/-- integrate.h 51-64 `integrate`. -/
def integrate (f : K → K) (t0 t1 tol : K) (maxDepth : Nat) : Quad K :=
  let fa := f t0
  let fb := f t1
  let m := 1 / 2 * (t0 + t1)
  let fm := f m
  let h := t1 - t0
  let S := (h / 6) * (fa + 4 * fm + fb)
  adaptiveSimpson f t0 t1 fa fb fm S tol ⟨0, 0, [t0, t1, m], []⟩ 0 maxDepth

/-- How `find_t1_newton` ends. -/
inductive NewtonEnd (K : Type) where
  /-- Returned `NAN`: the integrand is too small. -/
  | nan
  /-- Returned after two iterates closer than the tolerance. -/
  | converged (t : K)
  /-- Returned after the last iteration, with a warning. -/
  | exhausted (t : K)
  deriving DecidableEq

/-- integrate.h 83-101, the loop of `find_t1_newton`, with the remaining iterations; `depth` is the depth handed to
`integrate` (the same `max_iter`). -/
def newtonFrom (t0 I : K) (f : K → K) (tol : K) (depth : Nat) : Nat → K → NewtonEnd K
  | 0, t => .exhausted t
  | k + 1, t =>
    let g := (integrate f t0 t tol depth).result - I
    let g' := f t
    if absA g' < 1 / ((10 ^ 10 : Nat) : K) then .nan
    else
      let tNew := t - g / g'
      if absA (tNew - t) < tol then .converged tNew else newtonFrom t0 I f tol depth k tNew

/-- integrate.h 66-103 `find_t1_newton`. -/
def findT1 (t0 I : K) (f : K → K) (guess tol : K) (maxIter : Nat) : NewtonEnd K := newtonFrom t0 I f tol maxIter maxIter guess

end Cmm.Num
