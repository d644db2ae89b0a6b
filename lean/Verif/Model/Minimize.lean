import Verif.Model.Vec
import Verif.Model.Knots
/-!
Model of cmmcore/minimize_scalar.h: `minimize_scalar_bounded`. Arguments are numbers of an ordered type `K` with any arithmetic (exact or rounded);
function values are numbers or NaN (`none`).
-/
namespace Cmm.Num
open Cmm.Nurbs (absA)
variable {K : Type} [Arith K] [LinearOrder K]

/-- The library functions used: `std::sqrt` and `std::copysign(1.0, ·)`. The sign of a zero depends on how the zero arose, so the
second one may also depend on the number of function calls so far. -/
structure MinLib (K : Type) where
  sqrt : K → K
  sgn : Nat → K → K

/-- The local variables of `minimize_scalar_bounded` (`x` is kept in `seen` only), with the list of function calls and their
values, latest first. -/
structure MinState (K : Type) where
  a : K
  b : K
  fulc : K
  nfc : K
  xf : K
  rat : K
  e : K
  fx : Option K
  fu : Option K
  ffulc : Option K
  fnfc : Option K
  xm : K
  tol1 : K
  tol2 : K
  num : Nat
  seen : List (K × Option K)

/-- `<=` on values that may be NaN. -/
def leOpt : Option K → Option K → Bool
  | some a, some b => decide (a ≤ b)
  | _, _ => false

/-- minimize_scalar.h 61: `sqrt_eps`. -/
def sqrtEps (L : MinLib K) : K := L.sqrt (22 / ((10 ^ 17 : Nat) : K))

/-- minimize_scalar.h 62: `golden_mean`. -/
def goldenMean (L : MinLib K) : K := 1 / 2 * (3 - L.sqrt 5)

/-- minimize_scalar.h 64-78, the state before the loop. `fu` starts as infinity; only `isnan(fu)` is asked of this value. -/
def minInit (L : MinLib K) (f : K → Option K) (x1 x2 xatol : K) : MinState K :=
  let fulc := x1 + goldenMean L * (x2 - x1)
  let fx := f fulc
  let tol1 := sqrtEps L * absA fulc + xatol / 3
  ⟨x1, x2, fulc, fulc, fulc, 0, 0, fx, some 0, fx, fx, 1 / 2 * (x1 + x2), tol1, 2 * tol1, 1, [(fulc, fx)]⟩

/-- minimize_scalar.h 117-125, the golden section step: `(rat, e)`. -/
def goldenStep (L : MinLib K) (s : MinState K) : K × K :=
  let e := if s.xf ≥ s.xm then s.a - s.xf else s.b - s.xf
  (goldenMean L * e, e)

/-- minimize_scalar.h 86-125: the new `(rat, e)`. With a NaN among the three function values `p` and `q` are NaN and the parabola is
not accepted. -/
def minStep (L : MinLib K) (s : MinState K) : K × K :=
  if absA s.e > s.tol1 then
    match s.fx, s.ffulc, s.fnfc with
    | some fx, some ffulc, some fnfc =>
      let r := (s.xf - s.nfc) * (fx - ffulc)
      let q0 := (s.xf - s.fulc) * (fx - fnfc)
      let p0 := (s.xf - s.fulc) * q0 - (s.xf - s.nfc) * r
      let q1 := 2 * (q0 - r)
      let p := if q1 > 0 then -p0 else p0
      let q := absA q1
      let r1 := s.e
      if absA p < absA (1 / 2 * q * r1) ∧ p > q * (s.a - s.xf) ∧ p < q * (s.b - s.xf) then
        let rat := p / q
        let x := s.xf + rat
        if x - s.a < s.tol2 ∨ s.b - x < s.tol2 then (s.tol1 * L.sgn s.num (s.xm - s.xf), s.rat) else (rat, s.rat)
      else goldenStep L s
    | _, _, _ => goldenStep L s
  else goldenStep L s

/-- minimize_scalar.h 127-128: the point of the next call. -/
def nextPoint (L : MinLib K) (s : MinState K) : K :=
  let rat := (minStep L s).1
  s.xf + L.sgn s.num rat * max (absA rat) s.tol1

/-- minimize_scalar.h 129-165: the call and the updates (without 167-169, `refresh`). -/
def minUpdate (L : MinLib K) (f : K → Option K) (s : MinState K) : MinState K :=
  let x := nextPoint L s
  let fu := f x
  let s := { s with rat := (minStep L s).1, e := (minStep L s).2, fu := fu, num := s.num + 1, seen := (x, fu) :: s.seen }
  if leOpt fu s.fx then
    let s := if x ≥ s.xf then { s with a := s.xf } else { s with b := s.xf }
    { s with fulc := s.nfc, ffulc := s.fnfc, nfc := s.xf, fnfc := s.fx, xf := x, fx := fu }
  else
    let s := if x < s.xf then { s with a := x } else { s with b := x }
    if leOpt fu s.fnfc ∨ s.nfc = s.xf then { s with fulc := s.nfc, ffulc := s.fnfc, nfc := x, fnfc := fu }
    else if leOpt fu s.ffulc ∨ s.fulc = s.xf ∨ s.fulc = s.nfc then { s with fulc := x, ffulc := fu }
    else s

/-- minimize_scalar.h 167-169. -/
def refresh (L : MinLib K) (xatol : K) (s : MinState K) : MinState K :=
  let tol1 := sqrtEps L * absA s.xf + xatol / 3
  { s with xm := 1 / 2 * (s.a + s.b), tol1 := tol1, tol2 := 2 * tol1 }

theorem minUpdate_num (L : MinLib K) (f : K → Option K) (s : MinState K) : (minUpdate L f s).num = s.num + 1 := by
  unfold minUpdate
  dsimp only
  split
  · split <;> rfl
  · split <;> (split; · rfl
               split <;> rfl)

/-- minimize_scalar.h 84-175, the loop: the final state and `flag`. -/
def minLoop (L : MinLib K) (f : K → Option K) (xatol : K) (maxfun : Int) (s : MinState K) : MinState K × Nat :=
  if absA (s.xf - s.xm) > s.tol2 - 1 / 2 * (s.b - s.a) then
    let s' := refresh L xatol (minUpdate L f s)
    if _h : (s'.num : Int) ≥ maxfun then (s', 1) else minLoop L f xatol maxfun s'
  else (s, 0)
termination_by (maxfun - s.num).toNat
decreasing_by
  have h := minUpdate_num L f s
  simp only [s', refresh] at _h ⊢
  omega

/-- minimize_scalar.h 16-23 `OptimizeResult` (without the message, a function of the status) and the calls made. -/
structure OptResult (K : Type) where
  fn : Option K
  x : K
  status : Nat
  success : Bool
  nfev : Nat
  nit : Nat
  seen : List (K × Option K)

/-- minimize_scalar.h 41-207 `minimize_scalar_bounded`. A bound that is not finite is `none`. -/
def minimizeBounded (L : MinLib K) (f : K → Option K) (lower upper : Option K) (xatol : K) (maxiter : Int) : Res (OptResult K) :=
  match lower, upper with
  | some x1, some x2 =>
    if x1 > x2 then .throws
    else
      let r := minLoop L f xatol maxiter (minInit L f x1 x2 xatol)
      let s := r.1
      let flag := if s.fx.isNone ∨ s.fu.isNone then 2 else r.2
      .ok ⟨s.fx, s.xf, flag, flag = 0, s.num, s.num, s.seen⟩
  | _, _ => .throws

end Cmm.Num
