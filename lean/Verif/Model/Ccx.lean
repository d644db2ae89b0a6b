import Verif.Model.Curve
/-!
Model of cmmcore/ccx.h. Only the operations of `Arith` and the order are used, so that the same text is also the rounded search (C144, C145).
-/
namespace Cmm.Ccx
open Cmm.Nurbs
variable {K : Type} [Arith K] [LinearOrder K]

/-- Sequencing of calls that may run out of fuel (`none`) or end abnormally. -/
def andThen {A B : Type} (x : Option (Res A)) (f : A → Option (Res B)) : Option (Res B) :=
  match x with
  | none => none
  | some (.ok a) => f a
  | some .throws => some .throws
  | some .ub => some .ub

/-- ccx.h 100-110: reports the pair unless it is within `tol` of the last reported one in both parameters. -/
def report (tol : K) (result : List (K × K)) (first second : K) : List (K × K) :=
  match result.getLast? with
  | some q => if absA (q.1 - first) ≤ tol ∧ absA (q.2 - second) ≤ tol then result else result ++ [(first, second)]
  | none => result ++ [(first, second)]

/-- ccx.h 99: the diagonal of the box is shorter than `tol`. -/
def small (sqrt : K → K) (tol : K) (b : AABB K) : Bool := decide (sqrt (b.max - b.min).sqLength < tol)

/-- ccx.h 92-120 `ccx`; `fuel` bounds the depth of the recursion (`none`: bound reached). The cached boxes are those of the control points, as the
constructors leave them; `sqrt` is the square root of `length()`. -/
def ccx (sqrt : K → K) (tol : K) : Nat → Curve K → Curve K → List (K × K) → Option (Res (List (K × K)))
  | 0, _, _, _ => none
  | fuel + 1, c1, c2, result =>
    match c1.bbox, c2.bbox with
    | .ok b1, .ok b2 =>
      if b1.intersects b2 then
        if small sqrt tol b1 && small sqrt tol b2 then
          some (.ok (report tol result (1 / 2 * (c1.lo + c1.hi)) (1 / 2 * (c2.lo + c2.hi))))
        else
          andThen (some (c1.split ((c1.hi - c1.lo) * (1 / 2) + c1.lo) false)) fun s1 =>
          andThen (some (c2.split ((c2.hi - c2.lo) * (1 / 2) + c2.lo) false)) fun s2 =>
          andThen (ccx sqrt tol fuel s1.1 s2.1 result) fun r1 =>
          andThen (ccx sqrt tol fuel s1.2 s2.2 r1) fun r2 =>
          andThen (ccx sqrt tol fuel s1.1 s2.2 r2) fun r3 =>
          ccx sqrt tol fuel s1.2 s2.1 r3
      else some (.ok result)
    | _, _ => some .ub

end Cmm.Ccx
