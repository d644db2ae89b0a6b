import Verif.Model.Ccx
/-!
Model of the two example bindings: examples/cython_extension/ccx.pyx (Python) and examples/wasm/cmmcore_wasm.cpp (JavaScript).
-/
namespace Cmm.Bind
open Cmm.Nurbs Cmm.Ccx
variable {K : Type}

/-- What the Python caller sees. ccx.pxd declares `ccx` without `except +`, so a C++ exception ends the process. -/
inductive Py (A : Type) where
  | returns : A → Py A
  | aborts : Py A
  | undefined : Py A
  deriving DecidableEq

/-- ccx.pyx 16-22 and 25-31: row of a two-dimensional array with `cols` columns to a control point. setup.py turns bounds checks off, so a read beyond the
row is undefined. -/
def toPoint [One K] (cols : Nat) (row : List K) : Res (Vec4 K) :=
  match row with
  | x :: y :: z :: rest =>
    if cols = 4 then
      match rest with
      | w :: _ => .ok ⟨x, y, z, w⟩
      | [] => .ub
    else .ok ⟨x, y, z, 1⟩
  | _ => .ub

/-- ccx.pyx 14-22 and 23-31: the loop over the rows. -/
def toPoints [One K] (cols : Nat) : List (List K) → Res (List (Vec4 K))
  | [] => .ok []
  | row :: rows => do
    let q ← toPoint cols row
    let qs ← toPoints cols rows
    .ok (q :: qs)

/-- A Python array: its number of columns and its rows. -/
structure Arr (K : Type) where
  cols : Nat
  rows : List (List K)

/-- ccx.pyx 10-41 `pyccx`; `fuel` bounds the depth of the recursion of `ccx` (`none`: bound reached). -/
def pyccx [Field K] [LinearOrder K] (sqrt : K → K) (fuel : Nat) (pts1 pts2 : Arr K) (degree1 degree2 : Nat) (tol : K) : Option (Py (List (K × K))) :=
  match (do
    let q1 ← toPoints pts1.cols pts1.rows
    let q2 ← toPoints pts2.cols pts2.rows
    let c1 ← Curve.make q1 degree1 false
    let c2 ← Curve.make q2 degree2 false
    .ok (c1, c2) : Res (Curve K × Curve K)) with
  | .ub => some .undefined
  | .throws => some .aborts
  | .ok (c1, c2) =>
    match ccx sqrt tol fuel c1 c2 [] with
    | none => none
    | some (.ok res) => some (.returns res)
    | some .throws => some .aborts
    | some .ub => some .undefined

/-- `std::vector::resize(n, v)`. -/
def resize {A : Type} (l : List A) (n : Nat) (v : A) : List A := l.take n ++ List.replicate (n - l.length) v

/-- cmmcore_wasm.cpp 15-17: writes the numbers of the JavaScript array one by one, from index `i` on. -/
def writeDoubles : Nat → List K → List K → List K
  | _, [], out => out
  | i, x :: js, out => writeDoubles (i + 1) js (out.set i x)

/-- cmmcore_wasm.cpp 11-19 `convertJSArrayToCPPVectorDouble`; `out` is the vector given by the caller. -/
def convertDoubles [Zero K] (js out : List K) : List K := writeDoubles 0 js (resize out js.length 0)

/-- cmmcore_wasm.cpp 27: the point `jsArray[i][j]`; `undefined` read as a number gives `nan`. -/
def jsPoint (nan : K) (p : List K) : Vec4 K := ⟨p.getD 0 nan, p.getD 1 nan, p.getD 2 nan, p.getD 3 nan⟩

/-- cmmcore_wasm.cpp 26-28: the loop over `j` for one row, of which `m` columns are written. Writing beyond the row is undefined, and a column the JavaScript
row does not have makes the embind call throw. -/
def writeRow (nan : K) (js : List (List K)) (m : Nat) : Nat → List (Vec4 K) → Res (List (Vec4 K))
  | 0, out => .ok out
  | f + 1, out =>
    if out.length ≤ m - (f + 1) then .ub
    else match js[m - (f + 1)]? with
      | none => .throws
      | some p => writeRow nan js m f (out.set (m - (f + 1)) (jsPoint nan p))

/-- cmmcore_wasm.cpp 25-29: the loop over the rows. -/
def writeRows (nan : K) (m : Nat) : List (List (List K)) → List (List (Vec4 K)) → Res (List (List (Vec4 K)))
  | [], out => .ok out
  | _ :: _, [] => .ub
  | row :: js, r :: out => do
    let r' ← writeRow nan row m m r
    let out' ← writeRows nan m js out
    .ok (r' :: out')

/-- cmmcore_wasm.cpp 20-32 `convertJSArrayToNURBSSurfaceControlPoints`; `out` is the net given by the caller. An empty array has no first row to ask for
its length, which throws. -/
def convertNet [Zero K] [One K] (nan : K) (js : List (List (List K))) (out : List (List (Vec4 K))) : Res (List (List (Vec4 K))) :=
  match js with
  | [] => .throws
  | first :: _ => writeRows nan first.length js (resize out js.length (List.replicate first.length ⟨0, 0, 0, 1⟩))

end Cmm.Bind
