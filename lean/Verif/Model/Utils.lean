import Verif.Model.Vec
import Mathlib.Data.Int.Log
import Mathlib.Data.Rat.Floor
/-!
Model of the helpers of cmmcore/utils.h. A finite `double` is its exact rational value.
-/
namespace Cmm.Utils

/-- `std::vector::resize(n)`; new elements are `blank`. -/
def resized {T : Type} (blank : T) (n : Nat) (l : List T) : List T := l.take n ++ List.replicate (n - l.length) blank

/-- utils.h 37-45, the loop of `vectorColumn` from row `i` on. -/
def columnLoop {T : Type} (j : Nat) : List (List T) → Nat → List T → Res (List T)
  | [], _, column => .ok column
  | row :: rows, i, column =>
    match row[j]? with
    | none => .throws
    | some x => if i < column.length then columnLoop j rows (i + 1) (column.set i x) else .ub

/-- utils.h 33-47 `vectorColumn`: the contents of `column` afterwards. -/
def vectorColumn {T : Type} (blank : T) (matrix : List (List T)) (j : Nat) (column : List T) : Res (List T) :=
  match matrix with
  | [] => .ub
  | row :: rows => columnLoop j (row :: rows) 0 (resized blank row.length column)

/-- utils.h 31, 56-64 `calc_epsilon`, without underflow of the product (it is at least `1e-12 * 2 ^ -52`). -/
def calcEpsilon (x : ℚ) : ℚ := if |x| < 1 / 10 ^ 12 then 1 / 2 ^ 1074 else 1 / 2 ^ 52 * |x|

end Cmm.Utils
