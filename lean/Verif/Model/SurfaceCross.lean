import Verif.Model.Surface
import Verif.Model.VecOps
/-!
Model of `surfaceCrossProduct` and `cross` of surfaces (cmmcore/nurbs.h) in exact arithmetic.
-/
namespace Cmm.Nurbs
variable {K : Type} [Field K] [LinearOrder K]

/-- nurbs.h 1590-1594 `result._control_points.resize(n, std::vector<vec4>(m, {0, 0, 0, 1}))`: rows that exist keep their content and their length. -/
def resizeRows (rows : List (List (Vec4 K))) (n m : Nat) : List (List (Vec4 K)) :=
  rows.take n ++ List.replicate (n - rows.length) (List.replicate m ⟨0, 0, 0, 1⟩)

/-- `_control_points[i][j]`, if it exists. -/
def cell? (c : List (List (Vec4 K))) (i j : Nat) : Option (Vec4 K) := (c[i]?).bind (·[j]?)

/-- nurbs.h 1600: the body of the loops. The point of `b` is read at `[j][k]`. Reading or writing outside a vector is undefined. -/
def crossCell (a b rows : List (List (Vec4 K))) (k j : Nat) : Res (List (List (Vec4 K))) :=
  match cell? a k j, cell? b j k, rows[k]? with
  | some p, some q, some row => if j < row.length then .ok (rows.set k (row.set j (VecOps.cross4out p q))) else .ub
  | _, _, _ => .ub

/-- nurbs.h 1599-1601, the loop over `j`: `count` more rounds from `j`. -/
def crossRow (a b : List (List (Vec4 K))) (k : Nat) : Nat → Nat → List (List (Vec4 K)) → Res (List (List (Vec4 K)))
  | 0, _, rows => .ok rows
  | count + 1, j, rows => crossCell a b rows k j >>= fun rows' => crossRow a b k count (j + 1) rows'

/-- nurbs.h 1598-1602, the loop over `k`: `count` more rounds from `k`. -/
def crossRows (a b : List (List (Vec4 K))) (m : Nat) : Nat → Nat → List (List (Vec4 K)) → Res (List (List (Vec4 K)))
  | 0, _, rows => .ok rows
  | count + 1, k, rows => crossRow a b k m 0 rows >>= fun rows' => crossRows a b m count (k + 1) rows'

/-- nurbs.h 1586-1604 `surfaceCrossProduct(a, b, result)` (and 1606-1608 `cross(a, b, result)`) for three different objects. `_size` of `result` is not
assigned. -/
def surfaceCross (a b result : Surface K) : Res (Surface K) := do
  let rows ← crossRows a.cpts b.cpts a.sv a.su 0 (resizeRows result.cpts a.su a.sv)
  ({ result with cpts := rows, ku := a.ku, kv := b.kv, du := a.du, dv := b.dv } : Surface K).updateInterval

/-- nurbs.h 711, 1094-1099 `NURBSSurface()`. -/
def Surface.blank : Surface K := ⟨[], 0, 0, 0, 0, [], [], 0, 0, 0, 0⟩

/-- nurbs.h 1610-1614 `cross(a, b)`. -/
def surfaceCrossNew (a b : Surface K) : Res (Surface K) := surfaceCross a b Surface.blank

end Cmm.Nurbs
