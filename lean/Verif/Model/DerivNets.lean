import Verif.Model.Derivative
import Verif.Model.Monomial
/-!
Model of the derivative tables of cmmcore/nurbs_utils.h: `curve_deriv_cpts`, `surface_deriv_cpts` and `rat_surface_derivs`.
-/
namespace Cmm.Nurbs
variable {K : Type} [Field K] [LinearOrder K]

/-- nurbs_utils.h 331-338, one order `k` of `curve_deriv_cpts` from the points of the order before; `r + 1` points, the last `k` of them
stay zero. Reading outside the knots is undefined, a zero denominator fails the assertion (undefined without it). -/
def derivRow (p : Nat) (U : List K) (r1 r k : Nat) (prev : List (Vec4 K)) : Res (List (Vec4 K)) :=
  if (List.range (r + 1 - k)).all fun i => decide (r1 + i + p + 1 < U.length) && decide (r1 + i + k < U.length) &&
      decide (ix U (r1 + i + p + 1) - ix U (r1 + i + k) ≠ 0) then
    .ok ((List.range (r + 1)).map fun i =>
      if i + k ≤ r then
        let denom := ix U (r1 + i + p + 1) - ix U (r1 + i + k)
        let tmp := (p : K) - (k : K) + 1
        let a := ix prev (i + 1)
        let b := ix prev i
        ⟨tmp * (a.x - b.x) / denom, tmp * (a.y - b.y) / denom, tmp * (a.z - b.z) / denom, tmp * (a.w - b.w) / denom⟩
      else 0)
  else .ub

/-- nurbs_utils.h 330-339, the orders from `k` on, `count` of them. -/
def derivRows (p : Nat) (U : List K) (r1 r : Nat) : Nat → Nat → List (Vec4 K) → Res (List (List (Vec4 K)))
  | 0, _, _ => .ok []
  | count + 1, k, prev => do
    let row ← derivRow p U r1 r k prev
    let rest ← derivRows p U r1 r count (k + 1) row
    .ok (row :: rest)

/-- nurbs_utils.h 314-340 `curve_deriv_cpts`: the table `PK`. Only `r1 ≤ r2` is modelled (anything else is reported as undefined). -/
def curveDerivCpts (p : Nat) (U : List K) (P : List (Vec4 K)) (d r1 r2 : Nat) : Res (List (List (Vec4 K))) :=
  if r2 < r1 ∨ P.length ≤ r2 then .ub
  else do
    let row := (List.range (r2 - r1 + 1)).map fun i => ix P (r1 + i)
    let rest ← derivRows p U r1 (r2 - r1) d 1 row
    .ok (row :: rest)

/-- `t[a][b]`. -/
def tab2 (t : List (List (Vec4 K))) (a b : Nat) : Vec4 K := (t.getD a []).getD b 0

/-- nurbs_utils.h 363-426 `surface_deriv_cpts` (the parameter `dim` is unused): the table `PKL[k][l][i][j]`. `cpts` is indexed `[v][u]`,
`c0`, `c1` are `cpsize`. `temp_cpts_v` is refilled from 0 to `s` in every round, so its rest is always zero. The control points for the second direction
are copied to the front of `temp_cpts_v`, but `curve_deriv_cpts` is told to start at `ss[0]`. -/
def surfaceDerivCpts (p q : Nat) (kv0 kv1 : List K) (cpts : List (List (Vec4 K))) (c0 c1 rs0 rs1 ss0 ss1 d : Nat) :
    Res (List (List (List (List (Vec4 K))))) :=
  if ss1 < ss0 ∨ cpts.length ≤ ss1 ∨ ((cpts.drop ss0).take (ss1 + 1 - ss0)).any (fun row => decide (row.length < c0)) ∨ c1 ≤ ss1 - ss0 then .ub
  else do
    let du := min p d
    let dv := min q d
    let r := rs1 - rs0
    let s := ss1 - ss0
    let ut ← mapRes (fun j => curveDerivCpts p kv0 ((cpts.getD (ss0 + j) []).take c0) du rs0 rs1) (List.range (s + 1))
    let col := fun k i => (List.range (s + 1)).map (fun j => tab2 (ut.getD j []) k i) ++ List.replicate (c1 - (s + 1)) 0
    let vt ← mapRes (fun k => mapRes (fun i => curveDerivCpts q kv1 (col k i) (min (d - k) dv) ss0 ss1) (List.range (r + 1 - k)))
      (List.range (du + 1))
    .ok ((List.range (du + 1)).map fun k => (List.range (dv + 1)).map fun l => (List.range (r + 1)).map fun i => (List.range (s + 1)).map fun j =>
      if r < i + k then 0
      else if l = 0 then tab2 (ut.getD j []) k i
      else if l ≤ d - k ∧ j + l ≤ s then tab2 ((vt.getD k []).getD i []) l j
      else 0)

/-- nurbs_utils.h 535-540, 553-558: `v[d] ± bin(l, j) * W[i][j] * S[a][l - j][d]` for the rounds `j` of the loop, on three coordinates; `sign` is the sign. -/
def ratInner (W S : Nat → Nat → Vec4 K) (sign : K) (l i a : Nat) : Nat → Nat → Vec3 K → Res (Vec3 K)
  | 0, _, v => .ok v
  | count + 1, j, v => do
    let b ← Mono.binomD l j
    let s := S a (l - j)
    let c := sign * (b * (W i j).w)
    ratInner W S sign l i a count (j + 1) ⟨v.x + c * s.x, v.y + c * s.y, v.z + c * s.z⟩

/-- nurbs_utils.h 542-563, the loop over `i`. -/
def ratOuter (W S : Nat → Nat → Vec4 K) (k l : Nat) : Nat → Nat → Vec3 K → Res (Vec3 K)
  | 0, _, v => .ok v
  | count + 1, i, v => do
    let b ← Mono.binomD k i
    let s := S (k - i) l
    let c := b * (W i 0).w
    let v1 : Vec3 K := ⟨v.x - c * s.x, v.y - c * s.y, v.z - c * s.z⟩
    let v2 ← ratInner W S 1 l i (k - i) l 1 0
    ratOuter W S k l count (i + 1) ⟨v1.x - b * v2.x, v1.y - b * v2.y, v1.z - b * v2.z⟩

/-- nurbs_utils.h 532-571, the entry `SKL[k][l]` from the entries before it. A zero weight fails the assertion (undefined without it). The fourth
coordinate stays zero. -/
def ratEntry (W S : Nat → Nat → Vec4 K) (k l : Nat) : Res (Vec4 K) := do
  let v ← ratInner W S (-1) l 0 k l 1 ⟨(W k l).x, (W k l).y, (W k l).z⟩
  let v ← ratOuter W S k l k 1 v
  let w := (W 0 0).w
  if w = 0 then .ub else .ok ⟨v.x / w, v.y / w, v.z / w, 0⟩

/-- Assignment to `S[k][l]`. -/
def set2 (S : Nat → Nat → Vec4 K) (k l : Nat) (v : Vec4 K) : Nat → Nat → Vec4 K := fun a b => if a = k ∧ b = l then v else S a b

/-- nurbs_utils.h 531-572, the loop over `l`, `count` more rounds. -/
def ratCols (W : Nat → Nat → Vec4 K) (k : Nat) : Nat → Nat → (Nat → Nat → Vec4 K) → Res (Nat → Nat → Vec4 K)
  | 0, _, S => .ok S
  | count + 1, l, S => do
    let v ← ratEntry W S k l
    ratCols W k count (l + 1) (set2 S k l v)

/-- nurbs_utils.h 530-573, the loop over `k`, `count` more rounds; `n` is `do_order`. -/
def ratRows (W : Nat → Nat → Vec4 K) (n : Nat) : Nat → Nat → (Nat → Nat → Vec4 K) → Res (Nat → Nat → Vec4 K)
  | 0, _, S => .ok S
  | count + 1, k, S => do
    let S1 ← ratCols W k n 0 S
    ratRows W n count (k + 1) S1

/-- nurbs_utils.h 516-574 `rat_surface_derivs` for `deriv_order = d`: needs `d + 1` rows of `d + 1` entries. -/
def ratSurfaceDerivs (SKLw : List (List (Vec4 K))) (d : Nat) : Res (List (List (Vec4 K))) :=
  if SKLw.length ≤ d ∨ (SKLw.take (d + 1)).any (fun row => decide (row.length ≤ d)) then .ub
  else do
    let S ← ratRows (tab2 SKLw) (d + 1) (d + 1) 0 (fun _ _ => 0)
    .ok ((List.range (d + 1)).map fun k => (List.range (d + 1)).map fun l => S k l)

end Cmm.Nurbs
