import Verif.Model.Curve
/-!
Model of `knot_removal` of cmmcore/nurbs_utils.h. Indices are C++ `int`s that can become negative, so every access is checked. Distances are compared through
their squares, and a division by zero gives zero here where the code gets an infinity or NaN; the theorems exclude zero denominators.
-/
namespace Cmm.Nurbs
variable {K : Type}

/-- An access `l[i]` to a `std::vector`. -/
def atI {α : Type} (l : List α) (i : Int) : Res α :=
  if i < 0 then .ub
  else match l[i.toNat]? with
    | some v => .ok v
    | none => .ub

/-- An assignment `l[i] = v` to an element of a `std::vector`. -/
def setI {α : Type} (l : List α) (i : Int) (v : α) : Res (List α) := if i < 0 ∨ (l.length : Int) ≤ i then .ub else .ok (l.set i.toNat v)

variable [Field K] [LinearOrder K]

/-- nurbs_utils.h 620-623 `knot_removal_alpha_i`. -/
def removalAlphaI (u : K) (degree : Nat) (knots : List K) (num : Nat) (idx : Int) : Res K := do
  let a ← atI knots idx
  let b ← atI knots (idx + degree + 1 + num)
  .ok ((u - a) / (b - a))

/-- nurbs_utils.h 636-639 `knot_removal_alpha_j`. -/
def removalAlphaJ (u : K) (degree : Nat) (knots : List K) (num : Nat) (idx : Int) : Res K := do
  let a ← atI knots (idx - num)
  let b ← atI knots (idx + degree + 1)
  .ok ((u - a) / (b - a))

/-- nurbs_utils.h 785, all coordinates. -/
def unblendLeft (alpha : K) (c q : Vec4 K) : Vec4 K :=
  ⟨(c.x - (1 - alpha) * q.x) / alpha, (c.y - (1 - alpha) * q.y) / alpha, (c.z - (1 - alpha) * q.z) / alpha, (c.w - (1 - alpha) * q.w) / alpha⟩

/-- nurbs_utils.h 786, all coordinates. -/
def unblendRight (alpha : K) (c q : Vec4 K) : Vec4 K :=
  ⟨(c.x - alpha * q.x) / (1 - alpha), (c.y - alpha * q.y) / (1 - alpha), (c.z - alpha * q.z) / (1 - alpha), (c.w - alpha * q.w) / (1 - alpha)⟩

/-- nurbs_utils.h 736-742 `point_distance` with `dim = 4`, compared with a tolerance. -/
def within (tol : K) (a b : Vec4 K) : Bool :=
  decide (0 ≤ tol ∧ (a.x - b.x) ^ 2 + (a.y - b.y) ^ 2 + (a.z - b.z) ^ 2 + (a.w - b.w) ^ 2 ≤ tol ^ 2)

/-- The variables of the loop in nurbs_utils.h 781-792. -/
structure RemState (K : Type) where
  i : Int
  j : Int
  ii : Int
  jj : Int
  temp : List (Vec4 K)

/-- nurbs_utils.h 781-792. Each round lowers `j - i` by two, so `fuel` is not used up. -/
def remCompute (degree : Nat) (knots : List K) (cpts : List (Vec4 K)) (u : K) (t : Nat) : Nat → RemState K → Res (RemState K)
  | 0, s => .ok s
  | fuel + 1, s =>
    if (t : Int) ≤ s.j - s.i then do
      let ai ← removalAlphaI u degree knots t s.i
      let aj ← removalAlphaJ u degree knots t s.j
      let ci ← atI cpts s.i
      let qi ← atI s.temp (s.ii - 1)
      let temp1 ← setI s.temp s.ii (unblendLeft ai ci qi)
      let cj ← atI cpts s.j
      let qj ← atI temp1 (s.jj + 1)
      let temp2 ← setI temp1 s.jj (unblendRight aj cj qj)
      remCompute degree knots cpts u t fuel ⟨s.i + 1, s.j - 1, s.ii + 1, s.jj - 1, temp2⟩
    else .ok s

/-- nurbs_utils.h 794-807: whether the knot may be removed. After the loop of 781-792 `j - i < t`, so the second branch is never taken. -/
def remFlag (degree : Nat) (knots : List K) (cpts : List (Vec4 K)) (u tol : K) (t : Nat) (s : RemState K) : Res Bool :=
  if s.j - s.i < (t : Int) then do
    let a ← atI s.temp (s.ii - 1)
    let b ← atI s.temp (s.jj + 1)
    .ok (within tol a b)
  else do
    let ai ← removalAlphaI u degree knots t s.i
    let a ← atI s.temp (s.ii + t + 1)
    let b ← atI s.temp (s.ii - 1)
    let c ← atI cpts s.i
    .ok (within tol c (lerp4 ai a b))

/-- nurbs_utils.h 810-817. Each round lowers `j - i` by two, so `fuel` is not used up. -/
def remCopy (first : Int) (t : Nat) (temp : List (Vec4 K)) : Nat → Int → Int → List (Vec4 K) → Res (List (Vec4 K))
  | 0, _, _, new => .ok new
  | fuel + 1, i, j, new =>
    if (t : Int) < j - i then do
      let a ← atI temp (i - first + 1)
      let new1 ← setI new i a
      let b ← atI temp (j - first + 1)
      let new2 ← setI new1 j b
      remCopy first t temp fuel (i + 1) (j - 1) new2
    else .ok new

/-- nurbs_utils.h 772-823, the rounds of the `for` loop from `t` on, `count` of them. -/
def remRounds (degree : Nat) (knots : List K) (cpts : List (Vec4 K)) (u tol : K) :
    Nat → Nat → Int → Int → List (Vec4 K) → List (Vec4 K) → Res (List (Vec4 K))
  | 0, _, _, _, _, new => .ok new
  | count + 1, t, first, last, temp, new => do
    let p0 ← atI cpts (first - 1)
    let temp0 ← setI temp 0 p0
    let p1 ← atI cpts (last + 1)
    let temp1 ← setI temp0 (last - first + 2) p1
    let s ← remCompute degree knots cpts u t (last - first + 1).toNat ⟨first, last, 1, last - first + 1, temp1⟩
    let flag ← remFlag degree knots cpts u tol t s
    let new1 ← if flag then remCopy first t s.temp (last - first).toNat first last new else .ok new
    remRounds degree knots cpts u tol count (t + 1) (first - 1) (last + 1) s.temp new1

/-- nurbs_utils.h 757-831 `knot_removal`: the new control points; the knots are left to the caller. A negative size given to `resize` throws. -/
def knotRemoval (degree : Nat) (knots : List K) (cpts : List (Vec4 K)) (u tol : K) (num : Nat) : Res (List (Vec4 K)) :=
  if cpts.isEmpty then .ub
  else do
    let s := findMultiplicity u knots
    let r := findSpan (cpts.length - 1) degree u (ix knots)
    let new ← remRounds degree knots cpts u tol num 0 (r - degree) (r - s) (List.replicate (2 * degree + 1) ⟨0, 0, 0, 0⟩) cpts
    if new.length < num then .throws else .ok (new.take (new.length - num))

end Cmm.Nurbs
