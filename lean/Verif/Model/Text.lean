import Verif.Model.BVH
import Mathlib.Data.Int.Log
import Mathlib.Data.Nat.Digits.Defs
import Mathlib.Data.Rat.Floor
/-!
Model of the text output of vec.h, bvh.hpp, utils.h and nurbs.h. A text is a list of characters. A finite `double` is its exact rational value (so
`-0.0` is printed as `0`); infinities and NaN are left out. Streams print decimal numbers by the rules of `printf` with round-half-to-even on the exact value.
-/
namespace Cmm.Text

/-- The character of a decimal digit. -/
def digitChar (d : Nat) : Char := Char.ofNat (48 + d)

/-- `%d` of a natural number. -/
def decimal (n : Nat) : List Char := if n = 0 then ['0'] else ((Nat.digits 10 n).map digitChar).reverse

/-- The last `k` decimal digits of `n`, with leading zeros. -/
def padded : Nat → Nat → List Char
  | 0, _ => []
  | k + 1, n => padded k (n / 10) ++ [digitChar (n % 10)]

/-- Nearest integer of a number that is not negative, ties to even. -/
def roundEven (x : ℚ) : Nat :=
  let f := ⌊x⌋₊
  if x - f < 1 / 2 then f else if 1 / 2 < x - f then f + 1 else if f % 2 = 0 then f else f + 1

/-- The sign of a printed number. -/
def signText (x : ℚ) : List Char := if x < 0 then ['-'] else []

/-- `std::fixed` with `std::setprecision(k)`, `k` at least 1 (`%.kf`). -/
def fixedText (k : Nat) (x : ℚ) : List Char :=
  let m := roundEven (|x| * 10 ^ k)
  signText x ++ decimal (m / 10 ^ k) ++ '.' :: padded k (m % 10 ^ k)

/-- Fractional digits without trailing zeros, and without the point if none is left (`%g`). -/
def fraction (digits : List Char) : List Char :=
  match (digits.reverse.dropWhile (· = '0')).reverse with
  | [] => []
  | d :: ds => '.' :: d :: ds

/-- The exponent part of `%e`: a sign and at least two digits. -/
def exponentText (e : Int) : List Char :=
  'e' :: (if e < 0 then '-' else '+') :: (if e.natAbs < 10 then '0' :: decimal e.natAbs else decimal e.natAbs)

/-- The `p` significant digits of `|x|` as a number below `10 ^ p`, and the decimal exponent of the first one. -/
def significant (p : Nat) (x : ℚ) : Nat × Int :=
  let e := Int.log 10 |x|
  let m := roundEven (|x| * (10 : ℚ) ^ ((p : Int) - 1 - e))
  if m = 10 ^ p then (10 ^ (p - 1), e + 1) else (m, e)

/-- A stream without format flags and with precision `p`, at least 1 (`%.pg`). -/
def generalText (p : Nat) (x : ℚ) : List Char :=
  if x = 0 then ['0']
  else
    let s := significant p x
    if -4 ≤ s.2 ∧ s.2 < p then
      if 0 ≤ s.2 then
        let q := p - 1 - s.2.toNat
        signText x ++ decimal (s.1 / 10 ^ q) ++ fraction (padded q (s.1 % 10 ^ q))
      else signText x ++ '0' :: fraction (List.replicate (s.2.natAbs - 1) '0' ++ padded p s.1)
    else signText x ++ decimal (s.1 / 10 ^ (p - 1)) ++ fraction (padded (p - 1) (s.1 % 10 ^ (p - 1))) ++ exponentText s.2

/-- `out << x` on a stream whose format was not changed: precision 6 (nurbs.h 669, 681, 1296, utils.h 137 and vec.h 991-1003). -/
def streamText (x : ℚ) : List Char := generalText 6 x

/-- utils.h 112-116 `formatReal`. -/
def formatReal (x : ℚ) : List Char := generalText 15 x

/-- vec.h 519-524 `format_vec3`. -/
def formatVec3 (v : Vec3 ℚ) : List Char :=
  '[' :: fixedText 2 v.x ++ ',' :: fixedText 2 v.y ++ ',' :: fixedText 2 v.z ++ [']']

/-- vec.h 525-533 `format_vec3vec`: a comma after every point. -/
def formatVec3vec (vs : List (Vec3 ℚ)) : List Char := '[' :: vs.flatMap (fun v => formatVec3 v ++ [',']) ++ [']']

/-- vec.h 991-994 `operator<<` of `vec2`. -/
def putVec2 (x y : ℚ) : List Char := '[' :: streamText x ++ ',' :: streamText y ++ [']']

/-- vec.h 995-998 `operator<<` of `vec3`: nothing between the second and the third number. -/
def putVec3 (v : Vec3 ℚ) : List Char := '[' :: streamText v.x ++ ',' :: streamText v.y ++ streamText v.z ++ [']']

/-- vec.h 1001-1004 `operator<<` of `vec4`: nothing between the last three numbers. -/
def putVec4 (x y z w : ℚ) : List Char := '[' :: streamText x ++ ',' :: streamText y ++ streamText z ++ streamText w ++ [']']

/-- bvh.hpp 533-536 `output_aabb`. -/
def outputAabb (b : AABB ℚ) : List Char := '[' :: formatVec3 b.min ++ ',' :: formatVec3 b.max ++ [']']

/-- bvh.hpp 512-532 `output_bvh_nodes`. -/
def outputNodes : Cmm.BVH.Tree ℚ → List Char
  | .nil => []
  | .node bb _ l r =>
    '[' :: formatVec3 bb.min ++ ',' :: formatVec3 bb.max ++ [']'] ++
      if !l.isNil || !r.isNil then
        ',' :: '[' :: (if !l.isNil then outputNodes l else []) ++ (if !l.isNil && !r.isNil then [','] else []) ++
          (if !r.isNil then outputNodes r else []) ++ [']']
      else []

/-- bvh.hpp 538-542 `output_object3d`; `none` is a null pointer. -/
def outputObject : Option (Cmm.BVH.Obj ℚ) → List Char
  | none => []
  | some o => outputAabb o.bb

/-- bvh.hpp 544-552 `output_objects3d`: a comma after every object. -/
def outputObjects (os : List (Option (Cmm.BVH.Obj ℚ))) : List Char := '[' :: os.flatMap (fun o => outputObject o ++ [',']) ++ [']']

/-- utils.h 133-146 `vectorToString` of numbers: separated by a comma and a space. -/
def joined : List (List Char) → List Char
  | [] => []
  | [t] => t
  | t :: u :: ts => t ++ ',' :: ' ' :: joined (u :: ts)

/-- utils.h 133-146 `vectorToString` of a `std::vector<double>`. -/
def vectorText (xs : List ℚ) : List Char := '(' :: joined (xs.map streamText) ++ [')']

/-- utils.h 133-146 `vectorToString` of a `std::vector<int>` without negative numbers. -/
def countsText (ns : List Nat) : List Char := '(' :: joined (ns.map decimal) ++ [')']

end Cmm.Text
