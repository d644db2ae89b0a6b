import Mathlib.Data.Rat.Floor
import Verif.Model.Vec
import Verif.Model.AABB
/-!
What a reader makes of printed text: numbers, points, boxes and trees of boxes.
-/
namespace Cmm.Text

/-- A decimal digit. -/
def isDig (c : Char) : Bool := decide ('0' ≤ c) && decide (c ≤ '9')

/-- The natural number with the given decimal digits. -/
def digitsValue (l : List Char) : Nat := l.foldl (fun n c => 10 * n + (c.toNat - 48)) 0

/-- Digits, and optionally a point and digits: the value and the rest of the text. -/
def readUnsigned (s : List Char) : Option (ℚ × List Char) :=
  if s.takeWhile isDig = [] then none
  else
    match s.dropWhile isDig with
    | '.' :: r =>
      if r.takeWhile isDig = [] then none
      else some ((digitsValue (s.takeWhile isDig ++ r.takeWhile isDig) : ℚ) / 10 ^ (r.takeWhile isDig).length, r.dropWhile isDig)
    | r => some ((digitsValue (s.takeWhile isDig) : ℚ), r)

/-- An optional exponent `e+digits` or `e-digits` after a number. -/
def readExponent : ℚ × List Char → ℚ × List Char
  | (v, 'e' :: '+' :: r) => (v * 10 ^ digitsValue (r.takeWhile isDig), r.dropWhile isDig)
  | (v, 'e' :: '-' :: r) => (v / 10 ^ digitsValue (r.takeWhile isDig), r.dropWhile isDig)
  | p => p

/-- A decimal number at the beginning of a text: its value and the rest of the text. -/
def readNumber : List Char → Option (ℚ × List Char)
  | '-' :: s => (readUnsigned s).map fun p => (-(readExponent p).1, (readExponent p).2)
  | s => (readUnsigned s).map readExponent

/-- One given character. -/
def readChar (c : Char) : List Char → Option (List Char)
  | d :: s => if d = c then some s else none
  | [] => none

/-- A point `[x,y,z]`. -/
def readPoint (s : List Char) : Option (Vec3 ℚ × List Char) := do
  let s ← readChar '[' s
  let (x, s) ← readNumber s
  let s ← readChar ',' s
  let (y, s) ← readNumber s
  let s ← readChar ',' s
  let (z, s) ← readNumber s
  let s ← readChar ']' s
  some (⟨x, y, z⟩, s)

/-- A box `[min,max]`. -/
def readBox (s : List Char) : Option (AABB ℚ × List Char) := do
  let s ← readChar '[' s
  let (a, s) ← readPoint s
  let s ← readChar ',' s
  let (b, s) ← readPoint s
  let s ← readChar ']' s
  some (⟨a, b⟩, s)

/-- Points, each followed by a comma, up to a closing bracket. `n` bounds the number of points. -/
def readItems {α : Type} (item : List Char → Option (α × List Char)) : Nat → List Char → Option (List α × List Char)
  | _, ']' :: s => some ([], s)
  | 0, _ => none
  | n + 1, s => do
    let (a, s) ← item s
    let s ← readChar ',' s
    let (l, s) ← readItems item n s
    some (a :: l, s)

/-- A binary tree of boxes in which every box has two children or none. -/
inductive Boxes where
  | leaf (b : AABB ℚ)
  | fork (b : AABB ℚ) (l r : Boxes)

/-- A tree of boxes: a box, and for a fork the two subtrees in brackets. The brackets of the children of a box begin with three opening brackets, the next box
of the list with two. `n` bounds the depth. -/
def readBoxes : Nat → List Char → Option (Boxes × List Char)
  | 0, _ => none
  | n + 1, s => do
    let (b, s) ← readBox s
    match s with
    | ',' :: '[' :: '[' :: '[' :: s => do
      let (l, s) ← readBoxes n ('[' :: '[' :: s)
      let s ← readChar ',' s
      let (r, s) ← readBoxes n s
      let s ← readChar ']' s
      some (.fork b l r, s)
    | _ => some (.leaf b, s)

/-- Numbers separated by a comma and a space, up to a closing parenthesis. `n` is their number. -/
def readList : Nat → List Char → Option (List ℚ × List Char)
  | 0, s => (readChar ')' s).map fun s => ([], s)
  | n + 1, s => do
    let (a, s) ← readNumber s
    match s with
    | ',' :: ' ' :: s => do
      let (l, s) ← readList n s
      some (a :: l, s)
    | s => (readChar ')' s).map fun s => ([a], s)

/-- `v` is a multiple of `1 / 10 ^ k` nearest to `x`. -/
def NearestDecimal (k : Nat) (x v : ℚ) : Prop := (∃ z : ℤ, v = z / 10 ^ k) ∧ |v - x| ≤ 1 / 2 / 10 ^ k

/-- `x` can be written with `p` significant decimal digits. -/
def HasDigits (p : Nat) (x : ℚ) : Prop := ∃ z j : ℤ, |z| < 10 ^ p ∧ x = z * (10 : ℚ) ^ j

/-- The REAL tokens of the exchange format (ISO 10303-21): optional sign, digits, a point, digits or none, and optionally `E`, a sign and digits. -/
def IsStepReal (t : List Char) : Prop :=
  ∃ sign whole frac expo : List Char, t = sign ++ whole ++ '.' :: frac ++ expo ∧ (sign = [] ∨ sign = ['+'] ∨ sign = ['-']) ∧ whole ≠ [] ∧
    (∀ c ∈ whole, isDig c) ∧ (∀ c ∈ frac, isDig c) ∧
    (expo = [] ∨ ∃ es ed, expo = 'E' :: es ++ ed ∧ (es = [] ∨ es = ['+'] ∨ es = ['-']) ∧ ed ≠ [] ∧ ∀ c ∈ ed, isDig c)

end Cmm.Text
