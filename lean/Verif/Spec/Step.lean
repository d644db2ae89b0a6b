import Verif.Model.Step
/-! Specification vocabulary for the STEP export. -/
namespace Cmm.Step
variable {K : Type}

/-- The entity numbers used by an instance. -/
def Line.refs (l : Line K) : List Nat := l.body.filterMap fun
  | .ref n => some n
  | _ => none

/-- The coordinates, knots and weights in an instance, in order. -/
def Line.nums (l : Line K) : List (Option K) := l.body.filterMap fun
  | .num x => some x
  | _ => none

/-- The integers (degrees, multiplicities) in an instance, in order. -/
def Line.ints (l : Line K) : List Nat := l.body.filterMap fun
  | .int n => some n
  | _ => none

/-- The instance with a number. -/
def lookup (lines : List (Line K)) (id : Nat) : Option (Line K) := lines.find? fun l => l.id == id

/-- The coordinates of the point with a number. -/
def coords (lines : List (Line K)) (id : Nat) : Option (List (Option K)) :=
  match lookup lines id with
  | some l => if l.kw = .cartesianPoint then some l.nums else none
  | none => none

/-- The coordinates of the vertex with a number. -/
def vertexCoords (lines : List (Line K)) (id : Nat) : Option (List (Option K)) :=
  match lookup lines id with
  | some l => match l.refs with
    | [p] => if l.kw = .vertexPoint then coords lines p else none
    | _ => none
  | none => none

/-- The control points of the curve with a number. -/
def curvePoints (lines : List (Line K)) (id : Nat) : List (Option (List (Option K))) :=
  match lookup lines id with
  | some l => l.refs.map (coords lines)
  | none => []

/-- An edge: the coordinates of its first and second vertex, then the control points of its curve. -/
def edgeData (lines : List (Line K)) (l : Line K) : List (Option (List (Option K))) :=
  match l.refs with
  | [a, b, c] => vertexCoords lines a :: vertexCoords lines b :: curvePoints lines c
  | _ => []

/-- The edges of a file. -/
def edges (lines : List (Line K)) : List (List (Option (List (Option K)))) :=
  (lines.filter fun l => l.kw = .edgeCurve).map (edgeData lines)

/-- Every number is defined at most once, and every number used is defined. -/
def Closed (lines : List (Line K)) : Prop :=
  (lines.map Line.id).Nodup ∧ ∀ l ∈ lines, ∀ r ∈ l.refs, ∃ d ∈ lines, d.id = r

/-- The numbers from `start` on are used up one by one, and only numbers in this range are used as references. -/
def Numbered (start : Nat) (w : Out K) : Prop :=
  ∃ n, w.next = start + n ∧ w.lines.map Line.id = List.range' start n ∧ ∀ l ∈ w.lines, ∀ r ∈ l.refs, start ≤ r ∧ r < w.next

/-- Depth of parentheses after the tokens, `none` if a parenthesis is closed that was not opened. -/
def depth : Nat → List (Tok K) → Option Nat
  | d, [] => some d
  | d, .lpar :: l => depth (d + 1) l
  | 0, .rpar :: _ => none
  | d + 1, .rpar :: l => depth d l
  | d, _ :: l => depth d l

/-- The parentheses of the instance are balanced. -/
def Line.Balanced (l : Line K) : Prop := depth 0 l.body = some 0

end Cmm.Step
