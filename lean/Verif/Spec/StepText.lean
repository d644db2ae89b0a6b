import Verif.Model.Step
import Verif.Spec.Text
/-!
The symbols of an exchange file (ISO 10303-21), how text is split into them, and which symbols stand for an instance. Numbers are accepted in any decimal
notation; whether they are REAL tokens of the standard is a separate question (C117).
-/
namespace Cmm.Step
open Cmm.Text

/-- Symbols of an exchange file. -/
inductive Sym where
  | lpar
  | rpar
  | comma
  | semi
  | equals
  | ref (n : Nat)
  | str (s : List Char)
  | enum (s : List Char)
  | word (s : List Char)
  | number (v : ℚ)
deriving DecidableEq

/-- Upper case letters. -/
def isUp (c : Char) : Bool := decide ('A' ≤ c) && decide (c ≤ 'Z')

/-- Characters of keywords. -/
def isWord (c : Char) : Bool := isUp c || isDig c || c == '_' || c == '-'

/-- A decimal number; there may be no digits after the point. -/
def readReal (s : List Char) : Option (ℚ × List Char) :=
  match readNumber s with
  | some p => some p
  | none =>
    match s.dropWhile isDig with
    | '.' :: r => if s.takeWhile isDig = [] then none else some ((digitsValue (s.takeWhile isDig) : ℚ), r)
    | _ => none

/-- The text of a string up to the apostrophe that ends it. (Strings with apostrophes in them, written twice, are not accepted.) -/
def readString (s : List Char) : Option (Sym × List Char) :=
  match s.dropWhile (· ≠ '\'') with
  | _ :: r => if r.head? = some '\'' then none else some (.str (s.takeWhile (· ≠ '\'')), r)
  | [] => none

/-- The name of an enumeration value up to the point that ends it. -/
def readEnum (s : List Char) : Option (Sym × List Char) :=
  match s.dropWhile isWord with
  | '.' :: r => some (.enum (s.takeWhile isWord), r)
  | _ => none

/-- A keyword or a number. -/
def readAtom (s : List Char) : Option (Sym × List Char) :=
  if s.head?.any isUp then some (.word (s.takeWhile isWord), s.dropWhile isWord)
  else (readReal s).map fun p => (.number p.1, p.2)

/-- The first symbol of a text that does not begin with a blank or a comment. -/
def lexOne : List Char → Option (Sym × List Char)
  | '(' :: s => some (.lpar, s)
  | ')' :: s => some (.rpar, s)
  | ',' :: s => some (.comma, s)
  | ';' :: s => some (.semi, s)
  | '=' :: s => some (.equals, s)
  | '#' :: s => if s.takeWhile isDig = [] then none else some (.ref (digitsValue (s.takeWhile isDig)), s.dropWhile isDig)
  | '\'' :: s => readString s
  | '.' :: s => readEnum s
  | s => readAtom s

/-- The text after a comment. -/
def dropComment : List Char → Option (List Char)
  | '*' :: '/' :: s => some s
  | _ :: s => dropComment s
  | [] => none

/-- One step of reading: a blank, a line end or a comment is skipped, or a symbol is read. -/
def lexStep : List Char → Option (Option Sym × List Char)
  | ' ' :: s => some (none, s)
  | '\n' :: s => some (none, s)
  | '/' :: '*' :: s => (dropComment s).map fun r => (none, r)
  | s => (lexOne s).map fun p => (some p.1, p.2)

/-- All symbols of a text, in at most `n` steps. -/
def lexAll : Nat → List Char → Option (List Sym)
  | _, [] => some []
  | 0, _ :: _ => none
  | n + 1, c :: s => (lexStep (c :: s)).bind fun p => (lexAll n p.2).map (p.1.toList ++ ·)

/-- The text consists of the given symbols. -/
def Lexes (s : List Char) (l : List Sym) : Prop := ∃ n, lexAll n s = some l

/-- `v` is `x` to six significant digits, and exactly `x` if it has no more. -/
def Printed (x v : ℚ) : Prop := |v - x| ≤ 5 / 10 ^ 6 * |x| ∧ (HasDigits 6 x → v = x)

/-- The symbol that stands for a token. -/
def Says : Tok ℚ → Sym → Prop
  | .lpar, y => y = .lpar
  | .rpar, y => y = .rpar
  | .comma, y => y = .comma
  | .ref n, y => y = .ref n
  | .int n, y => y = .number n
  | .num x, y => ∃ r v, x = some r ∧ y = .number v ∧ Printed r v
  | .lit s, y => (∃ t, s.toList = '\'' :: t ++ ['\''] ∧ y = .str t) ∨ (∃ t, s.toList = '.' :: t ++ ['.'] ∧ y = .enum t) ∨ (s = "0." ∧ y = .number 0)

/-- The keywords of the entities in AP242. -/
def keywords : List (Kw × String) := [
  (.cartesianPoint, "CARTESIAN_POINT"), (.bSplineCurve, "RATIONAL_B_SPLINE_CURVE_WITH_KNOTS"),
  (.bSplineSurface, "RATIONAL_B_SPLINE_SURFACE_WITH_KNOTS"), (.vertexPoint, "VERTEX_POINT"), (.edgeCurve, "EDGE_CURVE"), (.edgeLoop, "EDGE_LOOP"),
  (.faceOuterBound, "FACE_OUTER_BOUND"), (.advancedFace, "ADVANCED_FACE"), (.openShell, "OPEN_SHELL"),
  (.shellBasedSurfaceModel, "SHELL_BASED_SURFACE_MODEL"), (.colourRgb, "COLOUR_RGB"), (.fillAreaStyleColour, "FILL_AREA_STYLE_COLOUR"),
  (.fillAreaStyle, "FILL_AREA_STYLE"), (.surfaceStyleFillArea, "SURFACE_STYLE_FILL_AREA"), (.surfaceSideStyle, "SURFACE_SIDE_STYLE"),
  (.surfaceStyleUsage, "SURFACE_STYLE_USAGE"), (.mechanicalDesign, "MECHANICAL_DESIGN_GEOMETRIC_PRESENTATION_REPRESENTATION"),
  (.styledItem, "STYLED_ITEM"), (.presentationStyleAssignment, "PRESENTATION_STYLE_ASSIGNMENT"),
  (.presentationLayerAssignment, "PRESENTATION_LAYER_ASSIGNMENT"), (.product, "PRODUCT"), (.productDefinitionContext, "PRODUCT_DEFINITION_CONTEXT"),
  (.productDefinition, "PRODUCT_DEFINITION"), (.productDefinitionFormation, "PRODUCT_DEFINITION_FORMATION_WITH_SPECIFIED_SOURCE"),
  (.productRelatedProductCategory, "PRODUCT_RELATED_PRODUCT_CATEGORY"), (.applicationProtocolDefinition, "APPLICATION_PROTOCOL_DEFINITION"),
  (.applicationContext, "APPLICATION_CONTEXT"), (.productContext, "PRODUCT_CONTEXT"),
  (.shapeRepresentationRelationship, "SHAPE_REPRESENTATION_RELATIONSHIP")]

/-- The symbols of an instance: `#id = KEYWORD ... ;`. -/
def LineSays (l : Line ℚ) (ys : List Sym) : Prop :=
  ∃ w bs, (l.kw, w) ∈ keywords ∧ List.Forall₂ Says l.body bs ∧ ys = [.ref l.id, .equals, .word w.toList] ++ bs ++ [.semi]

/-- A string symbol. -/
def Sym.text (s : String) : Sym := .str s.toList

/-- A keyword. -/
def Sym.key (s : String) : Sym := .word s.toList

/-- The symbols before the instances: the magic word, the header section with three entities, and the beginning of the data section. -/
def headerSyms (time : List Char) : List Sym :=
  [.key "ISO-10303-21", .semi, .key "HEADER", .semi,
    .key "FILE_DESCRIPTION", .lpar, .lpar, .text "", .rpar, .comma, .text "2;1", .rpar, .semi,
    .key "FILE_NAME", .lpar, .text "nc", .comma, .str time, .comma, .lpar, .text "Author", .rpar, .comma, .lpar, .text "Company", .rpar, .comma,
    .text "ST-DEVELOPER v19.2", .comma, .text "Rhino 8.10", .comma, .text "Authorisation", .rpar, .semi,
    .key "FILE_SCHEMA", .lpar, .lpar, .text "AP242_MANAGED_MODEL_BASED_3D_ENGINEERING_MIM_LF { 1 0 10303 442 3 1 4 }", .rpar, .rpar, .semi,
    .key "ENDSEC", .semi, .key "DATA", .semi]

/-- The symbols after the instances. -/
def footerSyms : List Sym := [.key "ENDSEC", .semi, .key "END-ISO-10303-21", .semi]

/-- The time of day `hh:mm:ss` after the date, with an offset from UTC of zero written without a colon. -/
def IsTime (t : List Char) (year month day hour minute second : Nat) : Prop :=
  ∃ y mo d h mi s : List Char, t = y ++ '-' :: mo ++ '-' :: d ++ 'T' :: h ++ ':' :: mi ++ ':' :: s ++ ['+', '0', '0', '0', '0'] ∧
    (∀ p ∈ [(y, year), (mo, month), (d, day), (h, hour), (mi, minute), (s, second)], (∀ c ∈ p.1, isDig c) ∧ digitsValue p.1 = p.2) ∧
    (∀ p ∈ [mo, d, h, mi, s], p.length = 2)

end Cmm.Step
