import Verif.Model.Step
import Verif.Model.Text
/-!
Model of the characters of the STEP export of nurbs.h: how the tokens of Model/Step are spelled and spaced, and the text around them. Numbers are rational
(see Model/Text); a coordinate that is not finite is printed as `nan` here (the code prints `inf`, `-inf`, `nan` or `-nan`).
-/
namespace Cmm.Step
open Cmm.Text

/-- The keywords as they are written (nurbs.h 668, 687 and 1296-1481). -/
def kwText : Kw → String
  | .cartesianPoint => "CARTESIAN_POINT"
  | .bSplineCurve => "RATIONAL_B_SPLINE_CURVE_WITH_KNOTS"
  | .bSplineSurface => "RATIONAL_B_SPLINE_SURFACE_WITH_KNOTS"
  | .vertexPoint => "VERTEX_POINT"
  | .edgeCurve => "EDGE_CURVE"
  | .edgeLoop => "EDGE_LOOP"
  | .faceOuterBound => "FACE_OUTER_BOUND"
  | .advancedFace => "ADVANCED_FACE"
  | .openShell => "OPEN_SHELL"
  | .shellBasedSurfaceModel => "SHELL_BASED_SURFACE_MODEL"
  | .colourRgb => "COLOUR_RGB"
  | .fillAreaStyleColour => "FILL_AREA_STYLE_COLOUR"
  | .fillAreaStyle => "FILL_AREA_STYLE"
  | .surfaceStyleFillArea => "SURFACE_STYLE_FILL_AREA"
  | .surfaceSideStyle => "SURFACE_SIDE_STYLE"
  | .surfaceStyleUsage => "SURFACE_STYLE_USAGE"
  | .mechanicalDesign => "MECHANICAL_DESIGN_GEOMETRIC_PRESENTATION_REPRESENTATION"
  | .styledItem => "STYLED_ITEM"
  | .presentationStyleAssignment => "PRESENTATION_STYLE_ASSIGNMENT"
  | .presentationLayerAssignment => "PRESENTATION_LAYER_ASSIGNMENT"
  | .product => "PRODUCT"
  | .productDefinitionContext => "PRODUCT_DEFINITION_CONTEXT"
  | .productDefinition => "PRODUCT_DEFINITION"
  | .productDefinitionFormation => "PRODUCT_DEFINITION_FORMATION_WITH_SPECIFIED_SOURCE"
  | .productRelatedProductCategory => "PRODUCT_RELATED_PRODUCT_CATEGORY"
  | .applicationProtocolDefinition => "APPLICATION_PROTOCOL_DEFINITION"
  | .applicationContext => "APPLICATION_CONTEXT"
  | .productContext => "PRODUCT_CONTEXT"
  | .shapeRepresentationRelationship => "SHAPE_REPRESENTATION_RELATIONSHIP"

/-- The instances whose leading strings are written without a space between them (nurbs.h 1442, 1446, 1454, 1462, 1478). -/
def Kw.tight : Kw → Bool
  | .presentationLayerAssignment | .product | .productDefinition | .productRelatedProductCategory => true
  | _ => false

/-- `out << token` (nurbs.h 661-704 and 1282-1485), for everything but a comma. -/
def tokText : Tok ℚ → List Char
  | .lit s => s.toList
  | .lpar => ['(']
  | .rpar => [')']
  | .comma => [',']
  | .ref n => '#' :: decimal n
  | .int n => decimal n
  | .num (some x) => streamText x
  | .num none => ['n', 'a', 'n']

/-- A comma before the given tokens (nurbs.h 661-704 and 1282-1485): followed by a space except between the strings of some instances. -/
def commaText (kw : Kw) : List (Tok ℚ) → List Char
  | .lit _ :: _ => if kw.tight then [','] else [',', ' ']
  | _ => [',', ' ']

/-- The text of an instance after its keyword, up to the semicolon (nurbs.h 661-704 and 1282-1485). -/
def bodyText (kw : Kw) : List (Tok ℚ) → List Char
  | [] => []
  | .comma :: r => commaText kw r ++ bodyText kw r
  | t :: r => tokText t ++ bodyText kw r

/-- One line of the DATA section (nurbs.h 661-704 and 1282-1485). -/
def lineText (l : Line ℚ) : List Char :=
  '#' :: decimal l.id ++ " = ".toList ++ (kwText l.kw).toList ++ bodyText l.kw l.body ++ [';', '\n']

/-- Broken-down UTC time (`std::tm`). -/
structure DateTime where
  year : Nat
  month : Nat
  day : Nat
  hour : Nat
  minute : Nat
  second : Nat

/-- nurbs.h 1535-1541 `getCurrentDateTime` at a given time: `%Y-%m-%dT%H:%M:%S%z` of UTC. (The buffer of 30 characters is long enough up to the year 999999999.) -/
def dateText (d : DateTime) : List Char :=
  decimal d.year ++ '-' :: padded 2 d.month ++ '-' :: padded 2 d.day ++ 'T' :: padded 2 d.hour ++ ':' :: padded 2 d.minute ++ ':' :: padded 2 d.second ++
    "+0000".toList

/-- nurbs.h 1497-1506 `writeSTEPFile`: the header up to the time. -/
def headerStart : List Char :=
  ("ISO-10303-21;\nHEADER;\n/* Generated by software containing ST-Developer\n * from STEP Tools, Inc. (www.steptools.com)\n */\n" ++
    "/* OPTION: using custom schema-name function */\n\nFILE_DESCRIPTION((''), '2;1');\n\nFILE_NAME(\n/* name */ 'nc',\n/* time_stamp */ '").toList

/-- nurbs.h 1507-1515 `writeSTEPFile`: the header after the time. -/
def headerEnd : List Char :=
  ("',\n/* author */ ('Author'),\n/* organization */ ('Company'),\n/* preprocessor_version */ 'ST-DEVELOPER v19.2',\n" ++
    "/* originating_system */ 'Rhino 8.10',\n/* authorisation */ 'Authorisation');\n\n" ++
    "FILE_SCHEMA (('AP242_MANAGED_MODEL_BASED_3D_ENGINEERING_MIM_LF { 1 0 10303 442 3 1 4 }'));\nENDSEC;\nDATA;\n").toList

/-- nurbs.h 1491-1530 `writeSTEPFile`: the text of the file with the given lines. -/
def fileText (d : DateTime) (lines : List (Line ℚ)) : List Char :=
  headerStart ++ dateText d ++ headerEnd ++ lines.flatMap lineText ++ "ENDSEC;\nEND-ISO-10303-21;\n".toList

/-- nurbs.h 1491-1530 `writeSTEPFile` at a given time; `opened`: the file can be opened for writing. -/
def writeStepFile (opened : Bool) (d : DateTime) (s : Cmm.Nurbs.Surface ℚ) : Cmm.Res (List Char) :=
  if opened then do
    let lines ← stepFile s
    pure (fileText d lines)
  else .throws

end Cmm.Step
