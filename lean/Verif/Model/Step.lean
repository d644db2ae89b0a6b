import Verif.Model.Surface
import Verif.Model.ClosestPoint
/-!
Model of the STEP export of nurbs.h. The text is modelled as tokens (its characters are in `Model/StepText`): white space is left out, quoted strings and enumeration values are literals, and the
decimal digits of a number stand for the number. Entity numbers are `int` in the code; their overflow is left out. A quotient that is not finite
(it is printed as `inf` or `nan`) is `none`.
-/
namespace Cmm.Step
open Cmm.Nurbs Cmm.Geom
variable {K : Type} [Field K] [LinearOrder K]

/-- Entity keywords. -/
inductive Kw where
  | cartesianPoint | bSplineCurve | bSplineSurface | vertexPoint | edgeCurve | edgeLoop | faceOuterBound | advancedFace | openShell
  | shellBasedSurfaceModel | colourRgb | fillAreaStyleColour | fillAreaStyle | surfaceStyleFillArea | surfaceSideStyle | surfaceStyleUsage
  | mechanicalDesign | styledItem | presentationStyleAssignment | presentationLayerAssignment | product | productDefinitionContext
  | productDefinition | productDefinitionFormation | productRelatedProductCategory | applicationProtocolDefinition | applicationContext
  | productContext | shapeRepresentationRelationship
deriving DecidableEq

/-- Tokens of the text. -/
inductive Tok (K : Type) where
  | lit (s : String)
  | lpar
  | rpar
  | comma
  | ref (n : Nat)
  | int (n : Nat)
  | num (x : Option K)

/-- One instance `#id = KEYWORD(...);`: the tokens after the keyword, up to the semicolon. -/
structure Line (K : Type) where
  id : Nat
  kw : Kw
  body : List (Tok K)

/-- The output stream and the counter `entity_id`. -/
structure Out (K : Type) where
  next : Nat
  lines : List (Line K)

/-- `int id = entity_id++; out << "#" << id << " = KEYWORD" << ...`. -/
def Out.put (w : Out K) (kw : Kw) (body : List (Tok K)) : Out K := ⟨w.next + 1, w.lines ++ [⟨w.next, kw, body⟩]⟩

/-- The loops that write a separator unless the element is the last one. -/
def sepBy : List (List (Tok K)) → List (Tok K)
  | [] => []
  | [x] => x
  | x :: y :: l => x ++ Tok.comma :: sepBy (y :: l)

/-- A list in parentheses (nurbs.h 677-683; utils.h 133-144 `vectorToString`). -/
def paren (l : List (List (Tok K))) : List (Tok K) := Tok.lpar :: sepBy l ++ [Tok.rpar]

/-- The tokens of a point: `('', (x, y, z))`. -/
def pointBody (x y z : Option K) : List (Tok K) :=
  [.lpar, .lit "''", .comma, .lpar, .num x, .comma, .num y, .comma, .num z, .rpar, .rpar]

/-- nurbs.h 663-669: the points of a curve. (Curve evaluation multiplies the stored coordinates by the weight, so they are Cartesian.) -/
def putPoints (w : Out K) (cpts : List (Vec4 K)) : Out K :=
  cpts.foldl (fun w cp => w.put .cartesianPoint (pointBody (some cp.x) (some cp.y) (some cp.z))) w

/-- nurbs.h 671-702: the text of a curve whose points have the numbers `first`, `first + 1`, ... -/
def curveBody (c : Curve K) (first : Nat) : List (Tok K) :=
  [.lpar, .lit "''", .comma, .int c.degree, .comma] ++ paren ((List.range c.cpts.length).map fun i : Nat => [.ref (first + i)]) ++
    [.comma, .lit ".UNSPECIFIED.", .comma, .lit ".F.", .comma, .lit ".F.", .comma] ++
    paren ((getKnotMultiplicities c.knots).map fun m => [.int m.2]) ++ [.comma] ++
    paren ((getKnotMultiplicities c.knots).map fun m => [.num (some m.1)]) ++ [.comma, .lit ".UNSPECIFIED.", .comma] ++
    paren (c.cpts.map fun p => [.num (some p.w)]) ++ [.rpar]

/-- nurbs.h 661-704 `NURBSCurve::toSTEP`: the output and the returned number. -/
def curveToStep (c : Curve K) (w : Out K) : Out K × Nat :=
  let first := w.next
  let w := putPoints w c.cpts
  let id := w.next
  (w.put .bSplineCurve (curveBody c first), id)

/-- nurbs.h 1284-1296: the points of a surface, divided by their weights. -/
def putGrid (w : Out K) (cpts : List (Vec4 K)) : Out K :=
  cpts.foldl (fun w cp => w.put .cartesianPoint (pointBody (nanDiv cp.x cp.w) (nanDiv cp.y cp.w) (nanDiv cp.z cp.w))) w

/-- nurbs.h 1298-1355: the text of a surface. The number of point `(i, j)` is the first number plus `i * sv + j`, in the order of the two loops that
write the points. -/
def surfaceBody (s : Surface K) (first : Nat) : List (Tok K) :=
  [.lpar, .lit "''", .comma, .int s.du, .comma, .int s.dv, .comma] ++
    paren ((List.range s.su).map fun i : Nat => paren ((List.range s.sv).map fun j : Nat => [.ref (first + (i * s.sv + j))])) ++
    [.comma, .lit ".UNSPECIFIED.", .comma, .lit ".F.", .comma, .lit ".F.", .comma, .lit ".F.", .comma] ++
    paren ((getKnotMultiplicities s.ku).map fun m => [.int m.2]) ++ [.comma] ++
    paren ((getKnotMultiplicities s.ku).map fun m => [.num (some m.1)]) ++ [.comma] ++
    paren ((getKnotMultiplicities s.kv).map fun m => [.int m.2]) ++ [.comma] ++
    paren ((getKnotMultiplicities s.kv).map fun m => [.num (some m.1)]) ++ [.comma, .lit ".UNSPECIFIED.", .comma] ++
    paren ((List.range s.su).map fun i : Nat => paren ((List.range s.sv).map fun j : Nat => [.num (some (cell s.cpts i j).w)])) ++ [.rpar]

/-- nurbs.h 1284-1356: points and surface. `flat` are the control points row by row. -/
def putSurface (s : Surface K) (flat : List (Vec4 K)) (w : Out K) : Out K :=
  let first := w.next
  let w := putGrid w flat
  w.put .bSplineSurface (surfaceBody s first)

/-- nurbs.h 1357-1364: the boundary curves, with their numbers. -/
def putCurves : List (Curve K) → Out K → Out K × List Nat
  | [], w => (w, [])
  | c :: cs, w =>
    let (w, id) := curveToStep c w
    let (w, ids) := putCurves cs w
    (w, id :: ids)

/-- nurbs.h 1366-1376: the corner points: the start of the first two curves, the end of the other two. -/
def corners : List (Curve K) → Nat → Res (List (Vec3 K))
  | [], _ => .ok []
  | c :: cs, i => do
    let p ← c.evaluate (if i < 2 then c.lo else c.hi)
    let ps ← corners cs (i + 1)
    pure (p :: ps)

/-- nurbs.h 1366-1376: points and vertices, with the numbers of the vertices. -/
def putVertices : List (Vec3 K) → Out K → Out K × List Nat
  | [], w => (w, [])
  | p :: ps, w =>
    let cid := w.next
    let w := w.put .cartesianPoint (pointBody (some p.x) (some p.y) (some p.z))
    let id := w.next
    let w := w.put .vertexPoint [.lpar, .lit "''", .comma, .ref cid, .rpar]
    let (w, ids) := putVertices ps w
    (w, id :: ids)

/-- nurbs.h 1378-1387: the edges. `n` counts the remaining edges. -/
def putEdges (vertices curves : List Nat) : Nat → Nat → Out K → Out K × List Nat
  | 0, _, w => (w, [])
  | n + 1, i, w =>
    let next := (i + 1) % 4
    let id := w.next
    let w := w.put .edgeCurve [.lpar, .lit "''", .comma, .ref (vertices.getD i 0), .comma, .ref (vertices.getD next 0), .comma,
      .ref (curves.getD i 0), .comma, .lit ".T.", .rpar]
    let (w, ids) := putEdges vertices curves n (i + 1) w
    (w, id :: ids)

/-- nurbs.h 1389-1481: topology, presentation and product entities. Line 1462 (`productRelatedProductCategory`) writes one closing parenthesis too few. The
references `entity_id + 1` are written after the counter was advanced. -/
def putTail (surfaceId : Nat) (edges : List Nat) (w : Out K) : Out K :=
  let loop := w.next
  let w := w.put .edgeLoop ([.lpar, .lit "''", .comma] ++ paren (edges.map fun i => [.ref i]) ++ [.rpar])
  let bound := w.next
  let w := w.put .faceOuterBound [.lpar, .lit "''", .comma, .ref loop, .comma, .lit ".T.", .rpar]
  let face := w.next
  let w := w.put .advancedFace [.lpar, .lit "''", .comma, .lpar, .ref bound, .rpar, .comma, .ref surfaceId, .comma, .lit ".T.", .rpar]
  let shell := w.next
  let w := w.put .openShell [.lpar, .lit "''", .comma, .lpar, .ref face, .rpar, .rpar]
  let w := w.put .shellBasedSurfaceModel [.lpar, .lit "'shell_1'", .comma, .lpar, .ref shell, .rpar, .rpar]
  let colour := w.next
  let w := w.put .colourRgb [.lpar, .lit "''", .comma, .lit "0.", .comma, .lit "0.", .comma, .lit "0.", .rpar]
  let fillColour := w.next
  let w := w.put .fillAreaStyleColour [.lpar, .lit "''", .comma, .ref colour, .rpar]
  let fill := w.next
  let w := w.put .fillAreaStyle [.lpar, .lit "''", .comma, .lpar, .ref fillColour, .rpar, .rpar]
  let styleFill := w.next
  let w := w.put .surfaceStyleFillArea [.lpar, .ref fill, .rpar]
  let side := w.next
  let w := w.put .surfaceSideStyle [.lpar, .lit "''", .comma, .lpar, .ref styleFill, .rpar, .comma, .lit ".F.", .rpar]
  let usage := w.next
  let w := w.put .surfaceStyleUsage [.lpar, .lit ".BOTH.", .comma, .ref side, .rpar]
  let geom := w.next
  let w := w.put .mechanicalDesign [.lpar, .lit "''", .comma, .lpar, .ref face, .rpar, .comma, .ref surfaceId, .rpar]
  let styled := w.next
  let w := w.put .styledItem [.lpar, .lit "''", .comma, .lpar, .ref usage, .rpar, .comma, .ref geom, .rpar]
  let w := w.put .presentationStyleAssignment [.lpar, .lpar, .ref styled, .rpar, .rpar]
  let layer := w.next
  let w := w.put .presentationLayerAssignment [.lpar, .lit "'Default'", .comma, .lit "''", .comma, .lpar, .ref styled, .rpar, .rpar]
  let w := w.put .product [.lpar, .lit "'Document'", .comma, .lit "'Document'", .comma, .lit "''", .comma, .lpar, .ref layer, .rpar, .rpar]
  let context := w.next
  let w := w.put .productDefinitionContext [.lpar, .lit "'3D Mechanical Parts'", .comma, .ref (w.next + 1 + 1), .comma, .lit "'design'", .rpar]
  let w := w.put .productDefinition [.lpar, .lit "'A'", .comma, .lit "'First version'", .comma, .ref (w.next + 1 + 1), .comma, .ref context, .rpar]
  let formation := w.next
  let w := w.put .productDefinitionFormation [.lpar, .lit "'A'", .comma, .lit "'First version'", .comma, .ref (w.next + 1 + 1), .comma, .lit ".MADE.", .rpar]
  let w := w.put .productRelatedProductCategory [.lpar, .lit "'tool'", .comma, .lit "'tool'", .comma, .lpar, .ref formation, .rpar]
  let w := w.put .applicationProtocolDefinition [.lpar, .lit "'Draft International Standard'", .comma, .lit "'automotive_design'", .comma, .int 1999,
    .comma, .ref (w.next + 1 + 1), .rpar]
  let application := w.next
  let w := w.put .applicationContext [.lpar, .lit "'data for automotive mechanical design processes'", .rpar]
  let productContext := w.next
  let w := w.put .productContext [.lpar, .lit "'3D Mechanical Parts'", .comma, .ref application, .comma, .lit "'mechanical'", .rpar]
  let productFinal := w.next
  let w := w.put .product [.lpar, .lit "'Document'", .comma, .lit "'Document'", .comma, .lit "''", .comma, .lpar, .ref productContext, .rpar, .rpar]
  w.put .shapeRepresentationRelationship [.lpar, .lit "''", .comma, .lit "''", .comma, .ref geom, .comma, .ref productFinal, .rpar]

/-- nurbs.h 1282-1485 `NURBSSurface::toSTEP`: the output and the returned number. -/
def surfaceToStep (s : Surface K) (w : Out K) : Res (Out K × Nat) := do
  let flat ← s.flat
  let w := putSurface s flat w
  let surfaceId := w.next - 1
  let bs ← s.boundaries
  let (w, curves) := putCurves bs w
  let ps ← corners bs 0
  let (w, vertices) := putVertices ps w
  let (w, edges) := putEdges vertices curves 4 0 w
  pure (putTail surfaceId edges w, surfaceId)

/-- nurbs.h 1491-1530 `writeSTEPFile`: the DATA section; numbers start at 10. (For the text around it see `Model/StepText`.) -/
def stepFile (s : Surface K) : Res (List (Line K)) := do
  let (w, _) ← surfaceToStep s ⟨10, []⟩
  pure w.lines

end Cmm.Step
