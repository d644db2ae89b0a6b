import Verif.Props.Serialization
import Verif.Props.KDTree
import Verif.Props.AABB
import Verif.Props.BVH
import Verif.Props.MemoryView
import Verif.Props.Knots
import Verif.Props.Curve
import Verif.Props.Surface
import Verif.Props.Matrix
import Verif.Props.Newton
import Verif.Props.Monomial
import Verif.Props.Integrate
import Verif.Props.Minimize
import Verif.Props.RoundingMinimize
import Verif.Props.RoundingIntegrate
import Verif.Props.ClosestPoint
import Verif.Props.Plane
import Verif.Props.GJK
import Verif.Props.Hull2d
import Verif.Props.Separability
import Verif.Props.Hash
import Verif.Props.Polyline
import Verif.Props.Step
import Verif.Props.StepText
import Verif.Props.Boundary
import Verif.Props.Ssx
import Verif.Props.Ccx
import Verif.Props.Csx
import Verif.Props.Derivative
import Verif.Props.FiniteDiff
import Verif.Props.CurveLength
import Verif.Props.NewtonQuadratic
import Verif.Props.VecOps
import Verif.Props.HashQuality
import Verif.Props.Outcomes
import Verif.Props.Decompose
import Verif.Props.Join
import Verif.Props.GaussMap
import Verif.Props.Detect
import Verif.Props.NestedBoxes
import Verif.Props.RatDerivs
import Verif.Props.DerivNets
import Verif.Props.Refine
import Verif.Props.Removal
import Verif.Props.SphericalBox
import Verif.Props.SurfaceCross
import Verif.Lemmas.Smooth
import Verif.Lemmas.SmoothReal
import Verif.Lemmas.Periodic
import Verif.Props.Smooth
import Verif.Props.LocalControl
import Verif.Props.Periodic
import Verif.Model.CurveObject
import Verif.Props.CurveObject
import Verif.Props.BVHSplit
import Verif.Props.BVHManual
import Verif.Model.Hull3d
import Verif.Props.Hull3d
import Verif.Spec.ConvexPolygon
import Verif.Lemmas.ConvexSep
import Verif.Props.ConvexPolygon
import Verif.Model.PolygonNormals
import Verif.Props.PolygonNormals
import Verif.Props.Files
import Verif.Model.QuickHull
import Verif.Spec.Solid
import Verif.Lemmas.Orient
import Verif.Lemmas.Polytope
import Verif.Lemmas.PolytopeStep
import Verif.Lemmas.PolytopeHull
import Verif.Lemmas.QuickRidge
import Verif.Lemmas.QuickVisit
import Verif.Lemmas.QuickLoop
import Verif.Lemmas.QuickSimplex
import Verif.Lemmas.QuickDet
import Verif.Lemmas.QuickCheck
import Verif.Lemmas.QuickBasis
import Verif.Lemmas.QuickFacets
import Verif.Lemmas.QuickPoints
import Verif.Props.QuickHull
import Verif.Model.Text
import Verif.Spec.Text
import Verif.Lemmas.Text
import Verif.Props.Text
import Verif.Model.Utils
import Verif.Props.Utils
import Verif.Lemmas.HullMono
import Verif.Props.SatQuick
import Verif.Props.HullInteger
import Verif.Model.Arith
import Verif.Spec.Rounding
import Verif.Lemmas.Rounding
import Verif.Props.RoundingEval
import Verif.Lemmas.RoundingInsert
import Verif.Lemmas.FloatOne
import Verif.Props.RoundingInsert
import Verif.Props.RoundingSplit
import Verif.Spec.RoundingDecompose
import Verif.Props.RoundingDecompose
import Verif.Spec.RoundingCcx
import Verif.Lemmas.RoundingCcx
import Verif.Props.RoundingCcx
import Verif.Spec.CcxEnds
import Verif.Lemmas.CcxEnds
import Verif.Props.CcxEnds
import Verif.Props.AABBSimd
import Verif.Props.KDHeap
import Verif.Props.MVHeap
import Verif.Props.NanBoxes
import Verif.Props.NanTree
import Verif.Model.Alias
import Verif.Props.Alias
import Verif.Model.Reuse
import Verif.Lemmas.Reuse
import Verif.Props.Reuse
import Verif.Model.CsxCode
import Verif.Props.CsxComplete
import Verif.Props.CsxCode
import Verif.Model.SsxCode
import Verif.Spec.SsxCode
import Verif.Lemmas.SsxCode
import Verif.Props.SsxCode
import Verif.Props.SsxCodeExample
import Verif.Model.Hull2dArg
import Verif.Lemmas.Hull2dArg
import Verif.Props.Hull2dArg
import Verif.Model.FloatLength
import Verif.Lemmas.FloatLength
import Verif.Props.FloatLength
import Verif.Lemmas.CcxSlope
import Verif.Lemmas.CcxDefault
import Verif.Model.Bindings
import Verif.Props.Bindings
import Verif.Spec.NanCurve
import Verif.Lemmas.NanCurve
import Verif.Props.NanCurve
import Verif.Spec.RoundingSurface
import Verif.Lemmas.RoundingSurface
import Verif.Props.RoundingSurface
import Verif.Props.RoundingSurfaceSplit
import Verif.Props.RoundingSurfaceDecompose
import Verif.Spec.RoundingHull2d
import Verif.Lemmas.RoundingHull2d
import Verif.Props.RoundingHull2d
import Verif.Props.RoundingRelationship
import Verif.Props.RoundingSat
import Verif.Props.RoundingVec
import Verif.Props.RoundingProject
import Verif.Props.RoundingInside
