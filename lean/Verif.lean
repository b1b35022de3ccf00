import Verif.Lemmas.Apollonian
import Verif.Lemmas.ApollonianSeed
import Verif.Lemmas.Basic
import Verif.Lemmas.Boundary4Conic
import Verif.Lemmas.Boundary4Cubic
import Verif.Lemmas.Boundary4Frame
import Verif.Lemmas.Boundary4Sort
import Verif.Lemmas.Chains
import Verif.Lemmas.ContactPoints
import Verif.Lemmas.Descartes
import Verif.Lemmas.DescartesRegion
import Verif.Lemmas.Ellipse
import Verif.Lemmas.EllipsePencil
import Verif.Lemmas.Float64
import Verif.Lemmas.FloatInt
import Verif.Lemmas.Gasket
import Verif.Lemmas.GasketFrame
import Verif.Lemmas.Inversion
import Verif.Lemmas.InversionEqual
import Verif.Lemmas.InversionMeet
import Verif.Lemmas.InversionOrbit
import Verif.Lemmas.InversionStep
import Verif.Lemmas.InversionWords
import Verif.Lemmas.LownerJohn4
import Verif.Lemmas.Mobius
import Verif.Lemmas.MobiusDisc
import Verif.Lemmas.Modular
import Verif.Lemmas.PingPong
import Verif.Lemmas.RingApollonian
import Verif.Lemmas.RingGasket
import Verif.Lemmas.Schottky
import Verif.Lemmas.SchottkyAction
import Verif.Lemmas.SchottkyCircle
import Verif.Lemmas.Soddy
import Verif.Lemmas.SoddyGasket
import Verif.Lemmas.SoddyStart
import Verif.Lemmas.SoddyUnit
import Verif.Lemmas.TriGasketCorner
import Verif.Lemmas.TriGasketExact
import Verif.Lemmas.TriGasketHole
import Verif.Lemmas.TriGasketMalfatti
import Verif.Lemmas.TriGasketPack
import Verif.Lemmas.TriGasketStart
import Verif.Lemmas.TriGasketSteps
import Verif.Lemmas.Triangle
import Verif.Lemmas.Trig
import Verif.Lemmas.Uniform
import Verif.Lemmas.UniformDisc
import Verif.Lemmas.UniformMaps
import Verif.Model.Affine
import Verif.Model.Aliases
import Verif.Model.Apollonian
import Verif.Model.Arc
import Verif.Model.Basic
import Verif.Model.Billiard
import Verif.Model.Boundary4
import Verif.Model.Circle
import Verif.Model.CircularGasket
import Verif.Model.Ellipse
import Verif.Model.EllipticalChains
import Verif.Model.Farey
import Verif.Model.Float64
import Verif.Model.FloatAffine
import Verif.Model.FloatAffineMap
import Verif.Model.FloatAngles
import Verif.Model.FloatArc
import Verif.Model.FloatCircleAngle
import Verif.Model.FloatCircumcircle
import Verif.Model.FloatConstruct
import Verif.Model.FloatCross
import Verif.Model.FloatDecide
import Verif.Model.FloatEllipse
import Verif.Model.FloatEllipsePath
import Verif.Model.FloatExcircles
import Verif.Model.FloatFixing
import Verif.Model.FloatGeom
import Verif.Model.FloatIncircle
import Verif.Model.FloatInvCompose
import Verif.Model.FloatLineEq
import Verif.Model.FloatLines
import Verif.Model.FloatMid
import Verif.Model.FloatMobius
import Verif.Model.FloatOrthOn
import Verif.Model.FloatOrthic
import Verif.Model.FloatRadical
import Verif.Model.FloatScaling
import Verif.Model.FloatSwap
import Verif.Model.FloatTransforms
import Verif.Model.Gasket
import Verif.Model.GasketMobius
import Verif.Model.Heap
import Verif.Model.HyperbolicTesselation
import Verif.Model.IcosahedralGasket
import Verif.Model.Ieee
import Verif.Model.IeeeMore
import Verif.Model.Inversion
import Verif.Model.Inversions
import Verif.Model.Line
import Verif.Model.LownerJohn4
import Verif.Model.MalfattiApollonian
import Verif.Model.Mobius
import Verif.Model.ModularTessellation
import Verif.Model.Objects
import Verif.Model.PyVal
import Verif.Model.Random
import Verif.Model.Schottky
import Verif.Model.Show
import Verif.Model.ThreeTangent
import Verif.Model.Transforms
import Verif.Model.Triangle
import Verif.Model.TriangularCircular
import Verif.Model.TriangularGasket
import Verif.Model.UniqueWith
import Verif.Props.Affine
import Verif.Props.Apollonian
import Verif.Props.ArcInside
import Verif.Props.Billiard
import Verif.Props.Boundary
import Verif.Props.Boundary4
import Verif.Props.Circle
import Verif.Props.Circle2
import Verif.Props.CircularGasket
import Verif.Props.Conformal
import Verif.Props.Drawing
import Verif.Props.Ellipse
import Verif.Props.Ellipse2
import Verif.Props.EllipseAngle
import Verif.Props.EllipseMatrixExact
import Verif.Props.EllipticalChains
import Verif.Props.Equality
import Verif.Props.Exact
import Verif.Props.Exact2
import Verif.Props.Exact3
import Verif.Props.Exact4
import Verif.Props.Exact5
import Verif.Props.Exact6
import Verif.Props.Example1
import Verif.Props.Farey
import Verif.Props.FivePoints
import Verif.Props.FloatAffine
import Verif.Props.FloatAffineMap
import Verif.Props.FloatAngles
import Verif.Props.FloatArc
import Verif.Props.FloatCircleAngle
import Verif.Props.FloatCircleLine
import Verif.Props.FloatCircles
import Verif.Props.FloatCircumcircle
import Verif.Props.FloatConstruct
import Verif.Props.FloatCross
import Verif.Props.FloatEllipse
import Verif.Props.FloatEllipsePath
import Verif.Props.FloatExcircles
import Verif.Props.FloatFixing
import Verif.Props.FloatFlat
import Verif.Props.FloatGeom
import Verif.Props.FloatIncircle
import Verif.Props.FloatIncludes
import Verif.Props.FloatInvCompose
import Verif.Props.FloatLineEq
import Verif.Props.FloatLines
import Verif.Props.FloatMid
import Verif.Props.FloatMobius
import Verif.Props.FloatMobiusPower
import Verif.Props.FloatOrthOn
import Verif.Props.FloatOrthic
import Verif.Props.FloatRadical
import Verif.Props.FloatReflection
import Verif.Props.FloatScaling
import Verif.Props.FloatSwap
import Verif.Props.FloatTransforms
import Verif.Props.FloatTriangle
import Verif.Props.FloatTriangles
import Verif.Props.Gasket
import Verif.Props.GasketMobius
import Verif.Props.Heap
import Verif.Props.HyperbolicTesselation
import Verif.Props.IcosahedralFrame
import Verif.Props.IcosahedralGasket
import Verif.Props.IcosahedralRun
import Verif.Props.Icosahedron
import Verif.Props.Ieee
import Verif.Props.IeeeMore
import Verif.Props.InvCompose
import Verif.Props.InvLine
import Verif.Props.Inversion
import Verif.Props.Inversions
import Verif.Props.Line
import Verif.Props.LineExact
import Verif.Props.LownerJohn
import Verif.Props.LownerJohn4
import Verif.Props.Malfatti
import Verif.Props.MalfattiApollonian
import Verif.Props.Methods
import Verif.Props.Minimal
import Verif.Props.Mobius
import Verif.Props.MobiusCircle
import Verif.Props.MobiusCircleExact
import Verif.Props.MobiusFixed
import Verif.Props.MobiusLine
import Verif.Props.MobiusPower
import Verif.Props.Modular
import Verif.Props.ModularTessellation
import Verif.Props.Projection
import Verif.Props.PyVal
import Verif.Props.PyVal2
import Verif.Props.Random
import Verif.Props.Reach
import Verif.Props.Schottky
import Verif.Props.SchottkyWords
import Verif.Props.Show
import Verif.Props.Steiner
import Verif.Props.SteinerEllipse
import Verif.Props.SteinerExtremal
import Verif.Props.SteinerFoci
import Verif.Props.TestSuite
import Verif.Props.TestSuite2
import Verif.Props.TestSuite3
import Verif.Props.ThreeTangent
import Verif.Props.Transforms
import Verif.Props.Transforms2
import Verif.Props.Translate
import Verif.Props.Triangle
import Verif.Props.TriangleIdent
import Verif.Props.TriangularCircular
import Verif.Props.TriangularGasket
import Verif.Props.TriangularGasketExact
import Verif.Props.TriangularGasketRun
import Verif.Props.Uniform
import Verif.Props.UniformLength
import Verif.Props.UniqueWith
import Verif.Spec.Billiard
import Verif.Spec.Chains
import Verif.Spec.Conformal
import Verif.Spec.ConvexPosition
import Verif.Spec.Drawing
import Verif.Spec.Gasket
import Verif.Spec.Inversions
import Verif.Spec.Mobius
import Verif.Spec.Modular
import Verif.Spec.Plane
import Verif.Spec.Schottky
import Verif.Spec.Space
import Verif.Spec.ThreeTangent
import Verif.Spec.Transforms
import Verif.Spec.TriGasket
import Verif.Spec.Uniform
