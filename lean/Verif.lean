import Verif.Lemmas.Axial
import Verif.Lemmas.Paraxial
import Verif.Lemmas.ParaxialTrace
import Verif.Lemmas.Paths
import Verif.Lemmas.PolySurf
import Verif.Lemmas.PolyTrace
import Verif.Lemmas.Simplex
import Verif.Lemmas.SimplexOps
import Verif.Lemmas.SimplexPoly
import Verif.Lemmas.SimplexTransform
import Verif.Lemmas.Surface
import Verif.Lemmas.Symmetry
import Verif.Lemmas.Taylor
import Verif.Lemmas.TaylorStep
import Verif.Lemmas.TaylorSurf
import Verif.Lemmas.ThirdOrder
import Verif.Lemmas.Trace
import Verif.Lemmas.Transform
import Verif.Lemmas.Vec
import Verif.Model.Aiming
import Verif.Model.Align
import Verif.Model.Analysis
import Verif.Model.Arcball
import Verif.Model.Beam
import Verif.Model.Cache
import Verif.Model.Compiled
import Verif.Model.CompiledAxis
import Verif.Model.CompiledEigen
import Verif.Model.CompiledImport
import Verif.Model.CompiledInverse
import Verif.Model.Decompose
import Verif.Model.Describe
import Verif.Model.Drawing
import Verif.Model.Elements
import Verif.Model.Entry
import Verif.Model.Figures
import Verif.Model.FromMatrix
import Verif.Model.Gaussian
import Verif.Model.GaussianTable
import Verif.Model.GlassFile
import Verif.Model.Homog
import Verif.Model.Library
import Verif.Model.MatDict
import Verif.Model.Material
import Verif.Model.Mtf
import Verif.Model.NormalizeZ
import Verif.Model.Optimize
import Verif.Model.Paraxial
import Verif.Model.ParaxialTrace
import Verif.Model.Parse
import Verif.Model.Paths
import Verif.Model.Plot
import Verif.Model.PolyNames
import Verif.Model.PolyPrint
import Verif.Model.PolyTrace
import Verif.Model.Psf
import Verif.Model.PyAxis
import Verif.Model.Quadrature
import Verif.Model.Quat
import Verif.Model.Raphson
import Verif.Model.Resolution
import Verif.Model.Reversed
import Verif.Model.Sampling
import Verif.Model.Seidel
import Verif.Model.Serial
import Verif.Model.Simplex
import Verif.Model.Solve
import Verif.Model.Spot
import Verif.Model.Startup
import Verif.Model.Sums
import Verif.Model.Superimpose
import Verif.Model.System
import Verif.Model.Tables
import Verif.Model.Trace
import Verif.Model.Transform
import Verif.Model.Update
import Verif.Model.Vec
import Verif.Model.Zmf
import Verif.Props.Aberration
import Verif.Props.Affine
import Verif.Props.Aim
import Verif.Props.Aiming
import Verif.Props.Align
import Verif.Props.AlignAxis
import Verif.Props.Analysis
import Verif.Props.Angles
import Verif.Props.Arcball
import Verif.Props.ArcballDrag
import Verif.Props.Asphere
import Verif.Props.Backwards
import Verif.Props.BackwardsTilted
import Verif.Props.Beam
import Verif.Props.Cache
import Verif.Props.CacheAny
import Verif.Props.Centre
import Verif.Props.Coddington
import Verif.Props.Compiled
import Verif.Props.CompiledAxis
import Verif.Props.CompiledEigen
import Verif.Props.CompiledInverse
import Verif.Props.CompiledMod
import Verif.Props.CompiledQuat
import Verif.Props.CompiledSuper
import Verif.Props.CompiledVector
import Verif.Props.Convex
import Verif.Props.Decompose
import Verif.Props.Describe
import Verif.Props.DiscQuadrature
import Verif.Props.Dummy
import Verif.Props.Eigenrays
import Verif.Props.Entry
import Verif.Props.Etendue
import Verif.Props.Euler
import Verif.Props.Figures
import Verif.Props.FiniteObject
import Verif.Props.FirstOrder
import Verif.Props.FirstOrderExamples
import Verif.Props.FromMatrix
import Verif.Props.FromProjection
import Verif.Props.FromRotation
import Verif.Props.FromScale
import Verif.Props.Gaussian
import Verif.Props.GaussianAxes
import Verif.Props.GaussianModes
import Verif.Props.GaussianTable
import Verif.Props.GlassFile
import Verif.Props.Homog
import Verif.Props.Legendre
import Verif.Props.LensGuide
import Verif.Props.Library
import Verif.Props.Limit
import Verif.Props.LimitNewton
import Verif.Props.LimitSystem
import Verif.Props.Malus
import Verif.Props.MatDict
import Verif.Props.Material
import Verif.Props.MirrorImage
import Verif.Props.Mirrors
import Verif.Props.Monocentric
import Verif.Props.Mtf
import Verif.Props.NormalizeZ
import Verif.Props.OldSolve
import Verif.Props.Optimize
import Verif.Props.Outline
import Verif.Props.Paraxial
import Verif.Props.Parse
import Verif.Props.ParseArray
import Verif.Props.ParseHeader
import Verif.Props.ParseOslo
import Verif.Props.Paths
import Verif.Props.Placement
import Verif.Props.PlateShift
import Verif.Props.Plates
import Verif.Props.Plot
import Verif.Props.PolyEval
import Verif.Props.PolyNewton
import Verif.Props.PolyPrint
import Verif.Props.PolySeidel
import Verif.Props.PolyTaylor
import Verif.Props.PolyTrace
import Verif.Props.Psf
import Verif.Props.PyAxis
import Verif.Props.Quadrature
import Verif.Props.Quat
import Verif.Props.Refraction
import Verif.Props.Resolution
import Verif.Props.Resonator
import Verif.Props.Reverse
import Verif.Props.SameMedium
import Verif.Props.Sampling
import Verif.Props.Seidel
import Verif.Props.SeidelExamples
import Verif.Props.SeidelForms
import Verif.Props.Serial
import Verif.Props.Simplex
import Verif.Props.SimplexTransform
import Verif.Props.Smooth
import Verif.Props.Solve
import Verif.Props.Spot
import Verif.Props.Startup
import Verif.Props.Stigmatic
import Verif.Props.StopSize
import Verif.Props.Sums
import Verif.Props.Superimpose
import Verif.Props.Surface
import Verif.Props.Symmetry
import Verif.Props.System
import Verif.Props.Tables
import Verif.Props.Trace
import Verif.Props.TraceLaws
import Verif.Props.Update
import Verif.Props.Wavefront
import Verif.Props.Zmf
import Verif.Audit
