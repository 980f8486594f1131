import Verif.Model.AddDagp
import Verif.Model.Boundary
import Verif.Model.CachingTracer
import Verif.Model.Dagp
import Verif.Model.DagpIO
import Verif.Model.Diff
import Verif.Model.Dommaschk
import Verif.Model.EllLines
import Verif.Model.Emc3Tracer
import Verif.Model.EndToEnd
import Verif.Model.Examples
import Verif.Model.Field
import Verif.Model.FieldCoils
import Verif.Model.FieldData
import Verif.Model.FieldMore
import Verif.Model.FieldTracer
import Verif.Model.Final
import Verif.Model.FusionTracer
import Verif.Model.Geqdsk
import Verif.Model.GetMetric
import Verif.Model.Grid
import Verif.Model.GridGen
import Verif.Model.GridVolume
import Verif.Model.LineFromPoints
import Verif.Model.MakeMaps
import Verif.Model.MakeMapsExc
import Verif.Model.MakeMapsInPlace
import Verif.Model.MapWriter
import Verif.Model.Mms
import Verif.Model.MmsGrid
import Verif.Model.ModifyMapsMem
import Verif.Model.ParMetric
import Verif.Model.ParMetricInt
import Verif.Model.Plot
import Verif.Model.PolMaps
import Verif.Model.PolRect
import Verif.Model.PolStructured
import Verif.Model.Progress
import Verif.Model.Reversible
import Verif.Model.RzLine
import Verif.Model.Service
import Verif.Model.Smooth
import Verif.Model.SmoothInt
import Verif.Model.Spectral
import Verif.Model.TestDiff
import Verif.Model.TestDistance
import Verif.Model.TestGrid
import Verif.Model.TestLine
import Verif.Model.TestSlab
import Verif.Model.TestSmooth
import Verif.Model.TestTracer
import Verif.Model.TestWeb
import Verif.Model.Upscale
import Verif.Model.Volume
import Verif.Model.VolumeCurve
import Verif.Model.VolumeSlab
import Verif.Model.WebTracer
import Verif.Model.Weights
import Verif.Prelude.Basic
import Verif.Prelude.NdArray
import Verif.Prelude.Numpy
import Verif.Prelude.ODict
import Verif.Proofs.GetMetric
import Verif.Proofs.InPlace
import Verif.Proofs.Jacobian
import Verif.Proofs.MakeMaps
import Verif.Proofs.MakeMapsDict
import Verif.Proofs.MakeMapsExc
import Verif.Proofs.MakeMapsLookup
import Verif.Proofs.MakeMapsOk
import Verif.Proofs.MapWriterFrame
import Verif.Proofs.ModifyMaps
import Verif.Proofs.Numbering
import Verif.Proofs.WeightsAssembly
import Verif.Proofs.WeightsCsr
import Verif.Proofs.WeightsDest
import Verif.Proofs.WeightsInterp
import Verif.Proofs.WeightsLegWeights
import Verif.Proofs.WeightsNumbering
import Verif.Proofs.WeightsOps
import Verif.Proofs.WeightsRows
import Verif.Proofs.WeightsSpaces
import Verif.Proofs.WeightsStencil
import Verif.Props.AddDagp
import Verif.Props.Amplify
import Verif.Props.AmplifyExact
import Verif.Props.ArcLength
import Verif.Props.Boundary
import Verif.Props.BoundaryConvex
import Verif.Props.BoundaryVertex
import Verif.Props.CachingTracer
import Verif.Props.CircleDistance
import Verif.Props.ClosestMiddle
import Verif.Props.ClosestStraight
import Verif.Props.Curvature
import Verif.Props.Dagp
import Verif.Props.DagpEnergy
import Verif.Props.DagpGrow
import Verif.Props.DagpIO
import Verif.Props.DagpSym
import Verif.Props.Diff
import Verif.Props.DiffOrder
import Verif.Props.Dommaschk
import Verif.Props.DommaschkExact
import Verif.Props.DommaschkField
import Verif.Props.DommaschkGlobal
import Verif.Props.DommaschkSurf
import Verif.Props.EllAlign
import Verif.Props.EllMove
import Verif.Props.Emc3Search
import Verif.Props.Emc3Tracer
import Verif.Props.EndToEnd
import Verif.Props.EndToEndModify
import Verif.Props.Exact
import Verif.Props.Exact10
import Verif.Props.Exact2
import Verif.Props.Exact3
import Verif.Props.Exact4
import Verif.Props.Exact5
import Verif.Props.Exact6
import Verif.Props.Exact7
import Verif.Props.Exact8
import Verif.Props.Exact9
import Verif.Props.ExampleScripts
import Verif.Props.Examples
import Verif.Props.FastLine
import Verif.Props.Field
import Verif.Props.FieldCoils
import Verif.Props.FieldData
import Verif.Props.FieldLineLength
import Verif.Props.FieldMore
import Verif.Props.FieldScale
import Verif.Props.FieldTracer
import Verif.Props.Final
import Verif.Props.FindIndex
import Verif.Props.FluxCheck
import Verif.Props.FluxTube
import Verif.Props.FusionTracer
import Verif.Props.Geqdsk
import Verif.Props.GeqdskFile
import Verif.Props.GeqdskVertex
import Verif.Props.GetMetric
import Verif.Props.GradPar
import Verif.Props.Grid
import Verif.Props.GridGen
import Verif.Props.GridMetric
import Verif.Props.GridVolume
import Verif.Props.GridVolumeTest
import Verif.Props.InPlace
import Verif.Props.InPlaceSamples
import Verif.Props.InverseMaps
import Verif.Props.Iota
import Verif.Props.JacobianMetric
import Verif.Props.JacobianRadius
import Verif.Props.LapNumbers
import Verif.Props.Laplace
import Verif.Props.LaplaceEqual
import Verif.Props.LengthSymmetry
import Verif.Props.LineFromPoints
import Verif.Props.MakeMaps
import Verif.Props.MakeMapsExample
import Verif.Props.MakeMapsExc
import Verif.Props.MapSymmetry
import Verif.Props.MapSymmetryGrids
import Verif.Props.MapWriter
import Verif.Props.MapWriterExact
import Verif.Props.MapsConsistent
import Verif.Props.MetricFile
import Verif.Props.MmsFix
import Verif.Props.MmsGrid
import Verif.Props.MmsMaps
import Verif.Props.MmsNames
import Verif.Props.MmsOrder
import Verif.Props.ModifyMaps
import Verif.Props.ModifyMapsMem
import Verif.Props.NearTracer
import Verif.Props.Newton
import Verif.Props.Orbits
import Verif.Props.ParCoords
import Verif.Props.ParInt
import Verif.Props.ParMetric
import Verif.Props.ParallelIntegral
import Verif.Props.ParallelOrder
import Verif.Props.ParallelSecond
import Verif.Props.Plot
import Verif.Props.PolMetric
import Verif.Props.PolRect
import Verif.Props.PolyClockwise
import Verif.Props.Progress
import Verif.Props.RadiusPlanes
import Verif.Props.Reconstruct
import Verif.Props.ReconstructExact
import Verif.Props.Retry
import Verif.Props.Reversible
import Verif.Props.ReversibleBack
import Verif.Props.ReversibleLip
import Verif.Props.ReversibleMaps
import Verif.Props.ReversibleOrder
import Verif.Props.RunsExact
import Verif.Props.RunsOverlap
import Verif.Props.RzCircle
import Verif.Props.RzClosest
import Verif.Props.RzDistance
import Verif.Props.RzLine
import Verif.Props.RzPosition
import Verif.Props.SavedNames
import Verif.Props.Service
import Verif.Props.SlabSums
import Verif.Props.SliceNames
import Verif.Props.Smooth
import Verif.Props.SmoothCircle
import Verif.Props.SmoothCurve
import Verif.Props.SmoothInt
import Verif.Props.SmoothLoop
import Verif.Props.Spectral
import Verif.Props.StellSurf
import Verif.Props.StellSymmetry
import Verif.Props.StraightLength
import Verif.Props.SubSamples
import Verif.Props.TestDiff
import Verif.Props.TestDiffC4
import Verif.Props.TestDiffPer
import Verif.Props.TestDistance
import Verif.Props.TestGrid
import Verif.Props.TestLine
import Verif.Props.TestSlab
import Verif.Props.TestSmooth
import Verif.Props.TestStell
import Verif.Props.TestTracer
import Verif.Props.TestTracerDetects
import Verif.Props.TestWeb
import Verif.Props.Tight1
import Verif.Props.Tight2
import Verif.Props.Tighten
import Verif.Props.Tighten2
import Verif.Props.Tighten3
import Verif.Props.Tighten4
import Verif.Props.TorusVolume
import Verif.Props.TracePoincare
import Verif.Props.TwoOpt
import Verif.Props.TwoOptCross
import Verif.Props.TwoOptExact
import Verif.Props.TwoOptLocal
import Verif.Props.Upscale
import Verif.Props.Volume
import Verif.Props.VolumeCurve
import Verif.Props.VolumeOrder
import Verif.Props.VolumeSlab
import Verif.Props.VolumeTorus
import Verif.Props.WebTracer
import Verif.Props.WeightsAnyZ
import Verif.Props.WeightsCells
import Verif.Props.WeightsExample
import Verif.Props.WeightsNarrow
import Verif.Props.WeightsOrder
import Verif.Props.WeightsOrderAny
import Verif.Props.WeightsPeriodic
import Verif.Props.WeightsRows
import Verif.Props.WeightsSparse
import Verif.Props.WriteDict
import Verif.Props.YIndex
import Verif.Spec.ModifyMaps
import Verif.Spec.Weights
