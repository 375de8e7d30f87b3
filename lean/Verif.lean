import Verif.Exec.Model
import Verif.Exec.Bfs
import Verif.Exec.Sort
import Verif.Exec.Forward
import Verif.Exec.Props
import Verif.Exec.GradModel
import Verif.Exec.Backward
import Verif.Exec.GradProps
import Verif.Exec.GoosGradModel
import Verif.Exec.GoosGrad
import Verif.Exec.GoosGradProps
import Verif.Plan.Model
import Verif.Plan.Spec
import Verif.Plan.Lemmas
import Verif.Plan.Log
import Verif.Plan.Props
import Verif.Plan.Scipy
import Verif.Plan.ScipySpec
import Verif.Plan.ScipyLemmas
import Verif.Plan.ScipyProps
import Verif.Plan.EventProps
import Verif.Plan.Problem
import Verif.Plan.ProblemLemmas
import Verif.Plan.ProblemProps
import Verif.Plan.ScipyInv
import Verif.Plan.ScipyInvProps
import Verif.Plan.ScipyInvParams
import Verif.Plan.InvGradient
import Verif.Plan.InvGradientProps
import Verif.Plan.GoosDesign
import Verif.Plan.GoosDesignProps
import Verif.Plan.Assign
import Verif.Plan.AssignProps
import Verif.Schema.Names
import Verif.Schema.NamesProps
import Verif.Schema.Context
import Verif.Schema.ContextProps
import Verif.Schema.Plan
import Verif.Schema.PlanSpec
import Verif.Schema.PlanLemmas
import Verif.Schema.PlanProps
import Verif.Schema.Rebuild
import Verif.Schema.RebuildSpec
import Verif.Schema.RebuildLemmas
import Verif.Schema.RebuildProps
import Verif.Schema.RebuildHist
import Verif.Schema.RebuildSave
import Verif.Schema.RebuildFalse
import Verif.Schema.Arrays
import Verif.Schema.ArraysProps
import Verif.Schema.Gen
import Verif.Schema.GenProps
import Verif.Schema.Copy
import Verif.Schema.CopyProps
import Verif.Schema.Autoname
import Verif.Schema.AutonameProps
import Verif.Schema.Dispatch
import Verif.Schema.DispatchProps
import Verif.Fdfd.Vec
import Verif.Fdfd.VecProps
import Verif.Fdfd.Operators
import Verif.Fdfd.Cells
import Verif.Fdfd.Shift
import Verif.Fdfd.ShiftProps
import Verif.Fdfd.PlaneWave
import Verif.Fdfd.Functional
import Verif.Fdfd.Curl
import Verif.Fdfd.CurlProps
import Verif.Fdfd.Symm
import Verif.Fdfd.SymmProps
import Verif.Fdfd.Grid
import Verif.Fdfd.GridLemmas
import Verif.Fdfd.GridProps
import Verif.Fdfd.UniformPml
import Verif.Fdfd.UniformPmlProps
import Verif.Fdfd.Solver
import Verif.Fdfd.SolverProps
import Verif.Fdfd.Adjoint
import Verif.Fdfd.FieldDeriv
import Verif.Fdfd.AdjointProps
import Verif.Fdfd.EmChain
import Verif.Fdfd.EmChainProps
import Verif.Render.DualWidths
import Verif.Render.DualWidthsProps
import Verif.Fdfd.SimLaws
import Verif.Fdfd.SimLawsProps
import Verif.Fdfd.PlaneNode
import Verif.Fdfd.PlaneNodeProps
import Verif.Fdfd.SimLawsGridProps
import Verif.Fdfd.GoosChain
import Verif.Fdfd.GoosChainProps
import Verif.Fdfd.EigNode
import Verif.Fdfd.EigLemmas
import Verif.Fdfd.EigNodeProps
import Verif.Fdfd.ConjProps
import Verif.Sim.Cache
import Verif.Sim.CacheSpec
import Verif.Sim.CacheProps
import Verif.Sim.NodeProps
import Verif.Fdfd.Mirror
import Verif.Fdfd.MirrorProps
import Verif.Fdfd.ConvertProps
import Verif.Fdfd.PoyntingProps
import Verif.Fdfd.PhcMode
import Verif.Fdfd.PhcLemmas
import Verif.Fdfd.PhcProps
import Verif.Fdfd.PlanePower
import Verif.Fdfd.PlanePowerProps
import Verif.Fdfd.OverlapObj
import Verif.Fdfd.OverlapObjProps
import Verif.Fdfd.FreeSpace
import Verif.Fdfd.FreeSpaceProps
import Verif.Fdfd.FreeSpaceMask
import Verif.Fdfd.FreeSpaceSource
import Verif.Fdfd.FreeSpaceOneWay
import Verif.Fdfd.GaussBeam
import Verif.Far.Mesh
import Verif.Far.MeshCorners
import Verif.Far.MeshGeom
import Verif.Far.MeshProps
import Verif.Far.MeshSelect
import Verif.Far.MeshArea
import Verif.Far.Transform
import Verif.Far.TransformProps
import Verif.Far.Scatter
import Verif.Far.ScatterProps
import Verif.Mat.Tables
import Verif.Mat.Pchip
import Verif.Mat.PchipProps
import Verif.Mat.Material
import Verif.Mat.MaterialProps
import Verif.Mat.IndexProps
import Verif.Sim.Server
import Verif.Sim.ServerProps
import Verif.Sim.Threads
import Verif.Sim.ThreadsProps
import Verif.Fdfd.SymHalf
import Verif.Fdfd.SymHalfProps
import Verif.Fdfd.PlanePowerBalance
import Verif.Opt.Param
import Verif.Opt.ParamProps
import Verif.Opt.Descent
import Verif.Opt.DescentProps
import Verif.Opt.StepProps
import Verif.Opt.Constrained
import Verif.Opt.ConstrainedProps
import Verif.Obj.Nodes
import Verif.Obj.NodeSpec
import Verif.Obj.NodeProps
import Verif.Obj.NodeProps2
import Verif.Obj.Structure
import Verif.Obj.StructureProps
import Verif.Obj.PlanExpr
import Verif.Obj.PlanExprSpec
import Verif.Obj.PlanExprProps
import Verif.Obj.Expr
import Verif.Obj.ExprSpec
import Verif.Obj.ExprLemmas
import Verif.Obj.ExprProps
import Verif.Obj.Slice
import Verif.Render.Raster
import Verif.Render.RasterProps
import Verif.Render.Polygon
import Verif.Render.PolygonSpec
import Verif.Render.PolygonLemmas
import Verif.Render.PolygonEdges
import Verif.Render.PolygonIntegral
import Verif.Render.PolygonProps
import Verif.Render.Grid
import Verif.Render.GridProps
import Verif.Render.Limits
import Verif.Render.LimitsProps
import Verif.Render.Coord
import Verif.Render.CoordProps
import Verif.Render.Slice
import Verif.Render.SliceProps
import Verif.Render.Group
import Verif.Render.GroupProps
import Verif.Render.Paint
import Verif.Render.PaintProps
import Verif.Render.Draw
import Verif.Render.DrawSpec
import Verif.Render.DrawLemmas
import Verif.Render.DrawProps
import Verif.Render.View
import Verif.Render.ViewProps
import Verif.Render.DrawShapes
import Verif.Render.Stack
import Verif.Render.StackSpec
import Verif.Render.StackProps
import Verif.Render.Reduced
import Verif.Render.ReducedProps
import Verif.Render.Pixel
import Verif.Render.PixelProps
import Verif.Render.Selection
import Verif.Render.SelectionProps
import Verif.Opt.RunProps
import Verif.Opt.Problems
import Verif.Opt.ProblemsProps
import Verif.Grating.Param
import Verif.Grating.ParamProps
import Verif.Grating.Fit
import Verif.Grating.FitSpec
import Verif.Grating.FitLemmas
import Verif.Grating.FitLoops
import Verif.Grating.FitProps
import Verif.Grating.MultiEtch
import Verif.Grating.MultiEtchLemmas
import Verif.Grating.MultiEtchProps
import Verif.Grating.MultiEtchGrad
import Verif.Grating.EtchConstraint
import Verif.Grating.EtchConstraintProps
import Verif.Grating.PixelatedProps
import Verif.Work.Workspace
import Verif.Work.WorkspaceLemmas
import Verif.Work.WorkspaceProps
import Verif.Work.ByType
import Verif.Work.ByTypeProps
import Verif.Work.Resume
import Verif.Work.ResumeLemmas
import Verif.Work.ResumeProps
import Verif.Work.Penalty
import Verif.Work.PenaltyProps
import Verif.Work.Logs
import Verif.Work.LogsProps
import Verif.Work.Plots
import Verif.Work.PlotsProps
import Verif.Work.Monitors
import Verif.Work.MonitorsProps
import Verif.Render.Region
import Verif.Render.RegionProps
import Verif.Render.Direction
import Verif.Render.DirectionProps
import Verif.Gds.Import
import Verif.Gds.ImportProps
import Verif.Gds.Boxes
import Verif.Gds.BoxesProps
import Verif.Gds.Export
import Verif.Gds.ExportLemmas
import Verif.Gds.ExportProps
import Verif.Grating.General
import Verif.Grating.GeneralSpec
import Verif.Grating.GeneralLemmas
import Verif.Grating.GeneralLoops
import Verif.Grating.GeneralProps
import Verif.Grating.EdgeConstraint
import Verif.Grating.EdgeConstraintProps
import Verif.Grating.Feature
import Verif.Grating.FeatureProps
import Verif.Grating.EndToEnd
import Verif.Grating.EndToEndProps
import Verif.Fdfd.Rotation
import Verif.Fdfd.RotationProps
import Verif.Fdfd.Waveguide
import Verif.Fdfd.WaveguideLemmas
import Verif.Fdfd.WaveguideProps
import Verif.Fdfd.WaveguideNorm
import Verif.Fdfd.WaveguideSource
import Verif.Fdfd.WaveguideSourceProps
import Verif.Fdfd.WaveguideOneWay
import Verif.Fdfd.WaveguideOverlap
import Verif.Fdfd.WaveguideOverlapProps
import Verif.Fdfd.Transmission
import Verif.Fdfd.TransmissionProps
import Verif.Fdfd.ImportOverlap
import Verif.Fdfd.ImportOverlapProps
import Verif.Fdfd.Nonuniform
import Verif.Fdfd.NonuniformProps
import Verif.Flow.Classes
import Verif.Flow.ClassesLemmas
import Verif.Flow.ClassesProps
import Verif.Flow.Array
import Verif.Flow.ArrayProps
import Verif.Flow.Cast
import Verif.Flow.CastProps
import Verif.Cubic.Sparse
import Verif.Cubic.Geometry
import Verif.Cubic.GeometryLemmas
import Verif.Cubic.GeometrySteps
import Verif.Cubic.GeometryProps
import Verif.Cubic.Periodicity
import Verif.Cubic.PeriodicityProps
import Verif.Cubic.Differences
import Verif.Cubic.DifferencesProps
import Verif.Cubic.Interp
import Verif.Cubic.InterpSpec
import Verif.Cubic.InterpLemmas
import Verif.Cubic.InterpTable
import Verif.Cubic.InterpSteps
import Verif.Cubic.InterpEval
import Verif.Cubic.InterpProps
import Verif.Cubic.SmoothProps
import Verif.Cubic.InterpSym
import Verif.Cubic.Param
import Verif.Cubic.ParamProps
import Verif.Cubic.Hermite
import Verif.Cubic.HermiteLemmas
import Verif.Cubic.HermiteSmooth
import Verif.Cubic.HermiteProps
import Verif.Cubic.HermiteState
import Verif.Cubic.Creator
import Verif.Cubic.CreatorLemmas
import Verif.Cubic.CreatorProps
