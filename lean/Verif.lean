import Verif.Cases.Density
import Verif.Cases.Discriminant
import Verif.Cases.Distance
import Verif.Cases.GWRFit
import Verif.Cases.GWRRuns
import Verif.Cases.Generalised
import Verif.Cases.Glm
import Verif.Cases.Gpu
import Verif.Cases.GpuTask
import Verif.Cases.Kernel
import Verif.Cases.MapScale
import Verif.Cases.Multiscale
import Verif.Cases.MultiscaleModes
import Verif.Cases.Reordering
import Verif.Cases.Rest
import Verif.Cases.Ridge
import Verif.Cases.Robust
import Verif.Cases.Scalable
import Verif.Cases.Search
import Verif.Cases.Settings
import Verif.Cases.SpaceTime
import Verif.Cases.Summary
import Verif.Core.Loops
import Verif.Core.Res
import Verif.Lemmas.BandwidthSelector
import Verif.Lemmas.Distance
import Verif.Lemmas.ForwardSelector
import Verif.Lemmas.Geo
import Verif.Lemmas.Kernel
import Verif.Lemmas.KernelAdaptive
import Verif.Lemmas.LocalRegression
import Verif.Lemmas.Loops
import Verif.Lemmas.RightSVD
import Verif.Lemmas.Rows
import Verif.Lemmas.SingularValues
import Verif.Lemmas.SpatialWeight
import Verif.Lemmas.Summary
import Verif.Model.Accesses
import Verif.Model.BandwidthSelector
import Verif.Model.Config
import Verif.Model.CuMat
import Verif.Model.Distance
import Verif.Model.ForwardSelector
import Verif.Model.GGWRRun
import Verif.Model.GLM
import Verif.Model.GTWR
import Verif.Model.GTWRRun
import Verif.Model.GWDA
import Verif.Model.GWDARun
import Verif.Model.GWDR
import Verif.Model.GWDRRun
import Verif.Model.GWPCA
import Verif.Model.GWRBasic
import Verif.Model.GWRBasicRun
import Verif.Model.GWRCuda
import Verif.Model.GWRGeneralized
import Verif.Model.GWRLocalCollinearity
import Verif.Model.GWRMultiscale
import Verif.Model.GWRMultiscaleRun
import Verif.Model.GWRObject
import Verif.Model.GWRRidgeRun
import Verif.Model.GWRRobust
import Verif.Model.GWRRun
import Verif.Model.GWRScalable
import Verif.Model.GWRScalableReport
import Verif.Model.GWRScalableRun
import Verif.Model.GWRSelect
import Verif.Model.GWSS
import Verif.Model.GWSSDel
import Verif.Model.GpuRun
import Verif.Model.GpuTask
import Verif.Model.GpuVars
import Verif.Model.Kernel
import Verif.Model.KernelCuda
import Verif.Model.LocalRegression
import Verif.Model.Mpi
import Verif.Model.MultiscaleModes
import Verif.Model.MultiscaleMpi
import Verif.Model.MultiscaleRefit
import Verif.Model.Progress
import Verif.Model.RidgeRunGeneral
import Verif.Model.RobustRun
import Verif.Model.SelectorHeap
import Verif.Model.SpatialWeight
import Verif.Model.SummaryRun
import Verif.Model.TaskHeap
import Verif.Props.Accesses
import Verif.Props.BandwidthSelector
import Verif.Props.Config
import Verif.Props.CuMat
import Verif.Props.Distance
import Verif.Props.FailureModes
import Verif.Props.Formulas
import Verif.Props.ForwardSelector
import Verif.Props.GGWRRun
import Verif.Props.GGWRRunGeneral
import Verif.Props.GLM
import Verif.Props.GLMTrace
import Verif.Props.GTWR
import Verif.Props.GTWRRun
import Verif.Props.GTWRRunGeneral
import Verif.Props.GWDA
import Verif.Props.GWDARun
import Verif.Props.GWDR
import Verif.Props.GWDRRun
import Verif.Props.GWPCA
import Verif.Props.GWRBasic
import Verif.Props.GWRBasicRun
import Verif.Props.GWRCriteria
import Verif.Props.GWRCuda
import Verif.Props.GWRDefinition
import Verif.Props.GWREquivariance
import Verif.Props.GWRGeneralized
import Verif.Props.GWRInvariance
import Verif.Props.GWRLocalCollinearity
import Verif.Props.GWRMultiscale
import Verif.Props.GWRMultiscaleRun
import Verif.Props.GWRObject
import Verif.Props.GWRParallel
import Verif.Props.GWRRidgeRun
import Verif.Props.GWRRobust
import Verif.Props.GWRRun
import Verif.Props.GWRScalable
import Verif.Props.GWRScalableReport
import Verif.Props.GWRScalableRun
import Verif.Props.GWRSelect
import Verif.Props.GWSS
import Verif.Props.GWSSDel
import Verif.Props.Geo
import Verif.Props.GpuRun
import Verif.Props.GpuTask
import Verif.Props.GpuVars
import Verif.Props.Kernel
import Verif.Props.KernelCuda
import Verif.Props.KernelWeight
import Verif.Props.MapDrawing
import Verif.Props.MapDrawingAny
import Verif.Props.MapDrawingDensity
import Verif.Props.MapDrawingDistance
import Verif.Props.MapDrawingFails
import Verif.Props.MapDrawingMultiscale
import Verif.Props.MapDrawingScalable
import Verif.Props.MapDrawingScale
import Verif.Props.MapDrawingSearch
import Verif.Props.MapDrawingTime
import Verif.Props.ModesAgree
import Verif.Props.ModesAgreeMore
import Verif.Props.Mpi
import Verif.Props.MultiscaleModes
import Verif.Props.MultiscaleMpi
import Verif.Props.MultiscaleRefit
import Verif.Props.MultiscaleRefitFails
import Verif.Props.Progress
import Verif.Props.Reordering
import Verif.Props.ReorderingClasses
import Verif.Props.ReorderingGeneralized
import Verif.Props.ReorderingMore
import Verif.Props.ResponseChange
import Verif.Props.ResponseRidge
import Verif.Props.RidgeRunGeneral
import Verif.Props.RobustRun
import Verif.Props.RobustRunGeneral
import Verif.Props.SearchRange
import Verif.Props.SelectorHeap
import Verif.Props.SmallAdaptive
import Verif.Props.SpaceTimeAngle
import Verif.Props.SpatialWeight
import Verif.Props.SummaryRun
import Verif.Props.TaskHeap
import Verif.Props.WeightedCov
import Verif.Spec.Accesses
import Verif.Spec.BackFitting
import Verif.Spec.Density
import Verif.Spec.Discriminant
import Verif.Spec.Distance
import Verif.Spec.Formulas
import Verif.Spec.ForwardSelector
import Verif.Spec.GLM
import Verif.Spec.GWRDefinition
import Verif.Spec.GWRScore
import Verif.Spec.Geo
import Verif.Spec.GpuRun
import Verif.Spec.GpuTask
import Verif.Spec.History
import Verif.Spec.IRLS
import Verif.Spec.KernelWeight
import Verif.Spec.LocalScoring
import Verif.Spec.MultiscaleMpi
import Verif.Spec.ObjectHistory
import Verif.Spec.OrderStat
import Verif.Spec.PCA
import Verif.Spec.Parallel
import Verif.Spec.Progress
import Verif.Spec.Regression
import Verif.Spec.Reordering
import Verif.Spec.ResponseChange
import Verif.Spec.Ridge
import Verif.Spec.RidgeRun
import Verif.Spec.Scalable
import Verif.Spec.ScalableReport
import Verif.Spec.SearchRange
import Verif.Spec.SelectorHeap
import Verif.Spec.Smoother
import Verif.Spec.SpaceTime
import Verif.Spec.SpatialWeight
import Verif.Spec.Summary
import Verif.Spec.SummaryTables
import Verif.Spec.TaskHeap
import Verif.Spec.VarSelect
import Verif.Spec.WeightedCov
