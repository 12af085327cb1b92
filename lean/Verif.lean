import Verif.Spec.Graph
import Verif.Proofs.Order
import Verif.Model.Paths
import Verif.Proofs.Paths
import Verif.Proofs.TotalEffect
import Verif.Proofs.PathsCyclic
import Verif.Props.Paths
import Verif.Model.Numpy
import Verif.Spec.Prior
import Verif.Model.DirectLingam
import Verif.Proofs.Numpy
import Verif.Proofs.DirectLingam
import Verif.Model.PriorKnowledge
import Verif.Props.DirectLingam
import Verif.Model.Bootstrap
import Verif.Proofs.Bootstrap
import Verif.Spec.Counting
import Verif.Props.Bootstrap
import Verif.Model.Ica
import Verif.Proofs.Ica
import Verif.Props.Ica
import Verif.Model.Rcd
import Verif.Proofs.Rcd
import Verif.Props.Rcd
import Verif.Model.Camuv
import Verif.Proofs.Camuv
import Verif.Props.Camuv
import Verif.Model.Resit
import Verif.Proofs.Resit
import Verif.Props.Resit
import Verif.Model.Parce
import Verif.Proofs.Parce
import Verif.Props.Parce
import Verif.Model.CausalEffect
import Verif.Proofs.CausalEffect
import Verif.Props.CausalEffect
import Verif.Model.Utils
import Verif.Proofs.Utils
import Verif.Props.Utils
import Verif.Spec.TimeSeries
import Verif.Model.Var
import Verif.Proofs.Var
import Verif.Props.Var
import Verif.Model.Varma
import Verif.Proofs.Varma
import Verif.Props.Varma
import Verif.Model.Longitudinal
import Verif.Proofs.Longitudinal
import Verif.Props.Longitudinal
import Verif.Spec.Gradient
import Verif.Model.Lim
import Verif.Model.LimLoss
import Verif.Proofs.Lim
import Verif.Proofs.LimLoss
import Verif.Props.Lim
import Verif.Model.Simulator
import Verif.Proofs.Simulator
import Verif.Props.Simulator
import Verif.Model.Cdg
import Verif.Props.Cdg
import Verif.Model.Oct
import Verif.Props.Oct
import Verif.Model.Imputation
import Verif.Props.Imputation
import Verif.Model.MultiGroup
import Verif.Props.MultiGroup
import Verif.Model.DirectData
import Verif.Props.DirectData
import Verif.Spec.Population
import Verif.Spec.PerfectTests
import Verif.Proofs.Population
import Verif.Proofs.RcdPopulation
import Verif.Props.RcdPopulation
import Verif.Proofs.Selection
import Verif.Props.Selection
import Verif.Props.LimSearch
import Verif.Props.SimulatorRuns
import Verif.Props.CdgRuns
import Verif.Props.OctRuns
import Verif.Props.LinaRuns
import Verif.Spec.Hsic
import Verif.Model.Hsic
import Verif.Proofs.Hsic
import Verif.Props.Hsic
import Verif.Spec.HighDim
import Verif.Model.HighDim
import Verif.Proofs.HighDim
import Verif.Props.HighDim
import Verif.Spec.Drawing
import Verif.Model.Drawing
import Verif.Proofs.Drawing
import Verif.Props.Drawing
import Verif.Spec.DataUtils
import Verif.Model.DataUtils
import Verif.Proofs.DataUtils
import Verif.Props.DataUtils
import Verif.Spec.Score
import Verif.Spec.Pairwise
import Verif.Model.Score
import Verif.Model.Pairwise
import Verif.Proofs.Score
import Verif.Proofs.Pairwise
import Verif.Props.Score
import Verif.Props.Pairwise
import Verif.Spec.FCorr
import Verif.Model.FCorr
import Verif.Proofs.FCorrMax
import Verif.Proofs.FCorr
import Verif.Proofs.FCorrReturn
import Verif.Props.FCorr
import Verif.Spec.ParceTests
import Verif.Proofs.ParcePopulation
import Verif.Props.ParcePopulation
import Verif.Model.ParceEffects
import Verif.Proofs.ParceEffects
import Verif.Props.ParceEffects
import Verif.Spec.Regression
import Verif.Proofs.VarRecovery
import Verif.Props.VarRecovery
import Verif.Proofs.LongRecovery
import Verif.Props.LongRecovery
import Verif.Model.MultiGroupData
import Verif.Props.GroupRecovery
import Verif.Spec.ResitTests
import Verif.Proofs.ResitPopulation
import Verif.Props.ResitRecovery
import Verif.Spec.LongCounting
import Verif.Model.LongResult
import Verif.Props.LongResult
import Verif.Model.ErrorTests
import Verif.Props.ErrorTests
import Verif.Model.GroupBoot
import Verif.Props.GroupBoot
import Verif.Model.KernelMi
import Verif.Proofs.KernelMi
import Verif.Props.KernelMi
import Verif.Model.Lina
import Verif.Spec.Lina
import Verif.Props.Lina
import Verif.Model.LinaLoss
import Verif.Proofs.LinaLoss
import Verif.Props.LinaLoss
import Verif.Model.VisualEffect
import Verif.Props.VisualEffect
import Verif.Proofs.RcdHidden
import Verif.Props.RcdHidden
import Verif.Model.RcdEffects
import Verif.Props.RcdEffects
import Verif.Spec.CamTests
import Verif.Proofs.CamPopulation
import Verif.Props.CamPopulation
import Verif.Spec.PooledTests
import Verif.Proofs.RcdGroups
import Verif.Props.RcdGroups
import Verif.Model.Mlhsicr
import Verif.Props.Mlhsicr
import Verif.Props.VarmaRecovery
import Verif.Props.IcaUnits
import Verif.Props.IcaStable
import Verif.Props.CamGroups
import Verif.Props.RcdGroupsHidden
import Verif.Props.AdaptiveLasso
import Verif.Props.VarUnits
import Verif.Props.BootUnits
import Verif.Props.RcdUnits
import Verif.Props.ParceUnits
import Verif.Props.LongUnits
import Verif.Props.GroupUnits
import Verif.Props.SimulatorNames
import Verif.Props.ExtractAncestors
import Verif.Props.PrintBoot
import Verif.Props.IntegerData
import Verif.Props.EffectObject
import Verif.Props.CdgRows
import Verif.Props.ImputationDefault
import Verif.Props.ResitColumns
import Verif.Props.RcdColumns
import Verif.Props.CamColumns
import Verif.Props.GroupColumns
import Verif.Props.Refit
import Verif.Props.IcaColumns
import Verif.Props.SimulatorDiscrete
import Verif.Props.LassoColumns
import Verif.Props.VarColumns
import Verif.Props.ParceColumns
import Verif.Props.RowOrder
import Verif.Props.RowOrderRcd
import Verif.Props.HighDimLasso
import Verif.Props.ErrorData
import Verif.Props.EffectUnits
import Verif.Props.LongColumns
import Verif.Props.VarmaRestated
import Verif.Props.PairDirection
import Verif.Props.LimExact
import Verif.Props.HsicZero
import Verif.Props.ResitData
import Verif.Props.ParceNoise
import Verif.Props.Levels
import Verif.Props.GroupRcdData
import Verif.Props.Inputs
import Verif.Props.RcdPair
import Verif.Props.KernelSearch
import Verif.Props.VarResult
import Verif.Props.CamPair
import Verif.Props.ResitUnits
import Verif.Props.CamUnits
import Verif.Props.TotalAgree
import Verif.Props.GroupAgree
import Verif.Props.FisherLevel
import Verif.Props.GroupRcdPair
import Verif.Props.GroupLevels
import Verif.Props.GroupCamuv
import Verif.Props.GroupCamuvPair
import Verif.Props.CamLevel
import Verif.Props.SimulatorGraph
import Verif.Props.CdgModels
import Verif.Props.Consistency
import Verif.Props.KeptEdges
import Verif.Props.ConsistencyMatrix
import Verif.Props.WrongDirection
import Verif.Props.ConsistencyEffects
import Verif.Props.Unrelated
import Verif.Spec.LassoPath
import Verif.Proofs.LassoPath
import Verif.Proofs.LassoWalk
import Verif.Props.Support
import Verif.Props.GraphRecovery
import Verif.Props.PriorRecovery
import Verif.Props.Exchangeable
