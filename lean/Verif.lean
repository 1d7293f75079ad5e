import Verif.Base.Lat
import Verif.Base.AMap
import Verif.IDE.Model
import Verif.IDE.Spec
import Verif.IDE.LemmasTab
import Verif.IDE.Phase1Sound
import Verif.IDE.Phase1Prec
import Verif.IDE.Phase2
import Verif.IDE.Phase2Prec
import Verif.IDE.Termination
import Verif.IDE.Ifds
import Verif.IDE.Api
import Verif.IDE.Examples
import Verif.IDE.Unbalanced
import Verif.IDE.Extra
import Verif.IDE.Props
import Verif.IDE.Facts
import Verif.IDE.FactsProps
import Verif.IDE.Table
import Verif.EdgeFn.Domain
import Verif.EdgeFn.Model
import Verif.EdgeFn.Lemmas
import Verif.EdgeFn.Props
import Verif.Base.FSet
import Verif.Store.Table
import Verif.Store.JumpFns
import Verif.Util.ECM
import Verif.Store.Cache
import Verif.Store.FlowFns
import Verif.Store.Seeds
import Verif.Store.Results
import Verif.Store.Props
import Verif.Store.LLVMFlow
import Verif.Store.LLVMFlowProps
import Verif.Util.AdjList
import Verif.Util.BitVec
import Verif.Util.StableVec
import Verif.Util.StableVecLemmas
import Verif.Util.StableVecWorld
import Verif.Util.DFAMin
import Verif.Util.DFAMinLemmas
import Verif.Util.Props
import Verif.Mono.Intra
import Verif.Mono.CallString
import Verif.Mono.Inter
import Verif.Mono.Props
import Verif.Mono.InterProps
import Verif.Mono.Prob
import Verif.Mono.ProbLemmas
import Verif.Mono.ProbProps
import Verif.Alias.AliasSet
import Verif.Alias.Lemmas
import Verif.Alias.MergeLemmas
import Verif.Alias.Props
import Verif.Alias.DemandProps
import Verif.CG.CallGraph
import Verif.CG.CallGraphLemmas
import Verif.CG.Props
import Verif.CG.Builder
import Verif.CG.BuilderLemmas
import Verif.CG.BuilderRun
import Verif.CG.BuilderExact
import Verif.CG.BuilderProps
import Verif.CFG.Model
import Verif.CFG.Lemmas
import Verif.CFG.Props
import Verif.Util.RemoveByIndex
import Verif.Util.RemoveByIndexProps
import Verif.Analysis.LCA
import Verif.Analysis.LCAProps
import Verif.Analysis.IIA
import Verif.Analysis.IIAProps
import Verif.Analysis.TypeState
import Verif.Analysis.TypeStateProps
import Verif.Util.StringID
import Verif.Util.StringIDProps
import Verif.CFG.SpecialMember
import Verif.CFG.SpecialMemberProps
import Verif.CFG.SpecialMemberNames
import Verif.Analysis.GLCA
import Verif.Analysis.GLCAProps
import Verif.Analysis.XTaint
import Verif.Analysis.XTaintProps
import Verif.EdgeFn.Handle
import Verif.EdgeFn.HandleLemmas
import Verif.EdgeFn.HandleProps
import Verif.TH.DI
import Verif.TH.DILemmas
import Verif.TH.DIProps
import Verif.TH.Struct
import Verif.TH.StructProps
import Verif.Analysis.LCAFlow
import Verif.Analysis.LCAAlg
import Verif.Analysis.LCASim
import Verif.Analysis.LCAFlowProps
import Verif.Analysis.Taint
import Verif.Analysis.TaintSem
import Verif.Analysis.TaintSim
import Verif.Analysis.TaintInv
import Verif.Analysis.TaintStep
import Verif.Analysis.TaintTab
import Verif.Analysis.TaintExec
import Verif.Analysis.TaintProps
import Verif.Path.ESG
import Verif.Path.ESGLemmas
import Verif.Path.ESGProps
import Verif.Path.Dag
import Verif.Path.DagLemmas
import Verif.Path.DagInv
import Verif.Path.DagQuery
import Verif.Path.DagTotal
import Verif.Path.DagGraph
import Verif.Path.DagProps
import Verif.Path.Filter
import Verif.Path.FilterLemmas
import Verif.Path.FilterInv
import Verif.Path.FilterOut
import Verif.Path.FilterStack
import Verif.Path.FilterFlat
import Verif.Path.FilterAll
import Verif.Path.FilterProps
import Verif.Path.RevDag
import Verif.Path.Minimize
import Verif.Path.RevDagLemmas
import Verif.Path.RevDagPaths
import Verif.Path.RevDagProps
import Verif.Path.Constr
import Verif.Path.ConstrLemmas
import Verif.Path.ConstrSem
import Verif.Path.ConstrProps
import Verif.CG.TypeGraph
import Verif.CG.TypeGraphLemmas
import Verif.CG.TypeGraphInv
import Verif.CG.TypeGraphRun
import Verif.CG.TypeGraphDag
import Verif.CG.TypeGraphProps
import Verif.CG.Resolver
import Verif.CG.ResolverLemmas
import Verif.CG.ResolverProps
import Verif.Analysis.Uninit
import Verif.Analysis.UninitSem
import Verif.Analysis.UninitInv
import Verif.Analysis.UninitPlain
import Verif.Analysis.UninitTab
import Verif.Analysis.UninitProps
import Verif.DB.IRDB
import Verif.DB.IRDBLemmas
import Verif.DB.IRDBProps
import Verif.DB.AliasJson
import Verif.DB.AliasJsonLemmas
import Verif.DB.AliasJsonProps
import Verif.DB.SlotTracker
import Verif.DB.SlotTrackerProps
import Verif.CFG.Globals
import Verif.CFG.GlobalsLemmas
import Verif.CFG.GlobalsRun
import Verif.CFG.GlobalsBuild
import Verif.CFG.GlobalsTotal
import Verif.CFG.GlobalsDB
import Verif.CFG.GlobalsProps
import Verif.Analysis.TSFlow
import Verif.Analysis.TSSem
import Verif.Analysis.TSAlg
import Verif.Analysis.TSSim
import Verif.Analysis.TSTab
import Verif.Analysis.TSFlowProps
import Verif.Analysis.AML
import Verif.Analysis.AMLSem
import Verif.Analysis.AMLLemmas
import Verif.Analysis.AMLProps
import Verif.Analysis.XFlow
import Verif.Analysis.XFlowSem
import Verif.Analysis.XFlowProps
import Verif.Analysis.Const
import Verif.Analysis.ConstProps
import Verif.Analysis.TaintCfg
import Verif.Analysis.TaintCfgProps
import Verif.Analysis.SecureHeap
import Verif.Analysis.SecureHeapSim
import Verif.Analysis.SecureHeapProps
import Verif.Analysis.IIAFlow
import Verif.Analysis.IIAFlowSim
import Verif.Analysis.IIAFlowRun
import Verif.Analysis.IIAFlowExec
import Verif.Analysis.IIAFlowProps
import Verif.DB.Hexastore
import Verif.DB.HexastoreProps
import Verif.Alias.CFLAnders
import Verif.Alias.CFLAndersLemmas
import Verif.Alias.CFLAndersSpec
import Verif.Alias.CFLAndersVA
import Verif.Alias.CFLAndersAttr
import Verif.Alias.CFLAndersBuild
import Verif.Alias.CFLAndersSound
import Verif.Alias.CFLAndersProps
import Verif.Alias.Stratified
import Verif.Alias.StratifiedLemmas
import Verif.Alias.StratifiedMerge
import Verif.Alias.StratifiedMerge2
import Verif.Alias.StratifiedUp
import Verif.Alias.StratifiedMerge3
import Verif.Alias.StratifiedOps
import Verif.Alias.StratifiedRun
import Verif.Alias.StratifiedBuild
import Verif.Alias.StratifiedProps
import Verif.Alias.CFLSteens
import Verif.Alias.CFLSteensProps
import Verif.Alias.AliasGraph
import Verif.Alias.AliasGraphLemmas
import Verif.Alias.AliasGraphInv
import Verif.Alias.AliasGraphMerge
import Verif.Alias.AliasGraphProps
import Verif.CFG.Export
import Verif.CFG.ExportProps
import Verif.Util.MaybeUnique
import Verif.Util.MaybeUniqueProps
import Verif.Mono.InterTaint
import Verif.Mono.InterTaintProps
import Verif.Util.Pamm
import Verif.Util.PammProps
import Verif.Analysis.GLCAFlow
import Verif.Analysis.GLCAFlowProps
import Verif.Analysis.GLCARun
import Verif.Analysis.GLCARunProps
import Verif.Mono.InterConst
import Verif.Mono.InterConstProps
import Verif.Util.Stats
import Verif.Util.StatsProps
import Verif.Util.IRToSrc
import Verif.Util.IRToSrcProps
import Verif.Util.SolverConfig
import Verif.Util.SolverConfigProps
import Verif.Store.EntryPoints
import Verif.Store.EntryPointsProps
import Verif.CFG.ICFG
import Verif.CFG.ICFGLemmas
import Verif.CFG.ICFGProps
import Verif.CFG.ICFGBackLemmas
import Verif.CFG.ICFGBackProps
import Verif.Analysis.LibSummary
import Verif.Analysis.LibCTable
import Verif.Analysis.LibSummaryProps
import Verif.Analysis.LibCProps
import Verif.Util.Helper
import Verif.Util.HelperProps
import Verif.Util.Config
import Verif.Util.ConfigProps
import Verif.Util.EnumStr
import Verif.Util.EnumStrProps
