import Verif.Props.Num
import Verif.Props.CutClean
import Verif.Props.RowDiff
import Verif.Props.NBCut
import Verif.Props.NBPack
import Verif.Props.PRLP
import Verif.Props.PRLPSetup
import Verif.Props.Validity
import Verif.Props.GenCut
import Verif.Props.GenLimits
import Verif.Props.ObjCut
import Verif.Props.Params
import Verif.Props.Options
import Verif.Props.Timer
import Verif.Props.VecOps
import Verif.Model.Names
import Verif.Model.TreePrep
import Verif.Model.BetterBranch
import Verif.Props.Names
import Verif.Props.TreePrep
import Verif.Props.BetterBranch
import Verif.Props.Stats
import Verif.Props.Files
import Verif.Props.Solver
import Verif.Props.SolverOps
import Verif.Props.Own
import Verif.Props.Disj
import Verif.Props.Split
import Verif.Props.BB
import Verif.Props.BBCover
import Verif.Props.BBSol
import Verif.Props.Clean
import Verif.Props.Choose
import Verif.Props.Rounds
import Verif.Props.ProbData
import Verif.Props.Collect
import Verif.Props.CollectTight
import Verif.Props.EndToEnd
import Verif.Props.EndToEndEx
import Verif.Props.SavedObj
import Verif.Props.Pool
import Verif.Props.DocVals
import Verif.Props.PrlpTime
import Verif.Props.CutInfo
import Verif.Props.BBTests
import Verif.Props.SplitChoice
import Verif.Props.BBTight
import Verif.Props.BBKeep
import Verif.Props.ChooseCodes
import Verif.Props.GenReasons
import Verif.Props.LogTable
import Verif.Props.LogColumns
import Verif.Props.LogFacts
import Verif.Props.LogGap
import Verif.Props.LogFile
import Verif.Props.Prep
import Verif.Props.Target
import Verif.Props.TargetProps
import Verif.Props.TargetLimits
import Verif.Props.TargetValid
import Verif.Props.TargetCounts
import Verif.Props.TargetEx
import Verif.Props.TargetFacts
import Verif.Props.RecordsMore
import Verif.Props.SetupList
import Verif.Model.DisjOpts
import Verif.Props.DisjOpts
import Verif.Model.Bounds
import Verif.Props.Bounds
import Verif.Model.UserCuts
import Verif.Props.UserCuts
import Verif.Props.RootStats
import Verif.Props.BBSettings
import Verif.Props.BBResult
import Verif.Props.TargetTight
import Verif.Props.MoreTight
import Verif.Props.ErrorBound
import Verif.Props.ErrorBoundEx
import Verif.Model.MainRun
import Verif.Props.MainRun
import Verif.Props.MainRunEx
import Verif.Model.RoundFile
import Verif.Props.RoundFile
import Verif.Model.Iface
import Verif.Props.Iface
import Verif.Model.CpxData
import Verif.Props.CpxData
import Verif.Props.AutoTight
import Verif.Model.ObjCopy
import Verif.Props.ObjCopy
import Verif.Model.Angle
import Verif.Props.Angle
import Verif.Model.Handler
import Verif.Props.Handler
import Verif.Props.CollectLive
import Verif.Model.PrlpSolve
import Verif.Props.PrlpSolve
import Verif.Model.Float
import Verif.Props.KahanErr
import Verif.Props.TmpFile
import Verif.Props.Order
import Verif.Props.Sense
import Verif.Props.StrongRun
import Verif.Props.TreePlot
import Verif.Props.CompCopy
import Verif.Props.SolverMem
import Verif.Props.Cond
import Verif.Props.Entry
import Verif.Props.Status
import Verif.Props.PrepFiles
import Verif.Props.RunTimers
import Verif.Props.RoundsValid
import Verif.Props.RoundsEnd
import Verif.Props.TargetTime
import Verif.Props.Farkas
import Verif.Props.NoCut
import Verif.Props.Separate
import Verif.Props.BoundCut
import Verif.Props.HullOnly
import Verif.Props.BBRepair
import Verif.Model.BBRepair
import Verif.Props.DisjBound
import Verif.Props.TikzDraw
import Verif.Props.Strongest
import Verif.Props.Touch
import Verif.Props.TouchX
import Verif.Props.CutsOff
import Verif.Props.CutsOffX
import Verif.Props.FloatCut
import Verif.Props.FloatRun
import Verif.Props.ErrorTol
