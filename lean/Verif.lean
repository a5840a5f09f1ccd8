import Verif.Basic
import Verif.Spec
import Verif.Lex
import Verif.Heap
import Verif.Parse
import Verif.Escape
import Verif.Num
import Verif.Api
import Verif.LexLemmas
import Verif.NumLemmas
import Verif.Grammar
import Verif.Print
import Verif.CheckLemmas
import Verif.EscLemmas
import Verif.Run
import Verif.Rep
import Verif.ParseSim
import Verif.Update
import Verif.ParseTop
import Verif.StrSim
import Verif.StringifySim
import Verif.Store
import Verif.SetSim
import Verif.SetSim2
import Verif.SetSim3
import Verif.NumSim
import Verif.GetSim
import Verif.KeySim
import Verif.MoveSim
import Verif.AddSim
import Verif.CopySim
import Verif.GraftSim
import Verif.View
import Verif.Fuel
import Verif.PropPrint
import Verif.PropGet
import Verif.PropParse
import Verif.Path
import Verif.PropSet
import Verif.PropEsc
import Verif.PropNum
import Verif.Edit
import Verif.PropEdit
import Verif.PropAlias
import Verif.Alloc
import Verif.AllocLemmas
import Verif.PropAlloc
import Verif.PropBuf
import Verif.Machine
import Verif.Trail
import Verif.Hist
import Verif.HistSet
import Verif.HistGet
import Verif.HistEdit
import Verif.HistParse
import Verif.PropHist
import Verif.PropPlain
import Verif.PropOwn
import Verif.Hops
import Verif.PropLayout
import Verif.PropWidth
import Verif.PropText
import Verif.PropUtf8
import Verif.Emb
import Verif.EmbStore
import Verif.EmbStep
import Verif.PropMix
import Verif.Cpp
import Verif.PropCpp
import Verif.PropMem
import Verif.Readme
import Verif.PropReadme
import Verif.PropCfg
import Verif.Time
import Verif.TimeVal
import Verif.TimeParse
import Verif.PropTime
import Verif.TimeApi
import Verif.TimeValApi
import Verif.TimePrint
import Verif.PropTimePrint
import Verif.TimeCopy
import Verif.TimeCalls
import Verif.TimeText
import Verif.PropTimeApi
import Verif.PropTimeFind
import Verif.Conc
import Verif.ConcSim
import Verif.ConcFns
import Verif.ConcRun
import Verif.PropThread
import Verif.PropReaders
import Verif.PropBudget
import Verif.PropMap
import Verif.Float
import Verif.PropFloat
import Verif.PropOom
import Verif.PropCount
import Verif.PropPath
import Verif.PropSweep
import Verif.Beta
import Verif.BetaSim
import Verif.PropBeta
import Verif.PropBetaGet
import Verif.PropPrefix
import Verif.PropTour
import Verif.PropOver
import Verif.PropKeys
import Verif.PropDefect
import Verif.PropBorrow
import Verif.BetaEdit
import Verif.PropBetaEdit
import Verif.PropBetaSet
import Verif.PropBetaCache
import Verif.PropNumEnd
import Verif.PropEdits
import Verif.RepoTest
import Verif.PropNumText
import Verif.PropSetText
import Verif.PropBuild
import Verif.PropBuildTime
import Verif.Sample
import Verif.PropSample
import Verif.PropSampleAgain
import Verif.PropSampleLate
