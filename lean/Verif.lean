import Verif.Model.Driver
import Verif.Props.C09_Compact
import Verif.Props.C15_Vec
import Verif.Props.C16_Transpose
import Verif.Props.C17_ShiftRow
import Verif.Props.C18_Coeff
import Verif.Props.C19_Shrink
import Verif.Spec.Num
import Verif.Props.C21_Activity
import Verif.Props.C22_ActUpdate
import Verif.Props.C22_ActUpdate2
import Verif.Props.C23_Redundant
import Verif.Props.C24_Propagation
import Verif.Props.C26_SingletonRow
import Verif.Props.C27_Empty
import Verif.Props.C28_DualFix
import Verif.Props.C29_FixInf
import Verif.Props.C30_StonEq
import Verif.Props.C31_StonIneq
import Verif.Props.C32_Dton
import Verif.Props.C33_ParallelRows
import Verif.Model.Hash
import Verif.Props.C34_ParallelCols
import Verif.Props.C35_Dominated
import Verif.Props.C36_Groups
import Verif.Props.C43_Input
import Verif.Model.Log
import Verif.Props.C14_Log
import Verif.Model.PostBuf
import Verif.Props.C13_Pure
import Verif.Model.Trace
import Verif.Props.C12_Status
import Verif.Props.C39_Time
import Verif.Props.C42_Disabled
import Verif.Model.Threads
import Verif.Props.C38_Threads
import Verif.Model.Heap
import Verif.Props.C40_Alloc
import Verif.Inv.Steps
import Verif.Props.C20_Delete
import Verif.Lemmas.DelMat
import Verif.Props.C20_Storage
import Verif.Props.C25_Locks
import Verif.Inv.RunTrivialGood
import Verif.Inv.StonColsGood
import Verif.Inv.ParRowsGood
import Verif.Inv.ParColsGood
import Verif.Inv.PropGood
import Verif.Inv.Reach
import Verif.Inv.Calls
import Verif.Model.Stats
import Verif.Props.C37_Nnz
import Verif.Props.EndToEnd
import Verif.Props.C07_Termination
import Verif.Props.Counterexamples
import Verif.Model.Reduced
import Verif.Lemmas.Reduced
import Verif.Inv.Replay
import Verif.Inv.Obj
import Verif.Inv.Stat
import Verif.Inv.StatStep
import Verif.Props.C01_Objective
import Verif.Props.C01_Twice
import Verif.Props.C05_Stationarity
import Verif.Model.Marks
import Verif.Inv.Mark
import Verif.Inv.Pair
import Verif.Props.C08_Retrieval
import Verif.Props.C09_Run
import Verif.Inv.FeasDef
import Verif.Inv.FeasOps
import Verif.Inv.FeasDel
import Verif.Inv.FeasFix
import Verif.Inv.FeasProp
import Verif.Inv.FeasPropRow
import Verif.Inv.FeasRun
import Verif.Inv.FeasTriv
import Verif.Inv.FeasMain
import Verif.Spec.Near
import Verif.Spec.Unbounded
import Verif.Inv.FeasEnd
import Verif.Props.C02_Feasibility
import Verif.Inv.LiveDef
import Verif.Inv.LiveOps
import Verif.Inv.LiveTriv
import Verif.Inv.LiveSton
import Verif.Inv.LiveProp
import Verif.Inv.LiveMain
import Verif.Inv.LiveEnd
import Verif.Props.C03_Verdicts
import Verif.Spec.Kkt
import Verif.Inv.CompDef
import Verif.Inv.CompOps
import Verif.Inv.CompSton
import Verif.Props.C06_Complementarity
import Verif.Props.C06_Propagation
import Verif.Props.C06_Sign
import Verif.Props.C47_DtonChoice
import Verif.Lemmas.ThreadsRun
import Verif.Lemmas.ThreadsInit
import Verif.Lemmas.ThreadsLocks
import Verif.Lemmas.ThreadsAct
import Verif.Lemmas.ThreadsTrans
import Verif.Props.C48_InitialState
import Verif.Props.C49_Fails
import Verif.Inv.AsrtGrow
import Verif.Inv.AsrtDel
import Verif.Inv.AsrtTriv
import Verif.Inv.AsrtSton
import Verif.Inv.AsrtTwice
import Verif.Inv.AsrtProp
import Verif.Inv.AsrtMain
import Verif.Props.C49_Assertions
import Verif.Props.C31_Step
import Verif.Props.C06_BoundChange
import Verif.Props.C34_Dual
import Verif.Props.C17_Budget
import Verif.Model.Debug
import Verif.Inv.Queued
import Verif.Inv.QueuedPar
import Verif.Inv.QueuedSton
import Verif.Inv.QueuedDton
import Verif.Inv.QueuedRun
import Verif.Inv.DebugChecks
import Verif.Props.C50_Debugger
import Verif.Inv.Listed
import Verif.Inv.ListedPar
import Verif.Inv.ListedSton
import Verif.Inv.ListedDton
import Verif.Inv.ListedRun
import Verif.Props.C51_Updated
import Verif.Props.C52_RowTags
import Verif.Inv.DtonDual
import Verif.Props.C53_DtonDual
import Verif.Props.C36_Hash
import Verif.Props.C22_Run
import Verif.Props.C05_Limits
import Verif.Props.C46_Limits
import Verif.Props.C50_Limits
import Verif.Inv.PtDef
import Verif.Inv.PtOps
import Verif.Inv.PtSton
import Verif.Inv.PtDton
import Verif.Inv.PtMain
import Verif.Props.C06_Doubletons
import Verif.Inv.FwDef
import Verif.Inv.FwOps
import Verif.Inv.FwSton
import Verif.Inv.FwDton
import Verif.Inv.FwMain
import Verif.Inv.Numbers
import Verif.Props.C54_Numbers
import Verif.Props.C03_Doubletons
import Verif.Model.DtonMat
import Verif.Lemmas.DtonMat
import Verif.Props.C55_DtonStorage
import Verif.Model.DtonRound
import Verif.Lemmas.DtonRound
import Verif.Props.C55_Round
import Verif.Props.C55_Fresh
import Verif.Model.TrivMat
import Verif.Lemmas.TrivMat
import Verif.Props.C20_Trivial
