import Verif.Props.Work
import Verif.Props.WorkerLimit
import Verif.Props.Timers
import Verif.Props.Ring
import Verif.Props.Elementwise
import Verif.Props.Reduce
import Verif.Props.Accumulate
import Verif.Props.IntOps
import Verif.Props.Compare
import Verif.Props.Classify
import Verif.Props.FloatOps
import Verif.Props.FloatOpsIff
import Verif.Props.NumericIff
import Verif.Props.Sort
import Verif.Props.ParSort
import Verif.Props.ParArgSort
import Verif.Props.Strings
import Verif.Props.LexSort
import Verif.Props.LexShort
import Verif.Props.LexEntryShort
import Verif.Props.IsSorted
import Verif.Props.Group
import Verif.Props.SortApi
import Verif.Props.SortApiIff
import Verif.Props.GetItem
import Verif.Props.GetItemIff
import Verif.Props.RecArray
import Verif.Props.Arange
import Verif.Props.Settings
import Verif.Props.SettingsIff
import Verif.Props.Dtypes
import Verif.Props.Hooks
import Verif.Props.Ledger
import Verif.Props.LedgerKept
import Verif.Props.LiveSettings
import Verif.Props.LedgerCalls
import Verif.Props.OldInit
import Verif.Props.OutOfMemory
import Verif.Props.OutOfMemory2
import Verif.Props.Alloc
import Verif.Props.Strides
import Verif.Props.Callers
import Verif.Props.CallersLive
import Verif.Props.Futex
import Verif.Props.Dispatch
import Verif.Props.OpTables
import Verif.Props.ReduceTable
import Verif.Props.UnaryTable
import Verif.Props.BoolTables
import Verif.Props.FloorDiv
import Verif.Props.Trig
import Verif.Props.TrigValues
import Verif.Props.LexEntry
import Verif.Props.LexIndex
import Verif.Props.SortHooks
import Verif.Props.HalfSort
import Verif.Props.HalfSortIff
import Verif.Props.ThreadSetup
import Verif.Props.Slots
import Verif.Props.GetItemEntry
import Verif.Props.Tso
import Verif.Props.RecEntry
import Verif.Props.ArgMergeExact
import Verif.Props.TsoSort
import Verif.Props.Fork
import Verif.Props.PyWrap
import Verif.Props.CpuCount
import Verif.Props.LexPerm
import Verif.Props.Overlap
import Verif.Props.WorkerReturns
import Verif.Props.TsoCounter
import Verif.Props.TsoTasks
import Verif.Props.FutexWake
import Verif.Props.FutexWork
import Verif.Props.TsoWork
import Verif.Props.TrigAcc
import Verif.Props.ExpAcc
import Verif.Props.LogAcc
import Verif.Props.GroupPart
import Verif.Props.GroupFloat
import Verif.Props.GroupPartFloat
import Verif.Props.SortCode
import Verif.Props.CpuId
import Verif.Props.Align
import Verif.Props.FloatSum
import Verif.Props.InfoDict
import Verif.Props.Refs
import Verif.Props.BufSize
import Verif.Props.Fill
import Verif.Props.FillTasks
import Verif.Props.ThreadFail
import Verif.Props.Integral
import Verif.Props.OtherOs
import Verif.Props.SortAlone
import Verif.Props.AccumulateOrder
import Verif.Props.AccumulateTime
import Verif.Props.FloatSumInf
import Verif.Props.FloatProd
import Verif.Props.SortHooksShort
import Verif.Props.ArangeRace
import Verif.Props.Takeover
import Verif.Props.TakeoverReduce
import Verif.Props.TakeoverInvert
import Verif.Props.TakeoverRint
import Verif.Props.TakeoverReduceBits
import Verif.Props.TakeoverReduceFloat
import Verif.Props.TakeoverSum
import Verif.Props.InitOutcome
import Verif.Props.InfoStored
