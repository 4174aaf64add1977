import Verif.Word
import Verif.Backoff
import Verif.Spec
import Verif.Core
import Verif.TraceLemmas
import Verif.CoreInv
import Verif.CoreStep
import Verif.CorePres
import Verif.CoreEvents
import Verif.TraceFacts
import Verif.TraceProps
import Verif.CoreProps
import Verif.DropSlots
import Verif.StepLemmas
import Verif.Solo
import Verif.Seq
import Verif.Errors
import Verif.Recycling
import Verif.BackoffProps
import Verif.SpinMutex
import Verif.Split
import Verif.TxCount
import Verif.Timeout
import Verif.ZeroCapacity
import Verif.ListLemmas
import Verif.Cell
import Verif.CellSpec
import Verif.CellInv
import Verif.CellHist
import Verif.CellEvents
import Verif.CellProps
import Verif.WaitList
import Verif.WaitListProps
import Verif.Queue
import Verif.QueueSpec
import Verif.QueueInv
import Verif.QueueSafe
import Verif.QueueGood
import Verif.QueueHist
import Verif.QueueHist2
import Verif.QueueHist3
import Verif.QueueEvents
import Verif.QueueOrder
import Verif.QueueDemo
import Verif.QueueProps
import Verif.Channel
import Verif.ChanTr
import Verif.ChanSpec
import Verif.ChanLink
import Verif.ChanOwn
import Verif.ChanHist
import Verif.ChanEvs
import Verif.ChanSent
import Verif.ChanSteps
import Verif.ChanRun
import Verif.ChanDemo
import Verif.ChanProps
import Verif.ChanClose
import Verif.ChanAfter
import Verif.ChanCloseProps
import Verif.CellLate
import Verif.ChanPoll
import Verif.ChanWake
import Verif.ChanLast
import Verif.ChanWakeProps
import Verif.ChanSpin
import Verif.ChanSpinProps
import Verif.QueueSignal
import Verif.ChanSleep
import Verif.ChanSleepProps
import Verif.ChanTry
import Verif.ChanTryProps
import Verif.ChanFull
import Verif.ChanFullProps
import Verif.ChanEnds
import Verif.QueueSolo
import Verif.QueueSoloProps
import Verif.QueueFine
import Verif.QueueFineSim
import Verif.QueueFineTrace
import Verif.QueueFineRun
import Verif.QueueFineProps
import Verif.ChanQEnds
import Verif.ChanEndsProps
import Verif.RelAcq
import Verif.RelAcqSpec
import Verif.RelAcqInv
import Verif.RelAcqPres
import Verif.RelAcqMoves
import Verif.RelAcqStep
import Verif.RelAcqExec
import Verif.RelAcqHb
import Verif.RelAcqKnow
import Verif.RelAcqKnowStep
import Verif.RelAcqProps
import Verif.RelAcqCell
import Verif.RelAcqCellBase
import Verif.RelAcqCellMove
import Verif.RelAcqCellInv
import Verif.RelAcqCellKnow
import Verif.RelAcqCellLate
import Verif.RelAcqCellWake
import Verif.RelAcqCellDemo
import Verif.RelAcqCellProps
import Verif.ChanSeq
import Verif.ChanSeqCore
import Verif.ChanSeqCell
import Verif.ChanSeqQueue
import Verif.ChanSeqLift
import Verif.ChanSeqAt
import Verif.ChanSeqRel
import Verif.ChanSeqSend
import Verif.ChanSeqCalls
import Verif.ChanSeqRecv
import Verif.ChanSeqDet
import Verif.ChanSeqSpec
import Verif.ChanSeqProps
import Verif.ChanFine
import Verif.ChanFineSim
import Verif.ChanFineRun
import Verif.ChanFineTrace
import Verif.ChanFineMem
import Verif.ChanFineDemo
import Verif.ChanFineProps
import Verif.QueueReenter
import Verif.QueueReenterProps
import Verif.ChanReenter
import Verif.ChanReenterProps
import Verif.ChanRest
import Verif.ChanRestProps
import Verif.ChanRestFine
import Verif.QueuePanic
import Verif.QueuePanicSafe
import Verif.QueuePanicProps
import Verif.CellPanic
import Verif.CellPanicProps
import Verif.Work
import Verif.WorkProps
import Verif.LinSpec
import Verif.Lin
import Verif.LinProps
import Verif.ChanLinSpec
import Verif.ChanLin
import Verif.ChanLinSeq
import Verif.ChanLinSend
import Verif.ChanLinRecv
import Verif.ChanLinProps
import Verif.SpinRA
import Verif.SpinRAInv
import Verif.SpinRAProps
import Verif.QueueLockedProps
import Verif.QueueLoads
import Verif.QueueLoadsSpec
import Verif.QueueLoadsInv
import Verif.QueueLoadsOver
import Verif.QueueLoadsProps
import Verif.ChanLiftProps
import Verif.WeakSleep
import Verif.WeakProto
import Verif.WeakChan
import Verif.WeakChanSim
import Verif.WeakDemo
import Verif.WeakSpec
import Verif.WeakProps
import Verif.WeakOrder
import Verif.WeakOrderInv
import Verif.WeakRx
import Verif.WeakRxDemo
import Verif.WeakRxProps
import Verif.WeakLast
import Verif.WeakLastProps
import Verif.WeakRestProps
import Verif.WeakMsgProps
import Verif.WeakSend
import Verif.WeakSendProps
import Verif.ChanDrop
import Verif.ChanDropProps
import Verif.WeakRecv
import Verif.WeakRecvProps
import Verif.RelAcqLen
import Verif.RelAcqLenProps
import Verif.ByValue
import Verif.ByValueInv
import Verif.ByValueProps
