import Verif.Flags
import Verif.Machine
import Verif.Code
import Verif.Demo
import Verif.Preserve5
import Verif.Rel2
import Verif.NoImp
import Verif.OwnerInv
import Verif.TransferInv
import Verif.EnterInv
import Verif.Unwind
import Verif.Mem
import Verif.Rules
import Verif.Disc2
import Verif.Legal2
import Verif.Hist
import Verif.BackInv
import Verif.Fwd
import Verif.PropsLife
import Verif.SpecObj
import Verif.ObjInv
import Verif.Drop
import Verif.RulesCheck
import Verif.PropsRules
import Verif.HeldInv
import Verif.Destroy
import Verif.PropsUnwind
import Verif.PropsOrder
import Verif.Back
import Verif.SpecMore
import Verif.DemoMore
import Verif.PropsStart
import Verif.Switch
import Verif.PropsSwitch
import Verif.SpecValue
import Verif.Value
import Verif.PropsValid
import Verif.NoTwice
import Verif.SetThrowInv
import Verif.PropsValue
import Verif.Alloc
import Verif.PropsAlloc
import Verif.SpecMove
import Verif.PropsMove
import Verif.SpecFrame
import Verif.PropsFrame
import Verif.SpecIter
import Verif.PropsIter
import Verif.SpecLoop
import Verif.PropsLoop
import Verif.SpecFringe
import Verif.ExFringe
import Verif.Produce
import Verif.Consume
import Verif.PropsFringe
import Verif.SpecParser
import Verif.ExParser
import Verif.Descent
import Verif.PropsParser
import Verif.PropsProgress
import Verif.SpecFib
import Verif.ExFib
import Verif.PropsFib
import Verif.SpecLayout
import Verif.ExLayout
import Verif.PropsLayout
import Verif.ExDoc
import Verif.PropsDoc
import Verif.ExOutIt
import Verif.PropsOutIt
import Verif.PropsDocs
import Verif.TestSuite
import Verif.Callable
import Verif.PropsCallable
import Verif.SpecCo
import Verif.SpecScope
import Verif.SimCo
import Verif.SimStep
import Verif.SimStep2
import Verif.SimStep3
import Verif.SimRules
import Verif.SimOut
import Verif.SimTop
import Verif.PropsRefine
import Verif.Work
import Verif.DemoTick
import Verif.PropsLive
import Verif.CoroRun
import Verif.ExChain
import Verif.SpecChain
import Verif.ChainRun
import Verif.ChainMake
import Verif.OutRun
import Verif.ChainEnd
import Verif.PropsChain
import Verif.PropsOutChain
import Verif.SlotSpoil
import Verif.Spoil
import Verif.PropsSpoil
import Verif.SpecStack
import Verif.PropsStack
import Verif.Assert
import Verif.PropsAssert
import Verif.SpecErase
import Verif.EraseSim
import Verif.PropsErase
import Verif.SpecInside
import Verif.InsideSim
import Verif.PropsInside
import Verif.PropsNoexcept
import Verif.Via
import Verif.ExSegm
import Verif.PropsSegm
import Verif.SpecBracket
import Verif.PropsBracket
import Verif.PropsHops
import Verif.ExPerf
import Verif.PropsPerf
import Verif.Overload
import Verif.PropsOverload
import Verif.SpecGen
import Verif.GenCo
import Verif.PropsGen
import Verif.SpecSink
import Verif.SinkCo
import Verif.PropsSink
import Verif.SpecRobin
import Verif.ExRobin
import Verif.RobinRun
import Verif.PropsRobin
import Verif.SpecServe
import Verif.ExServe
import Verif.ServeRun
import Verif.PropsServe
import Verif.SpecCrew
import Verif.ExCrew
import Verif.CrewRun
import Verif.PropsCrew
import Verif.SpecEvents
import Verif.ExEvents
import Verif.EventsRun
import Verif.PropsEvents
import Verif.SpecSessions
import Verif.ExSessions
import Verif.SessionsRun
import Verif.PropsSessions
import Verif.SpecCursors
import Verif.ExCursors
import Verif.CursorsRun
import Verif.PropsCursors
