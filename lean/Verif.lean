import Verif.Basic
import Verif.Model.PagedStack
import Verif.Spec.Stack
import Verif.Spec.StackObs
import Verif.Proofs.PagedStack
import Verif.Proofs.PagedStack2
import Verif.Proofs.PSRefine
import Verif.Proofs.PSMore
import Verif.Proofs.PSIter
import Verif.Props.PagedStack
import Verif.Model.PSSync
import Verif.Spec.StackSync
import Verif.Proofs.PSSync
import Verif.Proofs.PSSync2
import Verif.Props.PSSync
import Verif.Model.Futex
import Verif.Spec.Mutex
import Verif.Proofs.Futex
import Verif.Props.Futex
import Verif.Model.Atomic
import Verif.Props.Atomic
import Verif.Model.LogSystem
import Verif.Spec.LogTrace
import Verif.Proofs.LogStep
import Verif.Proofs.LogMem
import Verif.Proofs.LogProto
import Verif.Proofs.LogRun
import Verif.Proofs.LogStop
import Verif.Props.LogSystem
import Verif.Props.LogHistory
import Verif.Model.Logger
import Verif.Spec.Logger
import Verif.Proofs.Logger
import Verif.Props.Logger
import Verif.Model.LogStream
import Verif.Spec.LogStream
import Verif.Proofs.LogStream
import Verif.Proofs.LogStream2
import Verif.Props.LogStream
import Verif.Model.Item
import Verif.Spec.Item
import Verif.Props.Item
import Verif.Model.Code
import Verif.Spec.Code
import Verif.Props.Code
import Verif.Model.Singleton
import Verif.Spec.Singleton
import Verif.Props.Singleton
import Verif.Model.Distribute
import Verif.Props.Distribute
import Verif.Model.Version
import Verif.Props.Version
import Verif.Model.TestCase
import Verif.Spec.TestCase
import Verif.Proofs.TestCase
import Verif.Props.TestCase
import Verif.Model.UnitTest
import Verif.Spec.UnitTest
import Verif.Proofs.UnitTest
import Verif.Proofs.UnitTest2
import Verif.Proofs.UnitTest3
import Verif.Props.UnitTest
import Verif.Props.Level
import Verif.Model.FloatEq
import Verif.Spec.FloatEq
import Verif.Proofs.FloatEq
import Verif.Props.FloatEq
import Verif.Spec.Xml
import Verif.Proofs.Xml
import Verif.Props.Xml
import Verif.Model.Checks
import Verif.Props.Checks
import Verif.Props.FloatText
import Verif.Model.PSCopy
import Verif.Spec.StackValue
import Verif.Proofs.PSCopy
import Verif.Props.PSCopy
import Verif.Model.PSGuard
import Verif.Props.PSGuard
import Verif.Model.PSAlloc
import Verif.Props.PSAlloc
import Verif.Spec.Console
import Verif.Proofs.Console
import Verif.Props.Console
import Verif.Props.FailedCases
import Verif.Spec.Suite
import Verif.Props.Suite
import Verif.Props.Times
import Verif.Spec.LogFile
import Verif.Props.LogFile
import Verif.Model.LogLeak
import Verif.Proofs.LogLeak
import Verif.Props.LogLeak
import Verif.Props.LogReact
import Verif.Props.LogRace
import Verif.Props.LogFail
import Verif.Model.FutexWeak
import Verif.Spec.FutexWeak
import Verif.Proofs.FutexWeak
import Verif.Props.FutexWeak
import Verif.Props.LogDiags
import Verif.Props.FutFormat
import Verif.Props.Lifetime
import Verif.Props.PSLoop
import Verif.Props.PSSyncDec
import Verif.Props.PSThrow
import Verif.Model.FutNested
import Verif.Spec.Nested
import Verif.Proofs.Nested
import Verif.Proofs.Nested2
import Verif.Props.Nested
import Verif.Props.NestedRuns
import Verif.Props.Runners
import Verif.Props.RunnersBad
import Verif.Props.StackIter
import Verif.Props.StackArgs
import Verif.Props.FutFormat2
import Verif.Props.StackLife
import Verif.Props.ItemStack
import Verif.Props.FutexFair
import Verif.Model.LogStreamFail
import Verif.Spec.LogStreamFail
import Verif.Props.LogStreamFail
import Verif.Props.LogFair
import Verif.Model.StackRace
import Verif.Spec.StackRace
import Verif.Proofs.StackRace
import Verif.Proofs.StackCells
import Verif.Proofs.StackReads
import Verif.Props.StackRace
import Verif.Spec.LogFilter
import Verif.Proofs.LogFilter
import Verif.Props.LogFilter
import Verif.Props.PSCopyMore
import Verif.Props.PSGuardMore
import Verif.Check.PagedStackTests
import Verif.Check.EngineTests
import Verif.Check.LogTests
import Verif.Check.FutTests
import Verif.Model.LoggerThrow
import Verif.Spec.LoggerThrow
import Verif.Proofs.LoggerThrow
import Verif.Props.LoggerThrow
import Verif.Spec.LoggerNest
import Verif.Props.LoggerNest
import Verif.Model.FilterRace
import Verif.Spec.FilterRace
import Verif.Proofs.FilterRace
import Verif.Props.FilterRace
import Verif.Props.FilterLast
import Verif.Props.FormatState
import Verif.Spec.Complete
import Verif.Proofs.Complete
import Verif.Props.Complete
import Verif.Props.PSAllocBack
import Verif.Model.ValueMem
import Verif.Spec.ValueMem
import Verif.Props.ValueMem
import Verif.Model.UTSingleton
import Verif.Spec.UTSingleton
import Verif.Props.UTSingleton
import Verif.Props.PSNested
import Verif.Props.PSRemove
import Verif.Props.LoggerJoint
import Verif.Props.LoggerLive
import Verif.Props.FutThreads
import Verif.Props.LogLatency
import Verif.Props.LogMutex
import Verif.Props.LogMutexRest
import Verif.Props.LogMutexWork
import Verif.Props.LogMutexReact
import Verif.Witness.Stack
import Verif.Witness.Stack2
import Verif.Witness.Log
import Verif.Witness.LogMutex
import Verif.Props.LogMutexFeed
import Verif.Props.LogMutexWait
import Verif.Props.LogMutexSerial
import Verif.Props.LoggerExact
import Verif.Props.FutDirect
import Verif.Props.ChecksAny
import Verif.Props.RunnersDefined
import Verif.Props.FutexStep
import Verif.Props.LoggerRecover
import Verif.Props.UTSAccess
import Verif.Witness.Logger
import Verif.Witness.Sync
import Verif.Witness.Fut
import Verif.Witness.Item
import Verif.Witness.React
import Verif.Witness.FutexWeak
