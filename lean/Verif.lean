import Verif.Cpp
import Verif.Api
import Verif.Spec
import Verif.Policy
import Verif.PolicyLaws
import Verif.Factory
import Verif.Core
import Verif.Assoc
import Verif.CoreInv
import Verif.CoreHandle
import Verif.CoreInsert
import Verif.CoreSim
import Verif.FactoryInst
import Verif.Instances
import Verif.History
import Verif.SpecLemmas
import Verif.SpecMatch
import Verif.Observe
import Verif.CoreLazy
import Verif.CoreClean
import Verif.Sample
import Verif.Props.Core
import Verif.Props.Value
import Verif.FactoryHom
import Verif.FactoryProd
import Verif.Container
import Verif.Props.Factories
import Verif.Conc
import Verif.ConcInv
import Verif.ConcStep
import Verif.ConcReach
import Verif.ConcRank
import Verif.ConcOnce
import Verif.Props.Concurrent
import Verif.Props.Once
import Verif.HB
import Verif.ConcHB
import Verif.ConcHBStep
import Verif.Props.Races
import Verif.StaticHB
import Verif.StaticQuiet
import Verif.Props.StaticRaces
import Verif.CFac
import Verif.CFacInv
import Verif.CFacStep
import Verif.CFacRank
import Verif.CFacStuck
import Verif.CFacCycle
import Verif.CFacRing
import Verif.Ring
import Verif.CFacStop
import Verif.CFacTrack
import Verif.CFacHB
import Verif.CFacHBStep
import Verif.CFacHBLoad
import Verif.Props.ConcFactory
import Verif.Props.FactoryRaces
import Verif.Props.FactoryAlone
import Verif.Serial
import Verif.SerialRec
import Verif.SerialSave
import Verif.ArchiveTemp
import Verif.Props.Serialize
import Verif.Statics
import Verif.Props.Statics
import Verif.Family
import Verif.Modules
import Verif.ModulesExact
import Verif.Props.Family
import Verif.Config
import Verif.Props.Config
import Verif.Overload
import Verif.OverloadLemmas
import Verif.OverloadSets
import Verif.Props.Forwarding
import Verif.Braces
import Verif.BracesLemmas
import Verif.Props.Braces
import Verif.Operators
import Verif.Props.Operators
import Verif.Nested
import Verif.NestedInv
import Verif.NestedOwn
import Verif.Examples.Fibonacci
import Verif.Props.Fibonacci
import Verif.Props.Nested
import Verif.NestedVars
import Verif.NestedCount
import Verif.Props.NestedCount
import Verif.Examples.Parallel
import Verif.Props.Parallel
import Verif.NestedRef
import Verif.NestedProg
import Verif.Props.NestedRef
import Verif.Examples.Composite
import Verif.Props.Composite
import Verif.Examples.Html
import Verif.Props.Html
import Verif.Verbose
import Verif.VerboseKeys
import Verif.VerboseMain
import Verif.Props.Verbose
import Verif.CoreMoves
import Verif.Props.Moves
import Verif.Props.Library
import Verif.Lambda
import Verif.LambdaLemmas
import Verif.Props.Lambda
import Verif.Atomic
import Verif.AtomicLemmas
import Verif.ConcLin
import Verif.ConcLinStep
import Verif.ConcLinLib
import Verif.ConcLinAct
import Verif.Props.Linear
import Verif.Idents
import Verif.Plain
import Verif.PlainInv
import Verif.PlainRank
import Verif.PlainHB
import Verif.PlainHBStep
import Verif.Lasting
import Verif.PlainLin
import Verif.PlainCycle
import Verif.Props.Plain
import Verif.Linger
import Verif.LingerLemmas
import Verif.CFacLin
import Verif.CFacLinStep
import Verif.Props.Linger
import Verif.ConcWork
import Verif.PlainWork
import Verif.CFacWork
import Verif.Props.Progress
import Verif.Explain
import Verif.ExplainLinger
import Verif.Props.Sequential
import Verif.CoreCount
import Verif.CountLib
import Verif.Props.Acts
import Verif.Examples.KeyValue
import Verif.Props.Textures
import Verif.Examples.Archive
import Verif.Props.Archive
import Verif.Client
import Verif.Examples.Tests
import Verif.Props.Tests
import Verif.Transparent
import Verif.Props.Transparent
import Verif.Simple
import Verif.Examples.Users
import Verif.Props.Users
import Verif.Distinct
import Verif.Examples.Perf
import Verif.Props.Perf
import Verif.SerialCore
import Verif.Props.SerialCore
import Verif.StaticFail
import Verif.Props.StaticFail
import Verif.CFSpec
import Verif.CFSeq
import Verif.CFSeqInv
import Verif.CFSeqIns
import Verif.CFSeqSim
import Verif.CFSeqLib
import Verif.Props.CFSeq
import Verif.CFSeqMoves
import Verif.Props.CFSeqMoves
import Verif.NoThrow
import Verif.Props.NoThrow
import Verif.Session
import Verif.SessionRun
import Verif.SessionLib
import Verif.Props.Session
import Verif.Examples.SessionTests
import Verif.SessionRules
import Verif.SessionTestsOk
import Verif.Props.SessionTests
import Verif.SessionSerial
import Verif.SessionSerialOk
import Verif.SessionSerialTest
import Verif.Props.SessionSerial
import Verif.Tracker
import Verif.TrackerSim
import Verif.TrackerInsert
import Verif.TrackerRun
import Verif.TrackerPolicies
import Verif.TrackerObserve
import Verif.Props.Tracker
import Verif.Props.TrackerThrow
import Verif.Exit
import Verif.ExitNeed
import Verif.Props.Exit
import Verif.CFExit
import Verif.Props.CFExit
