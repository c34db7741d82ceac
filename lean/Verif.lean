import Verif.Base
import Verif.U8Pool.Model
import Verif.U8Pool.Iter
import Verif.U8Pool.Spec
import Verif.U8Pool.Lemmas
import Verif.U8Pool.Refine
import Verif.U8Pool.IterLemmas
import Verif.U8Pool.Props
import Verif.U8Pool.Props2
import Verif.U8Pool.Props3
import Verif.RJiter.Basic
import Verif.RJiter.Buffer
import Verif.RJiter.Jiter
import Verif.RJiter.Model
import Verif.RJiter.Spec
import Verif.RJiter.BufferLemmas
import Verif.RJiter.Collect
import Verif.RJiter.Steps
import Verif.RJiter.Loop
import Verif.RJiter.JiterLemmas
import Verif.RJiter.JiterGood
import Verif.RJiter.Calls
import Verif.RJiter.Sound
import Verif.RJiter.StrSpec
import Verif.RJiter.StrLemmas
import Verif.RJiter.Long
import Verif.RJiter.Ops
import Verif.RJiter.Trace
import Verif.RJiter.OpLemmas
import Verif.RJiter.Props
import Verif.RJiter.NumSpec
import Verif.RJiter.NumEnd
import Verif.RJiter.PropsCalls
import Verif.RJiter.LongDone
import Verif.RJiter.LongSafe
import Verif.RJiter.Keyless
import Verif.RJiter.LongBad
import Verif.RJiter.PropsControl
import Verif.RJiter.StrSound
import Verif.RJiter.LongSound
import Verif.RJiter.LongCut
import Verif.RJiter.PropsLong
import Verif.RJiter.LongPart
import Verif.RJiter.LongKept
import Verif.RJiter.Tidy
import Verif.RJiter.PropsPart
import Verif.RJiter.Value
import Verif.RJiter.PropsValue
import Verif.RJiter.Failed
import Verif.RJiter.PropsErr
import Verif.RJiter.PeekRoom
import Verif.Scan.Matcher
import Verif.Scan.Model
import Verif.Scan.Doc
import Verif.Scan.Stack
import Verif.Scan.Calls
import Verif.Scan.Run
import Verif.Scan.Top
import Verif.Scan.Modes
import Verif.Scan.ChunkMode
import Verif.Scan.ChunkProps
import Verif.Scan.Events
import Verif.Scan.Props
import Verif.Scan.Sim
import Verif.Scan.Stop
import Verif.Scan.Idt
import Verif.Scan.IdtFail
import Verif.Scan.Until
import Verif.Scan.Faults
import Verif.Scan.IdtProps
import Verif.Scan.Each
import Verif.Scan.Pick
import Verif.Scan.Llm
import Verif.RJiter.StepSound
import Verif.Scan.CutCalls
import Verif.Scan.Cut
import Verif.Scan.CutProps
import Verif.Scan.Guard
import Verif.Ddb.Basic
import Verif.Ddb.ToDdb
import Verif.Ddb.Fail
import Verif.Ddb.Endless
import Verif.Ddb.Sound
import Verif.Ddb.Spec
import Verif.Ddb.ToDdbProps
import Verif.Ddb.ToNormal
import Verif.Ddb.NormalFail
import Verif.Ddb.Faults
import Verif.Ddb.NormalSpec
import Verif.Ddb.NormalProps
import Verif.Ddb.RoundTrip
import Verif.Ddb.BackTrip
import Verif.Ddb.Reject
import Verif.RJiter.Hopeless
import Verif.Scan.Feed
import Verif.Scan.Bad
import Verif.Scan.BadProps
import Verif.RJiter.Forward
import Verif.RJiter.Loose
import Verif.Scan.Returns
import Verif.Scan.ReturnsProps
import Verif.Ddb.NormalReturns
import Verif.RJiter.Faults
import Verif.RJiter.PropsIo
import Verif.Scan.Io
import Verif.Scan.IoProps
import Verif.Ddb.IoProps
import Verif.Ddb.Cli
import Verif.Ddb.CliProps
import Verif.Ddb.CliTrip
import Verif.Ddb.Levels
import Verif.RJiter.SkimSpec
import Verif.RJiter.Skim
import Verif.RJiter.Accept
import Verif.Scan.LooseDoc
import Verif.Scan.Accept
import Verif.Scan.AcceptProps
import Verif.Scan.PartSpec
import Verif.Scan.PartBack
import Verif.Scan.PartProps
import Verif.Scan.IdtPart
import Verif.Scan.PartUnique
import Verif.Scan.PartOut
import Verif.Ddb.Beginning
import Verif.Ddb.BeginningDdb
import Verif.Ddb.CliBeginning
import Verif.Scan.Unique
import Verif.Scan.UniqueProps
import Verif.RJiter.JiterValue
import Verif.RJiter.ModelValue
import Verif.RJiter.Whole
import Verif.RJiter.WholeFuel
import Verif.RJiter.WholeBound
import Verif.RJiter.CallEnd
import Verif.RJiter.Lost
import Verif.Scan.WholeSpec
import Verif.Scan.WholeFits
import Verif.Scan.WholeCalls
import Verif.Scan.WholeNum
import Verif.Scan.WholeProps
import Verif.Scan.AgainProps
import Verif.Scan.LostProps
import Verif.Scan.WholeSound
import Verif.Scan.WholeSoundProps
import Verif.RJiter.Held
import Verif.Scan.HeldSpec
import Verif.Scan.HeldProps
import Verif.RJiter.Words
import Verif.RJiter.Numberless
import Verif.Ddb.Stuck
import Verif.Ddb.SoundDdb
import Verif.Ddb.Halting
import Verif.Ddb.CliSound
import Verif.Bench.Model
import Verif.Bench.Props
import Verif.Bench.Meaning
import Verif.Bench.Agree
import Verif.Bench.Main
import Verif.Bench.MainLemmas
import Verif.Bench.MainProps
import Verif.Bench.MainWhole
import Verif.Bench.MainMore
import Verif.RJiter.ErrIndex
import Verif.Scan.Position
import Verif.Scan.PositionProps
import Verif.Ddb.Position
import Verif.Ddb.PositionProps
import Verif.Scan.IdtPosition
import Verif.Scan.Ahead
import Verif.RJiter.More
import Verif.RJiter.MoreProps
import Verif.Ddb.Ahead
import Verif.Scan.Said
import Verif.Ddb.Message
import Verif.Ddb.Said
import Verif.Ddb.MessageProps
import Verif.RJiter.Late
import Verif.RJiter.LateWord
import Verif.Scan.Late
import Verif.Scan.LateIdt
import Verif.Scan.LateProps
import Verif.Scan.CausalProps
import Verif.Scan.CausalStop
import Verif.Ddb.Causal
import Verif.Scan.TokenBack
import Verif.Scan.TokenBackProps
import Verif.Scan.TokenDoc
import Verif.Scan.TokenPartSpec
import Verif.Scan.TokenPart
import Verif.Scan.TokenPartProps
import Verif.Ddb.Late
import Verif.Ddb.LateDdb
import Verif.Ddb.LateProps
import Verif.RJiter.Column
import Verif.RJiter.Refused
import Verif.RJiter.Tokens
import Verif.Ddb.Describe
import Verif.Conform.RJiter
import Verif.Conform.Buffer
import Verif.Conform.Scan
import Verif.Conform.Pool
import Verif.Conform.Ddb
import Verif.Conform.Readme
