import Verif.Basic
import Verif.Model.Adaptor
import Verif.Model.Buffered
import Verif.Model.Builder
import Verif.Model.Bytes
import Verif.Model.CallBack
import Verif.Model.ConcBuf
import Verif.Model.ConcMem
import Verif.Model.ConcPos
import Verif.Model.Concurrent
import Verif.Model.Conn
import Verif.Model.Construct
import Verif.Model.Consume
import Verif.Model.Errors
import Verif.Model.Float
import Verif.Model.Heap
import Verif.Model.IoCopy
import Verif.Model.Json
import Verif.Model.JsonFloat
import Verif.Model.Layer
import Verif.Model.Machine
import Verif.Model.MachineWriter
import Verif.Model.Mime
import Verif.Model.Mock
import Verif.Model.MockConc
import Verif.Model.MockText
import Verif.Model.NetHttp
import Verif.Model.PanicText
import Verif.Model.Positional
import Verif.Model.Push
import Verif.Model.Quote
import Verif.Model.Reader
import Verif.Model.Recorder
import Verif.Model.Register
import Verif.Model.Registry
import Verif.Model.Serve
import Verif.Model.ServeSteps
import Verif.Model.ServedHeaders
import Verif.Model.Shared
import Verif.Model.Shelf
import Verif.Model.SliceBuf
import Verif.Model.SliceBytes
import Verif.Model.SliceJson
import Verif.Model.SlicePos
import Verif.Model.Slices
import Verif.Model.Store
import Verif.Model.Strconv
import Verif.Model.Text
import Verif.Model.Timed
import Verif.Model.TimeoutHandler
import Verif.Model.Told
import Verif.Model.Wire
import Verif.Model.Wire10
import Verif.Model.Woven
import Verif.Model.WriteBack
import Verif.Model.Writer
import Verif.Proofs.Adaptor
import Verif.Proofs.BufCalm
import Verif.Proofs.BufCongr
import Verif.Proofs.BufInv
import Verif.Proofs.BufLoop
import Verif.Proofs.BufRun
import Verif.Proofs.BufSim
import Verif.Proofs.BufStep
import Verif.Proofs.Builder
import Verif.Proofs.Bytes
import Verif.Proofs.CallBack
import Verif.Proofs.CallBackKinds
import Verif.Proofs.Conc
import Verif.Proofs.ConcBuf
import Verif.Proofs.ConcLive
import Verif.Proofs.ConcMem
import Verif.Proofs.ConcPos
import Verif.Proofs.ConcSafe
import Verif.Proofs.ConcSim
import Verif.Proofs.Consume
import Verif.Proofs.ConsumeBody
import Verif.Proofs.Crowd
import Verif.Proofs.Failing
import Verif.Proofs.FailingBody
import Verif.Proofs.Float
import Verif.Proofs.Generic
import Verif.Proofs.HappensBefore
import Verif.Proofs.Heap
import Verif.Proofs.JsonAccepts
import Verif.Proofs.JsonBare
import Verif.Proofs.JsonFloat
import Verif.Proofs.JsonGrammar
import Verif.Proofs.JsonIndent
import Verif.Proofs.JsonMeans
import Verif.Proofs.JsonNest
import Verif.Proofs.JsonNumber
import Verif.Proofs.JsonParse
import Verif.Proofs.JsonRead
import Verif.Proofs.JsonScan
import Verif.Proofs.JsonSteps
import Verif.Proofs.JsonText
import Verif.Proofs.JsonTree
import Verif.Proofs.JsonValue
import Verif.Proofs.Lively
import Verif.Proofs.Locks
import Verif.Proofs.Machine
import Verif.Proofs.MachineBuf
import Verif.Proofs.MachineWriter
import Verif.Proofs.Mem
import Verif.Proofs.Mime
import Verif.Proofs.MimeBack
import Verif.Proofs.MimeExt
import Verif.Proofs.MimeGrammar
import Verif.Proofs.Morph
import Verif.Proofs.NetHttp
import Verif.Proofs.NetInv
import Verif.Proofs.Pos
import Verif.Proofs.PosFacts
import Verif.Proofs.PosMore
import Verif.Proofs.PosSeek
import Verif.Proofs.Push
import Verif.Proofs.Quits
import Verif.Proofs.Quote
import Verif.Proofs.Scrape
import Verif.Proofs.Serve
import Verif.Proofs.ServeSteps
import Verif.Proofs.ServedHeaders
import Verif.Proofs.Shareable
import Verif.Proofs.Sim
import Verif.Proofs.SliceBuf
import Verif.Proofs.SliceBytes
import Verif.Proofs.SliceJson
import Verif.Proofs.SlicePos
import Verif.Proofs.Slices
import Verif.Proofs.Source
import Verif.Proofs.SpecFacts
import Verif.Proofs.Strconv
import Verif.Proofs.Success
import Verif.Proofs.Text
import Verif.Proofs.Timed
import Verif.Proofs.Told
import Verif.Proofs.Trim
import Verif.Proofs.Untouched
import Verif.Proofs.Wire
import Verif.Proofs.Wire10
import Verif.Proofs.WireBody
import Verif.Proofs.WireCut
import Verif.Proofs.WireShort
import Verif.Proofs.WriteBack
import Verif.Proofs.WriteBackAlone
import Verif.Proofs.WriteBackOrder
import Verif.Proofs.WriteBackRace
import Verif.Proofs.Writer
import Verif.Props.Adaptor
import Verif.Props.Around
import Verif.Props.Buffered
import Verif.Props.BufferedClose
import Verif.Props.Builder
import Verif.Props.CallBack
import Verif.Props.Calm
import Verif.Props.CalmAdaptor
import Verif.Props.CalmBody
import Verif.Props.CalmOverrun
import Verif.Props.ClosePanic
import Verif.Props.Coding
import Verif.Props.Concurrent
import Verif.Props.Conn
import Verif.Props.Construct
import Verif.Props.Consume
import Verif.Props.Copies
import Verif.Props.Crowd
import Verif.Props.Describe
import Verif.Props.EndToEnd
import Verif.Props.Ends
import Verif.Props.ErrorText
import Verif.Props.Exactly
import Verif.Props.Failing
import Verif.Props.Forked
import Verif.Props.HappensBefore
import Verif.Props.Json
import Verif.Props.JsonFloat
import Verif.Props.JsonFloatAll
import Verif.Props.JsonText
import Verif.Props.Kinds
import Verif.Props.Layer
import Verif.Props.Machine
import Verif.Props.MachineWriter
import Verif.Props.Media
import Verif.Props.Mem
import Verif.Props.Memory
import Verif.Props.Mock
import Verif.Props.MockConc
import Verif.Props.MockOrder
import Verif.Props.MockText
import Verif.Props.NetHttp
import Verif.Props.Pages
import Verif.Props.PanicText
import Verif.Props.Pool
import Verif.Props.Positional
import Verif.Props.Push
import Verif.Props.Recorder
import Verif.Props.RecorderDirect
import Verif.Props.Register
import Verif.Props.Registry
import Verif.Props.Replay
import Verif.Props.Serve
import Verif.Props.ServedHeaders
import Verif.Props.Shared
import Verif.Props.Sharing
import Verif.Props.Shrink
import Verif.Props.StandIn
import Verif.Props.Success
import Verif.Props.Through
import Verif.Props.Timed
import Verif.Props.TimeoutFailing
import Verif.Props.TimeoutHandler
import Verif.Props.Told
import Verif.Props.ToldCopies
import Verif.Props.Weakest
import Verif.Props.Wire
import Verif.Props.Wire10
import Verif.Props.Wire10Failing
import Verif.Props.Wire10Keep
import Verif.Props.Woven
import Verif.Props.WriteBack
import Verif.Props.Writer
import Verif.Spec.Builder
import Verif.Spec.CallBack
import Verif.Spec.Calm
import Verif.Spec.Coding
import Verif.Spec.Concurrent
import Verif.Spec.Conn
import Verif.Spec.Construct
import Verif.Spec.Consume
import Verif.Spec.Copies
import Verif.Spec.Cursor
import Verif.Spec.Decimal
import Verif.Spec.Delivery
import Verif.Spec.Describe
import Verif.Spec.ErrorText
import Verif.Spec.Exactly
import Verif.Spec.Failing
import Verif.Spec.HappensBefore
import Verif.Spec.Http
import Verif.Spec.Json
import Verif.Spec.JsonFloat
import Verif.Spec.JsonText
import Verif.Spec.Literal
import Verif.Spec.Log
import Verif.Spec.Machine
import Verif.Spec.Media
import Verif.Spec.Memory
import Verif.Spec.Metrics
import Verif.Spec.Mock
import Verif.Spec.MockOrder
import Verif.Spec.MockText
import Verif.Spec.Observe
import Verif.Spec.PanicText
import Verif.Spec.Pool
import Verif.Spec.Positional
import Verif.Spec.Push
import Verif.Spec.Ready
import Verif.Spec.Scrape
import Verif.Spec.ServedHeaders
import Verif.Spec.Shared
import Verif.Spec.Sharing
import Verif.Spec.Shrink
import Verif.Spec.Splitting
import Verif.Spec.Stream
import Verif.Spec.Success
import Verif.Spec.Text
import Verif.Spec.Timed
import Verif.Spec.Told
import Verif.Spec.Turns
import Verif.Spec.Weakest
import Verif.Spec.Wire
import Verif.Spec.Wire10
import Verif.Spec.WriteBack
