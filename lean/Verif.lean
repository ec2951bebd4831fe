import Verif.Props.Record
import Verif.Props.Crc
import Verif.Props.Split
import Verif.Props.Proto
import Verif.Props.ProtoSafe
import Verif.Props.Head
import Verif.Props.File
import Verif.Props.Metric
import Verif.Props.MetricRefuted
import Verif.Props.Damage
import Verif.Props.Oversized
import Verif.Props.Crash
import Verif.Props.Convert
import Verif.Props.Pcg
import Verif.Props.Cache
import Verif.Props.FileCache
import Verif.Props.LockPool
import Verif.Props.Queue
import Verif.Props.SSet
import Verif.Props.Names
import Verif.Props.Dirent
import Verif.Props.Populate
import Verif.Props.Query
import Verif.Props.Writer
import Verif.Props.AggConc
import Verif.Props.WriterConc
import Verif.Props.WriterSep
import Verif.Props.Merge
import Verif.Props.Pixel
import Verif.Props.Merger
import Verif.Props.Cdf
import Verif.Props.Http
import Verif.Props.Assert
import Verif.Props.Registry
import Verif.Props.Launch
import Verif.Props.Canvas
import Verif.Props.Graphite
import Verif.Props.Dump
import Verif.Props.Tgzfs
import Verif.Props.Config
import Verif.Props.Serial
import Verif.Props.SerialDb
import Verif.Props.Durable
import Verif.Props.Wire
import Verif.Props.QueryExact
import Verif.Props.CrashMore
import Verif.Props.Run
import Verif.Props.Listener
import Verif.Props.Render
import Verif.Props.Pipe
import Verif.Props.Space
import Verif.Props.Axis
import Verif.Props.Layout
import Verif.Props.Picture
import Verif.Props.Response
import Verif.Props.Maker
import Verif.Props.Params
import Verif.Props.Periodic
import Verif.Props.Demo
import Verif.Props.Heat
import Verif.Props.Rate
import Verif.Props.Ticks
import Verif.Props.Scene
import Verif.Props.SceneMore
import Verif.Props.QueryBar
import Verif.Props.Url
import Verif.Props.Page
import Verif.Props.Json
import Verif.Props.Site
import Verif.Props.Glyph
import Verif.Props.GraphText
import Verif.Props.GraphRead
import Verif.Model.Calls
import Verif.Spec.Handles
import Verif.Props.Calls
import Verif.Props.Handles
import Verif.Lemmas.Shared
import Verif.Lemmas.Oracle
import Verif.Props.Shared
import Verif.Props.SharedMore
import Verif.Props.SharedNone
import Verif.Props.SharedExample
import Verif.Model.Process
import Verif.Lemmas.Process
import Verif.Props.Process
import Verif.Props.ProcessEnds
import Verif.Props.ProcessExample
import Verif.Model.Request
import Verif.Props.Request
import Verif.Props.RequestExample
import Verif.Model.Fault
import Verif.Spec.Fault
import Verif.Lemmas.Fault
import Verif.Props.Fault
import Verif.Props.FaultExample
import Verif.Model.Signal
import Verif.Props.Signal
import Verif.Model.Serve
import Verif.Props.Serve
import Verif.Model.Command
import Verif.Props.Command
import Verif.Model.Handler
import Verif.Props.Browser
import Verif.Props.Answer
import Verif.Props.BrowserExample
import Verif.Model.Feed
import Verif.Props.Feed
import Verif.Props.FeedExample
import Verif.Model.Kill
import Verif.Spec.Kill
import Verif.Spec.KillProc
import Verif.Spec.Clock
import Verif.Lemmas.Kill
import Verif.Props.Kill
import Verif.Props.KillMore
import Verif.Props.KillExample
import Verif.Props.KillProc
import Verif.Props.KillLives
import Verif.Props.KillProcExample
import Verif.Props.Clock
import Verif.Props.ClockExample
import Verif.Props.NamesHeal
import Verif.Props.NamesFixed
import Verif.Model.Whole
import Verif.Props.Typed
import Verif.Props.Whole
import Verif.Props.WholeExample
import Verif.Model.Duration
import Verif.Spec.Duration
import Verif.Lemmas.Duration
import Verif.Lemmas.DurationFrac
import Verif.Props.Duration
import Verif.Props.DurationText
import Verif.Model.FaultShared
import Verif.Spec.FaultShared
import Verif.Lemmas.FaultShared
import Verif.Props.FaultCalls
import Verif.Lemmas.FaultStep
import Verif.Lemmas.FaultOracle
import Verif.Props.FaultShared
import Verif.Props.FaultSharedMore
import Verif.Props.FaultSharedExample
import Verif.Spec.Ends
import Verif.Props.Ends
import Verif.Props.EndsExample
import Verif.Spec.Scan
import Verif.Model.Scan
import Verif.Spec.ScanRun
import Verif.Lemmas.Scan
import Verif.Props.Scan
import Verif.Props.ScanEnds
import Verif.Props.ScanExample
import Verif.Spec.Numeral
import Verif.Model.Fmt
import Verif.Lemmas.Fmt
import Verif.Lemmas.Calendar
import Verif.Lemmas.Numeral
import Verif.Props.Labels
import Verif.Props.LabelsTime
import Verif.Props.LabelsScene
import Verif.Props.LabelsExample
import Verif.Model.ParseFloat
import Verif.Spec.ParseFloat
import Verif.Lemmas.ParseFloat
import Verif.Props.ParseFloat
import Verif.Props.ParseFloatSent
import Verif.Props.ParseFloatExample
import Verif.Model.FileServer
import Verif.Spec.FileServer
import Verif.Lemmas.FileServer
import Verif.Props.FileServer
import Verif.Props.FileServerBrowse
import Verif.Props.FileServerExample
import Verif.Model.ProcFault
import Verif.Spec.ProcFault
import Verif.Props.ProcFault
import Verif.Props.ProcFaultExample
import Verif.Spec.ProcEnds
import Verif.Props.ProcEnds
import Verif.Props.ProcEndsExample
import Verif.Spec.ProcShown
import Verif.Props.ProcShown
import Verif.Props.ProcShownExample
import Verif.Spec.ProcDrawn
import Verif.Props.ProcDrawn
import Verif.Props.ProcDrawnExample
import Verif.Model.BasicAuth
import Verif.Spec.BasicAuth
import Verif.Props.BasicAuth
import Verif.Spec.Address
import Verif.Props.Address
import Verif.Props.ByHand
import Verif.Props.ByHandExample
import Verif.Spec.ProcColumns
import Verif.Props.ProcColumns
import Verif.Props.ProcColumnsExample
import Verif.Props.MinusOne
import Verif.Props.MinusOneExample
import Verif.Spec.ProcRead
import Verif.Props.Peak
import Verif.Props.ProcRead
import Verif.Props.ProcReadExample
import Verif.Props.KillShown
import Verif.Props.KillAgain
import Verif.Props.KillOrder
import Verif.Props.KillShownExample
import Verif.Props.KillRead
import Verif.Props.KillReadExample
import Verif.Model.Tabbed
import Verif.Model.External
import Verif.Props.Tabbed
import Verif.Props.External
import Verif.Model.DumpReport
import Verif.Props.DumpReport
import Verif.Props.CanvasGeneric
import Verif.Model.GraphiteLog
import Verif.Props.GraphiteLog
