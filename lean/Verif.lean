import Verif.Persist.Model
import Verif.Persist.Lemmas
import Verif.Persist.Codec
import Verif.Persist.Props
import Verif.Persist.FileModel
import Verif.Persist.FileLemmas
import Verif.Persist.FileInv
import Verif.Persist.FileProps
import Verif.Persist.Crash
import Verif.MMQ.Progress
import Verif.MMPQ.Props
import Verif.Stream.Asked
import Verif.Own.Props
import Verif.Own.FlipProps
import Verif.Http.Array
import Verif.Replicate.Flip
import Verif.Replicate.Chain
import Verif.Storage.TxnProps
import Verif.Util.Base64Props
import Verif.Util.OT
import Verif.Url.RoundTrip
import Verif.Time.Now
import Verif.Time.HttpDate
import Verif.Time.Calendar
import Verif.Time.DateText
import Verif.Rest.Dates
import Verif.Tsv.Model
import Verif.Tsv.Props
import Verif.Tsv.Round
import Verif.Tsv.Total
import Verif.Sync.WAProps
import Verif.Net.Cookies
import Verif.Routes.Props
import Verif.Json.Props
import Verif.Json.NaN
import Verif.Json.RealCodec
import Verif.Json.TextExamples
import Verif.Strings.DistanceProps
import Verif.Strings.Convert
import Verif.Strings.Text
import Verif.Strings.Lines
import Verif.Strings.Chunks
import Verif.Fncas.Node
import Verif.Fncas.Eval
import Verif.Fncas.Diff
import Verif.Fncas.DiffProps
import Verif.Fncas.Derivative
import Verif.Fncas.Cost
import Verif.Fncas.Optimize
import Verif.Fncas.Approx
import Verif.Rest.Pages
import Verif.Rest.Model
import Verif.Rest.Props
import Verif.Rest.Cqs
import Verif.Rest.CqsProps
import Verif.Rest.Rows
import Verif.Rest.LifeProps
import Verif.Replicate.RemoteProps
import Verif.Replicate.CtlThms
import Verif.Rest.Get
import Verif.Rest.General
import Verif.Rest.Cond
import Verif.Rest.Demo
import Verif.Infer.Model
import Verif.Infer.Spec
import Verif.Infer.Hist
import Verif.Infer.Reduce
import Verif.Infer.ReduceProps
import Verif.Infer.Infer
import Verif.Infer.Parse
import Verif.Infer.Complete
import Verif.Infer.File
import Verif.Infer.Compile
import Verif.Infer.Table
import Verif.Infer.Props
import Verif.Flags.Model
import Verif.Flags.Props
import Verif.Files.Csv
import Verif.Files.Config
import Verif.Rip.Model
import Verif.Rip.Spec
import Verif.Rip.Inv
import Verif.Rip.Props
import Verif.Rip.Demo
import Verif.Rip.Par
import Verif.Rip.Emitters
import Verif.Schema.Crc
import Verif.Schema.CrcProps
import Verif.Schema.Model
import Verif.Schema.TypeIds
import Verif.Schema.IdExamples
import Verif.Schema.Dfs
import Verif.Schema.SchemaProps
import Verif.Schema.SchemaExamples
import Verif.Jit.Main
import Verif.Jit.Examples
import Verif.Net.Redirect
import Verif.Karl.Model
import Verif.Karl.Inv
import Verif.Karl.Bound
import Verif.Karl.Props
import Verif.Karl.Demo
import Verif.Karl.Snapshot
import Verif.Karl.Report
import Verif.Karl.Claire
import Verif.Karl.ClaireInv
import Verif.Karl.ClaireProps
import Verif.Net.Once
import Verif.Net.Tcp
import Verif.Net.Ports
import Verif.Net.Handles
import Verif.Evolve.Model
import Verif.Evolve.Props
import Verif.Evolve.Evolution
import Verif.Value.Optional
import Verif.Value.OptionalProps
import Verif.Value.OptionalOrder
import Verif.Value.Variant
import Verif.Value.VariantProps
import Verif.Xterm.ProgressThms
import Verif.Strings.RoundingThms
import Verif.Html.HtmlProps
import Verif.Profiler.Profiler
import Verif.Profiler.ProfilerProps
import Verif.Profiler.ProfilerInv
import Verif.Profiler.ProfilerThms
import Verif.Profiler.ProfilerReport
import Verif.Nginx.Config
import Verif.Nginx.ConfigProps
import Verif.Nginx.ConfigBuild
import Verif.Nginx.Update
import Verif.NLP.Model
import Verif.NLP.Props
import Verif.NLP.Eval
import Verif.NLP.Thms
import Verif.NLP.Types
import Verif.Flow.Model
import Verif.Flow.Props
import Verif.Flow.Thms
import Verif.Flow.Refine
import Verif.EventStore.Model
import Verif.EventStore.Props
import Verif.EventStore.Thms
import Verif.Collector.Model
import Verif.Collector.Thms
import Verif.Pipeline.Model
import Verif.Pipeline.Layout
import Verif.Pipeline.Count
import Verif.Pipeline.Data
import Verif.Pipeline.Theorems
import Verif.TypeLists.Model
import Verif.TypeLists.Theorems
import Verif.EmbeddedDb.Model
import Verif.EmbeddedDb.Theorems
import Verif.Gbt.Subset
import Verif.Gbt.Tree
import Verif.Gbt.Curve
import Verif.KarlTest.Primes
import Verif.Pipeline.Workers
import Verif.Util.Syscalls
import Verif.CodeService.Serve
import Verif.Tsv.ToJson
import Verif.Dot.Graphviz
import Verif.Dot.Gnuplot
import Verif.Strings.NamedRegex
import Verif.Schema.TypeName
import Verif.Util.Future
import Verif.Util.Latency
import Verif.Karl.FleetGraph
import Verif.Util.PadHistory
import Verif.Value.Timestamp
import Verif.Replicate.FakeStream
import Verif.Util.Integrations
import Verif.Json.Blame
import Verif.Json.BlameProps
import Verif.Util.Sha256
import Verif.Util.Sha256Props
import Verif.Util.Sha256More
import Verif.Json.Itoa
import Verif.Json.Grisu
import Verif.Json.GrisuDigits
import Verif.Json.GrisuPowers
import Verif.Json.GrisuMain
import Verif.Json.GrisuValue
import Verif.Json.GrisuText
import Verif.Json.Strtod
import Verif.Json.StrtodProps
import Verif.Json.StrtodMain
import Verif.Json.StrtodError
import Verif.Strings.HumanTime
import Verif.Sync.TerminateSignal
import Verif.Strings.Printf
import Verif.Json.StrtodSmall
import Verif.Util.Random
import Verif.Util.Hash
import Verif.Util.Singleton
import Verif.Util.Lazy
