import Verif.Varbyte.Props
import Verif.SetOps.Props
import Verif.Importer.Props
import Verif.Address.Props
import Verif.Data.Props
import Verif.Expr.Props
import Verif.Expr.StoreProps
import Verif.Synopsis.Props
import Verif.MetaIndex.Props
import Verif.Bitmap.EwahProps
import Verif.Bitmap.AlgebraProps
import Verif.Bitmap.SearchProps
import Verif.Bitmap.OtherProps
import Verif.Index.Base
import Verif.Index.CoderProps
import Verif.Index.ArithmeticProps
import Verif.Index.ValueProps
import Verif.Index.EnumerationProps
import Verif.Index.TextProps
import Verif.Index.NetProps
import Verif.Index.ListProps
import Verif.Index.HashProps
import Verif.RangeMap.Props
import Verif.Slice.Props
import Verif.Cache.Props
import Verif.Archive.SessionProps
import Verif.Save.Props
import Verif.Base64.Props
import Verif.Escape.Props
import Verif.Escape.SplitProps
import Verif.Msgpack.Model
import Verif.Msgpack.Lemmas
import Verif.Msgpack.Spec
import Verif.Msgpack.ContLemmas
import Verif.Msgpack.PutLemmas
import Verif.Msgpack.Props
import Verif.Types.Model
import Verif.Types.Spec
import Verif.Types.Lemmas
import Verif.Types.EachLemmas
import Verif.Types.Props
import Verif.Types.LookupSpec
import Verif.Types.LookupProps
import Verif.Types.RemoveProps
import Verif.Types.Merge
import Verif.Types.MergeSpec
import Verif.Types.MergeLemmas
import Verif.Types.MergeProps
import Verif.Record.Model
import Verif.Record.Spec
import Verif.Record.Lemmas
import Verif.Record.MakeLemmas
import Verif.Record.Props
import Verif.Schema.Model
import Verif.Schema.Props
import Verif.Transform.Model
import Verif.Transform.Props
import Verif.Taxonomy.Model
import Verif.Taxonomy.Spec
import Verif.Taxonomy.Lemmas
import Verif.Taxonomy.Props
import Verif.Evaluator.Model
import Verif.Evaluator.Props
import Verif.Supervisor.Model
import Verif.Supervisor.Props
import Verif.Scheduler.Model
import Verif.Scheduler.Props
import Verif.Ingest.Model
import Verif.Ingest.Props
import Verif.Exporter.Model
import Verif.Exporter.Ship
import Verif.Exporter.System
import Verif.Exporter.Finish
import Verif.ArchiveActor.Model
import Verif.ArchiveActor.Props
import Verif.DiskMonitor.Model
import Verif.DiskMonitor.Props
import Verif.LocalStore.Model
import Verif.LocalStore.Spec
import Verif.LocalStore.Lemmas
import Verif.LocalStore.Props
import Verif.Recovery.Model
import Verif.Recovery.Spec
import Verif.Recovery.Lemmas
import Verif.Recovery.Inv
import Verif.Recovery.Count
import Verif.Recovery.Books
import Verif.Recovery.Props
import Verif.MsgpackSlice.Model
import Verif.MsgpackSlice.Spec
import Verif.MsgpackSlice.Lemmas
import Verif.MsgpackSlice.Rows
import Verif.MsgpackSlice.Props
import Verif.DataText.Props
import Verif.DataText.LiteralProps
import Verif.Reader.Lines
import Verif.Reader.LineSpec
import Verif.Reader.LineLemmas
import Verif.Reader.LineProps
import Verif.Reader.Model
import Verif.Reader.Spec
import Verif.Reader.Lemmas
import Verif.Reader.Loop
import Verif.Reader.Props
import Verif.Reader.Source
import Verif.Reader.SourceLemmas
import Verif.Reader.SourceProps
import Verif.Reader.Datagram
import Verif.Reader.DatagramProps
import Verif.Reader.Csv
import Verif.Reader.CsvProps
import Verif.Sha1.Model
import Verif.Sha1.Spec
import Verif.Sha1.Lemmas
import Verif.Sha1.Props
import Verif.CommunityId.Model
import Verif.CommunityId.Spec
import Verif.CommunityId.Lemmas
import Verif.CommunityId.Props
import Verif.Pcap.Model
import Verif.Pcap.Spec
import Verif.Pcap.Props
import Verif.Pcap.FlowProps
import Verif.QueryText.Model
import Verif.QueryText.Spec
import Verif.QueryText.Lemmas
import Verif.QueryText.Props
import Verif.Sigma.Model
import Verif.Sigma.Spec
import Verif.Sigma.Lemmas
import Verif.Sigma.Props
import Verif.Calendar.Model
import Verif.Calendar.Spec
import Verif.Calendar.Lemmas
import Verif.Calendar.Double
import Verif.Calendar.DoubleLemmas
import Verif.Calendar.Text
import Verif.Calendar.TextSpec
import Verif.Calendar.TextLemmas
import Verif.Calendar.Props
import Verif.Number.Model
import Verif.Number.Spec
import Verif.Number.Lemmas
import Verif.Number.Reading
import Verif.Number.Props
import Verif.Number.DurationLemmas
import Verif.Number.DurationProps
import Verif.Json.Grammar
import Verif.Json.Parse
import Verif.Json.ParseLemmas
import Verif.Json.Model
import Verif.Json.Spec
import Verif.Json.WriteLemmas
import Verif.Json.NumLemmas
import Verif.Json.DocLemmas
import Verif.Json.WriteProps
import Verif.Json.ReadSpec
import Verif.Json.ReadLemmas
import Verif.Json.ReadProps
import Verif.Json.RoundLemmas
import Verif.Json.RoundProps
import Verif.Json.SelectProps
import Verif.Explorer.Spec
import Verif.Explorer.Model
import Verif.Explorer.Lemmas
import Verif.Explorer.ForwardProps
import Verif.Explorer.QueryProps
import Verif.Explorer.LifeProps
import Verif.Sink.Model
import Verif.Sink.Props
import Verif.Zeek.Model
import Verif.Zeek.Spec
import Verif.Zeek.TypeProps
import Verif.Zeek.Round
import Verif.Zeek.Cells
import Verif.Zeek.Reading
import Verif.Zeek.ReadProps
import Verif.Zeek.Writing
import Verif.Zeek.WriteProps
import Verif.Json.NumberProps
import Verif.SchemaText.Model
import Verif.SchemaText.Spec
import Verif.SchemaText.Props
import Verif.SchemaText.LoadProps
import Verif.SchemaText.Text
import Verif.SchemaText.TextSpec
import Verif.SchemaText.TextReads
import Verif.SchemaText.TextEnds
import Verif.SchemaText.TextProps
import Verif.SchemaText.Print
import Verif.SchemaText.PrintProps
import Verif.ArrowSlice.Model
import Verif.ArrowSlice.Spec
import Verif.ArrowSlice.Lemmas
import Verif.ArrowSlice.Rows
import Verif.ArrowSlice.Props
import Verif.Partition.Model
import Verif.Partition.Spec
import Verif.Partition.Lemmas
import Verif.Partition.Answer
import Verif.Partition.Props
import Verif.Partition.Query
import Verif.Partition.QueryProps
import Verif.Partition.Indexes
import Verif.Partition.IndexProps
import Verif.Partition.EraseProps
import Verif.Processor.Model
import Verif.Processor.Spec
import Verif.Processor.Lemmas
import Verif.Processor.Props
import Verif.Processor.EraserProps
import Verif.Csv.Model
import Verif.Csv.Spec
import Verif.Csv.Lemmas
import Verif.Csv.Props
import Verif.Shutdown.Model
import Verif.Shutdown.Spec
import Verif.Shutdown.Lemmas
import Verif.Shutdown.NodeLemmas
import Verif.Shutdown.Props
import Verif.Config.Model
import Verif.Config.Spec
import Verif.Config.Lemmas
import Verif.Config.FileLemmas
import Verif.Config.CliLemmas
import Verif.Config.Props
import Verif.Plugins.Model
import Verif.Plugins.Spec
import Verif.Plugins.Lemmas
import Verif.Plugins.Props
import Verif.Pivot.Spec
import Verif.Pivot.Model
import Verif.Pivot.Lemmas
import Verif.Pivot.RunLemmas
import Verif.Pivot.Props
import Verif.Pivot.LifeProps
import Verif.Registry.LoadSpec
import Verif.Registry.LoadModel
import Verif.Registry.LoadLemmas
import Verif.Registry.LoadProps
import Verif.Registry.TypesSpec
import Verif.Registry.TypesModel
import Verif.Registry.TypesLemmas
import Verif.Registry.TypesProps
import Verif.NodeStart.PidModel
import Verif.NodeStart.PidSpec
import Verif.NodeStart.PidLemmas
import Verif.NodeStart.PidProps
import Verif.NodeStart.VersionModel
import Verif.NodeStart.VersionProps
import Verif.Node.Model
import Verif.Node.Spec
import Verif.Node.Lemmas
import Verif.Node.DownLemmas
import Verif.Node.Props
import Verif.TransformConfig.Model
import Verif.TransformConfig.Spec
import Verif.TransformConfig.Lemmas
import Verif.TransformConfig.Props
import Verif.Blocking.Model
import Verif.Blocking.Lemmas
import Verif.Blocking.Own
import Verif.Blocking.Starve
import Verif.Blocking.Spec
import Verif.Blocking.End
import Verif.Blocking.Props
import Verif.SynopsisStore.Model
import Verif.SynopsisStore.Text
import Verif.SynopsisStore.Spec
import Verif.SynopsisStore.Lemmas
import Verif.SynopsisStore.Found
import Verif.SynopsisStore.Props
import Verif.Syslog.Model
import Verif.Syslog.Spec
import Verif.Syslog.Lemmas
import Verif.Syslog.Back
import Verif.Syslog.Props
import Verif.Uuid.Model
import Verif.Uuid.Spec
import Verif.Uuid.Lemmas
import Verif.Uuid.Props
import Verif.Accountant.Model
import Verif.Accountant.Spec
import Verif.Accountant.Lemmas
import Verif.Accountant.Sinks
import Verif.Accountant.Props
import Verif.Client.Model
import Verif.Client.Spec
import Verif.Client.Lemmas
import Verif.Client.Props
import Verif.Infer.Model
import Verif.Infer.Spec
import Verif.Infer.Texts
import Verif.Infer.Lemmas
import Verif.Infer.Found
import Verif.Infer.Props
import Verif.Broker.Model
import Verif.Broker.Spec
import Verif.Broker.Numbers
import Verif.Broker.Values
import Verif.Broker.Types
import Verif.Broker.Stream
import Verif.Broker.Ext
import Verif.Broker.Props
import Verif.Chunk.Model
import Verif.Chunk.Spec
import Verif.Chunk.Lemmas
import Verif.Chunk.Steps
import Verif.Chunk.Life
import Verif.Chunk.Props
import Verif.TestGen.Model
import Verif.TestGen.Spec
import Verif.TestGen.Lemmas
import Verif.TestGen.Runs
import Verif.TestGen.Props
import Verif.Options.Model
import Verif.Options.Spec
import Verif.Options.Lemmas
import Verif.Options.Props
import Verif.ArrowWriter.Model
import Verif.ArrowWriter.Spec
import Verif.ArrowWriter.Props
import Verif.VectorMap.Model
import Verif.VectorMap.Spec
import Verif.VectorMap.Lemmas
import Verif.VectorMap.Props
import Verif.Output.Model
import Verif.Output.Props
import Verif.Signals.Model
import Verif.Signals.Spec
import Verif.Signals.Props
import Verif.Crc.Model
import Verif.Crc.Spec
import Verif.Crc.Props
import Verif.Project.Model
import Verif.Project.Spec
import Verif.Project.Props
import Verif.Arith.Model
import Verif.Arith.Props
import Verif.TestGen.Exact
import Verif.DataText.LongProps
import Verif.Select.Model
import Verif.Select.Spec
import Verif.Select.Props
import Verif.Dir.Model
import Verif.Dir.Spec
import Verif.Dir.Props
import Verif.Uri.Model
import Verif.Uri.Spec
import Verif.Uri.Lemmas
import Verif.Uri.Props
import Verif.QueryText.Only
import Verif.Sigma.Only
import Verif.SchemaText.WideSpec
import Verif.SchemaText.Only
import Verif.SynopsisStore.ParamsSpec
import Verif.SynopsisStore.Params
import Verif.Uri.TextSpec
import Verif.Uri.Only
import Verif.Http.Model
import Verif.Http.Spec
import Verif.Http.UriText
import Verif.Http.Lemmas
import Verif.Http.Props
import Verif.Arena.Model
import Verif.Arena.Spec
import Verif.Arena.Props
import Verif.HashAppend.Model
import Verif.HashAppend.Spec
import Verif.HashAppend.Lemmas
import Verif.HashAppend.Props
import Verif.Bitmap.FlipLoop
import Verif.Syslog.Offset
import Verif.ZeekFiles.Model
import Verif.ZeekFiles.Spec
import Verif.ZeekFiles.Props
import Verif.Combinator.Model
import Verif.Combinator.Spec
import Verif.Combinator.Lemmas
import Verif.Combinator.Sound
import Verif.Combinator.Total
import Verif.Combinator.Props
import Verif.Combinator.TextModel
import Verif.Combinator.TextSpec
import Verif.Combinator.TextLemmas
import Verif.Combinator.TextSound
import Verif.Combinator.TextProps
import Verif.Grammar.Model
import Verif.Grammar.Spec
import Verif.Grammar.Lemmas
import Verif.Grammar.Total
import Verif.Grammar.Props
import Verif.Printer.Model
import Verif.Printer.Spec
import Verif.Printer.Lemmas
import Verif.Printer.Props
import Verif.Commands.Model
import Verif.Commands.Spec
import Verif.Commands.Lemmas
import Verif.Commands.Props
import Verif.Digest.Model
import Verif.Digest.Spec
import Verif.Digest.Lemmas
import Verif.Digest.Props
import Verif.Notify.Model
import Verif.Notify.Spec
import Verif.Notify.Lemmas
import Verif.Notify.Props
import Verif.Logging.Model
import Verif.Logging.Spec
import Verif.Logging.Lemmas
import Verif.Logging.Props
