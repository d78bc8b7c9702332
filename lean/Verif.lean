import Verif.Base.Bytes
import Verif.Memory.SsizeTheorems
import Verif.Memory.QueueTheorems
import Verif.Bits.CodecTheorems
import Verif.Fmap.QueryTheorems
import Verif.Fmap.UpdateTheorems
import Verif.Fmap.IndexTheorems
import Verif.Fmap.SingleTheorems
import Verif.Fmap.LoadTheorems
import Verif.Disk.LogTheorems
import Verif.Disk.SmoothSpec
import Verif.Disk.FullLemmas
import Verif.Server.CrashTheorems
import Verif.Lists.StructListTheorems
import Verif.Lists.PointerListTheorems
import Verif.Lists.SortListTheorems
import Verif.Lists.FsortListTheorems
import Verif.Lists.NodeListTheorems
import Verif.Dict.DictTheorems
import Verif.Dict.MapListTheorems
import Verif.Net.WsTheorems
import Verif.Server.AccessTheorems
import Verif.Server.SubTheorems
import Verif.Strs.JsonTheorems
import Verif.Net.MsgTheorems
import Verif.Net.QueueBytes
import Verif.Net.SessionTheorems
import Verif.Sync.LockQueueTheorems
import Verif.Sync.FastQueueTheorems
import Verif.Sync.WaitQueueTheorems
import Verif.Sync.LockListTheorems
import Verif.Sync.RefsTheorems
import Verif.Sync.RwMutexTheorems
import Verif.Time.CalendarTheorems
import Verif.Dyn.ConvTheorems
import Verif.Zip.ZipTheorems
import Verif.Zip.StepTheorems
import Verif.Sdb.IndexTheorems
import Verif.Sdb.Writer
import Verif.Sdb.ValueTheorems
import Verif.Sdb.RowTheorems
import Verif.Sdb.MarkTheorems
import Verif.Sdb.RangeTheorems
import Verif.Sdb.TabTheorems
import Verif.Sdb.MergeTheorems
import Verif.Sno.Sno
import Verif.Sno.SnoSpec
import Verif.Sno.PageLemmas
import Verif.Sno.IndexLemmas
import Verif.Sno.FileLemmas
import Verif.Sno.StateLemmas
import Verif.Sno.StepLemmas
import Verif.Sno.PutLemmas
import Verif.Sno.SessionLemmas
import Verif.Sno.ReadLemmas
import Verif.Sno.SnoTheorems
import Verif.Rec.Rec
import Verif.Rec.RecSpec
import Verif.Rec.RecLemmas
import Verif.Rec.ReadLemmas
import Verif.Rec.RowLemmas
import Verif.Rec.PickLemmas
import Verif.Rec.RecTheorems
import Verif.Csv.Csv
import Verif.Csv.CsvSpec
import Verif.Csv.ReadLemmas
import Verif.Csv.MakeLemmas
import Verif.Csv.CsvTheorems
import Verif.Io.Io
import Verif.Io.IoSpec
import Verif.Io.TableLemmas
import Verif.Io.AskLemmas
import Verif.Io.RowLemmas
import Verif.Io.StepLemmas
import Verif.Io.AloneLemmas
import Verif.Io.IoTheorems
import Verif.Io.FormatLemmas
import Verif.Io.FormatTheorems
import Verif.Io.Save
import Verif.Io.SaveSpec
import Verif.Io.SaveTheorems
import Verif.Io.SaveCal
import Verif.Io.SaveRead
import Verif.Io.SaveBack
import Verif.Io.SaveKept
import Verif.Io.SaveWrite
import Verif.Io.SaveAsk
import Verif.Io.SaveProg
import Verif.Zip.OneLemmas
import Verif.Sic.Sic
import Verif.Sic.SicSpec
import Verif.Sic.PlayLemmas
import Verif.Sic.StateLemmas
import Verif.Sic.CallLemmas
import Verif.Sic.PutLemmas
import Verif.Sic.SessionLemmas
import Verif.Sic.ReadLemmas
import Verif.Sic.SicTheorems
import Verif.Sdb.DefinedSpec
import Verif.Sdb.Defined
import Verif.Sdb.DefinedTheorems
import Verif.Conf.ConfTheorems
import Verif.Live.LiveTheorems
import Verif.Flog.FlogTheorems
import Verif.Mem.MemdbTheorems
import Verif.Client.Client
import Verif.Client.ClientSpec
import Verif.Client.ClientLemmas
import Verif.Client.ClientTheorems
import Verif.Net.Sha
import Verif.Net.ShaSpec
import Verif.Net.ShaLemmas
import Verif.Net.ShaTheorems
import Verif.Net.Hand
import Verif.Net.HandSpec
import Verif.Net.HandLemmas
import Verif.Net.HandTheorems
import Verif.Snodb.Snodb
import Verif.Snodb.SnodbSpec
import Verif.Snodb.SnodbLemmas
import Verif.Snodb.SnodbServe
import Verif.Snodb.SnodbDay
import Verif.Snodb.SnodbMore
import Verif.Snodb.SnodbTheorems
import Verif.Snodb.Wlog
import Verif.Snodb.WlogSpec
import Verif.Snodb.WlogLemmas
import Verif.Snodb.WlogDay
import Verif.Snodb.WlogTheorems
import Verif.Snodb.Wsno
import Verif.Snodb.WsnoSpec
import Verif.Snodb.WsnoLemmas
import Verif.Snodb.WsnoZip
import Verif.Snodb.WsnoRun
import Verif.Snodb.WsnoDay
import Verif.Snodb.WsnoTheorems
import Verif.Sync.Tasks
import Verif.Sync.TasksSpec
import Verif.Sync.TasksLemmas
import Verif.Sync.TasksTheorems
import Verif.Sync.MulWorker
import Verif.Sync.MulWorkerSpec
import Verif.Sync.MulWorkerLemmas
import Verif.Sync.MulWorkerTheorems
import Verif.Merge.MergeTheorems
import Verif.Merge.PlayTheorems
import Verif.Dict.ScanTheorems
import Verif.Lists.LinkListTheorems
import Verif.Strs.ArgsTheorems
import Verif.Strs.SdsTheorems
import Verif.Strs.SdsFmtTheorems
import Verif.Strs.SplitTheorems
import Verif.Strs.SdsCmpTheorems
