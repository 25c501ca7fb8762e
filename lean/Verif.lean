import Verif.Atomic.Model
import Verif.Atomic.Props
import Verif.Attach.Demo
import Verif.Attach.Lemmas
import Verif.Attach.Model
import Verif.Attach.Props
import Verif.Attach.Spec
import Verif.Calendar.Iso
import Verif.Calendar.Model
import Verif.Calendar.Props
import Verif.Calendar.Spec
import Verif.Compare.Lemmas
import Verif.Compare.Model
import Verif.Compare.Props
import Verif.Compare.Spec
import Verif.Csv.Demo
import Verif.Csv.Model
import Verif.Csv.Parse
import Verif.Csv.Props
import Verif.Csv.Read
import Verif.Csv.Spec
import Verif.Csv.Text
import Verif.Dump.Concurrent
import Verif.Dump.Crc
import Verif.Dump.CrcLemmas
import Verif.Dump.Lemmas
import Verif.Dump.Model
import Verif.Dump.Props
import Verif.Encoding.Lemmas
import Verif.Encoding.Model
import Verif.Encoding.Props
import Verif.Ext.Back
import Verif.Ext.Delete
import Verif.Ext.Model
import Verif.Ext.Props
import Verif.Ext.Spec
import Verif.Fixlen.Model
import Verif.Fixlen.Props
import Verif.GintHash.Model
import Verif.GintHash.Props
import Verif.HashIndex.Counter
import Verif.HashIndex.Inj
import Verif.HashIndex.Lemmas
import Verif.HashIndex.Model
import Verif.HashIndex.Props
import Verif.HashIndex.Spec
import Verif.IndexCat.Counter
import Verif.IndexCat.Hist
import Verif.IndexCat.Inv
import Verif.IndexCat.Model
import Verif.IndexCat.Props
import Verif.IndexCat.Sort
import Verif.IndexCat.Spec
import Verif.IndexCat.Step
import Verif.IndexCat.Tmpl
import Verif.IndexMaint.Counter
import Verif.IndexMaint.Create
import Verif.IndexMaint.Hist
import Verif.IndexMaint.Loops
import Verif.IndexMaint.Model
import Verif.IndexMaint.Move
import Verif.IndexMaint.Props
import Verif.IndexMaint.Reader
import Verif.IndexMaint.Spec
import Verif.IndexMaint.Step
import Verif.IndexMaint.Step2
import Verif.IndexMaint.Step3
import Verif.IndexMaint.Tree
import Verif.IndexMaint.Visit
import Verif.JFile.Demo
import Verif.JFile.Lemmas
import Verif.JFile.Model
import Verif.JFile.Props
import Verif.JFile.Rotate
import Verif.JFile.Spec
import Verif.Journal.Lemmas
import Verif.Journal.Model
import Verif.Journal.Props
import Verif.Journal.Replay
import Verif.Journal.ReplayProps
import Verif.Json.Build
import Verif.Json.Count
import Verif.Json.Demo
import Verif.Json.Grow
import Verif.Json.Loose
import Verif.Json.Model
import Verif.Json.Parse
import Verif.Json.Props
import Verif.Json.Safe
import Verif.Json.Spec
import Verif.Json.Top
import Verif.JsonQuery.Demo
import Verif.JsonQuery.Exact
import Verif.JsonQuery.Index
import Verif.JsonQuery.Lemmas
import Verif.JsonQuery.Model
import Verif.JsonQuery.Props
import Verif.JsonQuery.Spec
import Verif.Locks.Common
import Verif.Locks.Rpspin
import Verif.Locks.Tfqueue
import Verif.Locks.TfqueueLemmas
import Verif.Locks.TfqueueProps
import Verif.Locks.Wpspin
import Verif.MPool.Model
import Verif.MPool.Props
import Verif.Mem.Model
import Verif.Mem.Props
import Verif.Param.Alike
import Verif.Param.Demo
import Verif.Param.Encode
import Verif.Param.Lemmas
import Verif.Param.Long
import Verif.Param.Mem
import Verif.Param.Model
import Verif.Param.Props
import Verif.Param.Spec
import Verif.Print.Lemmas
import Verif.Print.Model
import Verif.Print.Props
import Verif.Print.Spec
import Verif.Query.Choose
import Verif.Query.Fetch
import Verif.Query.Find
import Verif.Query.Model
import Verif.Query.Plain
import Verif.Query.Props
import Verif.Query.Spec
import Verif.Query.Typed
import Verif.Reason.Back
import Verif.Reason.Bind
import Verif.Reason.Built
import Verif.Reason.BuiltCl
import Verif.Reason.Clause
import Verif.Reason.Complete
import Verif.Reason.Demo
import Verif.Reason.Eval
import Verif.Reason.Flat
import Verif.Reason.Fwd
import Verif.Reason.Halt
import Verif.Reason.Horn
import Verif.Reason.HornDemo
import Verif.Reason.HornSpec
import Verif.Reason.Keep
import Verif.Reason.Match
import Verif.Reason.Model
import Verif.Reason.Props
import Verif.Reason.ResDemo
import Verif.Reason.ResProps
import Verif.Reason.ResSpec
import Verif.Reason.Resolve
import Verif.Reason.Resolvent
import Verif.Reason.Safe
import Verif.Reason.SafeRun
import Verif.Reason.Satur
import Verif.Reason.Sound
import Verif.Reason.Spec
import Verif.Reason.SubSpec
import Verif.Reason.Subsume
import Verif.Reason.Unify
import Verif.Records.Back
import Verif.Records.Chain
import Verif.Records.Demo
import Verif.Records.Hist
import Verif.Records.Lemmas
import Verif.Records.Model
import Verif.Records.Ops
import Verif.Records.Ops2
import Verif.Records.Ops3
import Verif.Records.Props
import Verif.Records.Recs
import Verif.Records.Spec
import Verif.Records.Strs
import Verif.Records.Strs2
import Verif.Records.Strs3
import Verif.Records.Strs4
import Verif.Records.Strs5
import Verif.Records.Strs6
import Verif.Records.Zero
import Verif.ResultSet.DHash
import Verif.ResultSet.Model
import Verif.ResultSet.Props
import Verif.Schema.Lemmas
import Verif.Schema.Model
import Verif.Schema.Props
import Verif.Schema.Spec
import Verif.Segment.Demo
import Verif.Segment.Inv
import Verif.Segment.Model
import Verif.Segment.Ops
import Verif.Segment.Props
import Verif.Segment.Spec
import Verif.Serve.Auth
import Verif.Serve.AuthDemo
import Verif.Serve.AuthProps
import Verif.Serve.AuthSpec
import Verif.Serve.Cond
import Verif.Serve.CondDemo
import Verif.Serve.CondProps
import Verif.Serve.CondSpec
import Verif.Serve.Conf
import Verif.Serve.ConfAuth
import Verif.Serve.ConfDemo
import Verif.Serve.ConfProps
import Verif.Serve.ConfSpec
import Verif.Serve.CsvProps
import Verif.Serve.Http
import Verif.Serve.HttpDemo
import Verif.Serve.HttpProps
import Verif.Serve.HttpSpec
import Verif.Serve.JsonNested
import Verif.Serve.JsonProps
import Verif.Serve.JsonSpec
import Verif.Serve.Main
import Verif.Serve.MainProps
import Verif.Serve.Out
import Verif.Serve.OutDemo
import Verif.Serve.OutNested
import Verif.Serve.OutProps
import Verif.Serve.OutSpec
import Verif.Serve.Pool
import Verif.Serve.PoolDemo
import Verif.Serve.PoolProps
import Verif.Serve.PoolWake
import Verif.Serve.Search
import Verif.Serve.SearchDelete
import Verif.Serve.SearchDemo
import Verif.Serve.SearchProps
import Verif.Serve.SearchSpec
import Verif.Serve.Url
import Verif.Serve.UrlDemo
import Verif.Serve.UrlProps
import Verif.Serve.UrlSpec
import Verif.Serve.Wire
import Verif.Serve.WireDemo
import Verif.Serve.WireProps
import Verif.TTree.Add
import Verif.TTree.Balance
import Verif.TTree.Bounds
import Verif.TTree.Chain
import Verif.TTree.Index
import Verif.TTree.Insert
import Verif.TTree.InsertCases
import Verif.TTree.Lookup
import Verif.TTree.Model
import Verif.TTree.Props
import Verif.TTree.Remove
import Verif.TTree.RemoveRow
import Verif.TTree.Rep
import Verif.TTree.Retrace
import Verif.TTree.Rotate
import Verif.TTree.RotateCases
import Verif.TTree.Search
import Verif.TTree.Spec
import Verif.Varlen.AllocOp
import Verif.Varlen.Extend
import Verif.Varlen.FreeOp
import Verif.Varlen.Inv
import Verif.Varlen.Lists
import Verif.Varlen.Model
import Verif.Varlen.Props
import Verif.Varlen.Spec
import Verif.Varlen.Steps
import Verif.Varlen.Walk
import Verif.Yajl.Accept
import Verif.Yajl.Api
import Verif.Yajl.Decode
import Verif.Yajl.Demo
import Verif.Yajl.Ext
import Verif.Yajl.Glue
import Verif.Yajl.Lex
import Verif.Yajl.Model
import Verif.Yajl.Print
import Verif.Yajl.Props
import Verif.Yajl.Pure
import Verif.Yajl.Sound
import Verif.Yajl.Spec
import Verif.Yajl.Stream
import Verif.Yajl.Tok
import Verif.Yajl.Whole
import Verif.Audit
