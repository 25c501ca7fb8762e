import Verif.Atomic.Model
import Verif.Atomic.Props
import Verif.Attach.Demo
import Verif.Attach.Lemmas
import Verif.Attach.Model
import Verif.Attach.Props
import Verif.Attach.Spec
import Verif.Calendar.Iso
import Verif.Calendar.Model
import Verif.Calendar.Props
import Verif.Calendar.Spec
import Verif.Compare.Lemmas
import Verif.Compare.Model
import Verif.Compare.Props
import Verif.Compare.Spec
import Verif.Csv.Demo
import Verif.Csv.Model
import Verif.Csv.Parse
import Verif.Csv.Props
import Verif.Csv.Read
import Verif.Csv.Spec
import Verif.Csv.Text
import Verif.Dump.Concurrent
import Verif.Dump.Crc
import Verif.Dump.CrcLemmas
import Verif.Dump.Lemmas
import Verif.Dump.Model
import Verif.Dump.Props
import Verif.Encoding.Lemmas
import Verif.Encoding.Model
import Verif.Encoding.Props
import Verif.Ext.Back
import Verif.Ext.Delete
import Verif.Ext.Model
import Verif.Ext.Props
import Verif.Ext.Spec
import Verif.Fixlen.Model
import Verif.Fixlen.Props
import Verif.GintHash.Model
import Verif.GintHash.Props
import Verif.HashIndex.Counter
import Verif.HashIndex.Inj
import Verif.HashIndex.Lemmas
import Verif.HashIndex.Model
import Verif.HashIndex.Props
import Verif.HashIndex.Spec
import Verif.IndexCat.Counter
import Verif.IndexCat.Hist
import Verif.IndexCat.Inv
import Verif.IndexCat.Model
import Verif.IndexCat.Props
import Verif.IndexCat.Sort
import Verif.IndexCat.Spec
import Verif.IndexCat.Step
import Verif.IndexCat.Tmpl
import Verif.IndexMaint.Counter
import Verif.IndexMaint.Create
import Verif.IndexMaint.Hist
import Verif.IndexMaint.Loops
import Verif.IndexMaint.Model
import Verif.IndexMaint.Move
import Verif.IndexMaint.Props
import Verif.IndexMaint.Reader
import Verif.IndexMaint.Spec
import Verif.IndexMaint.Step
import Verif.IndexMaint.Step2
import Verif.IndexMaint.Step3
import Verif.IndexMaint.Tree
import Verif.IndexMaint.Visit
import Verif.JFile.Demo
import Verif.JFile.Lemmas
import Verif.JFile.Model
import Verif.JFile.Props
import Verif.JFile.Rotate
import Verif.JFile.Spec
import Verif.Journal.Lemmas
import Verif.Journal.Model
import Verif.Journal.Props
import Verif.Journal.Replay
import Verif.Journal.ReplayProps
import Verif.Json.Build
import Verif.Json.Count
import Verif.Json.Demo
import Verif.Json.Grow
import Verif.Json.Loose
import Verif.Json.Model
import Verif.Json.Parse
import Verif.Json.Props
import Verif.Json.Safe
import Verif.Json.Spec
import Verif.Json.Top
import Verif.JsonQuery.Demo
import Verif.JsonQuery.Exact
import Verif.JsonQuery.Index
import Verif.JsonQuery.Lemmas
import Verif.JsonQuery.Model
import Verif.JsonQuery.Props
import Verif.JsonQuery.Spec
import Verif.Locks.Common
import Verif.Locks.Rpspin
import Verif.Locks.Tfqueue
import Verif.Locks.TfqueueLemmas
import Verif.Locks.TfqueueProps
import Verif.Locks.Wpspin
import Verif.MPool.Model
import Verif.MPool.Props
import Verif.Mem.Model
import Verif.Mem.Props
import Verif.Param.Alike
import Verif.Param.Demo
import Verif.Param.Encode
import Verif.Param.Lemmas
import Verif.Param.Long
import Verif.Param.Mem
import Verif.Param.Model
import Verif.Param.Props
import Verif.Param.Spec
import Verif.Print.Lemmas
import Verif.Print.Model
import Verif.Print.Props
import Verif.Print.Spec
import Verif.Query.Choose
import Verif.Query.Fetch
import Verif.Query.Find
import Verif.Query.Model
import Verif.Query.Plain
import Verif.Query.Props
import Verif.Query.Spec
import Verif.Query.Typed
import Verif.Reason.Back
import Verif.Reason.Bind
import Verif.Reason.Built
import Verif.Reason.BuiltCl
import Verif.Reason.Clause
import Verif.Reason.Complete
import Verif.Reason.Demo
import Verif.Reason.Eval
import Verif.Reason.Flat
import Verif.Reason.Fwd
import Verif.Reason.Halt
import Verif.Reason.Horn
import Verif.Reason.HornDemo
import Verif.Reason.HornSpec
import Verif.Reason.Keep
import Verif.Reason.Match
import Verif.Reason.Model
import Verif.Reason.Props
import Verif.Reason.ResDemo
import Verif.Reason.ResProps
import Verif.Reason.ResSpec
import Verif.Reason.Resolve
import Verif.Reason.Resolvent
import Verif.Reason.Safe
import Verif.Reason.SafeRun
import Verif.Reason.Satur
import Verif.Reason.Sound
import Verif.Reason.Spec
import Verif.Reason.SubSpec
import Verif.Reason.Subsume
import Verif.Reason.Unify
import Verif.Records.Back
import Verif.Records.Chain
import Verif.Records.Demo
import Verif.Records.Hist
import Verif.Records.Lemmas
import Verif.Records.Model
import Verif.Records.Ops
import Verif.Records.Ops2
import Verif.Records.Ops3
import Verif.Records.Props
import Verif.Records.Recs
import Verif.Records.Spec
import Verif.Records.Strs
import Verif.Records.Strs2
import Verif.Records.Strs3
import Verif.Records.Strs4
import Verif.Records.Strs5
import Verif.Records.Strs6
import Verif.Records.Zero
import Verif.ResultSet.DHash
import Verif.ResultSet.Model
import Verif.ResultSet.Props
import Verif.Schema.Lemmas
import Verif.Schema.Model
import Verif.Schema.Props
import Verif.Schema.Spec
import Verif.Segment.Demo
import Verif.Segment.Inv
import Verif.Segment.Model
import Verif.Segment.Ops
import Verif.Segment.Props
import Verif.Segment.Spec
import Verif.Serve.Auth
import Verif.Serve.AuthDemo
import Verif.Serve.AuthProps
import Verif.Serve.AuthSpec
import Verif.Serve.Cond
import Verif.Serve.CondDemo
import Verif.Serve.CondProps
import Verif.Serve.CondSpec
import Verif.Serve.Conf
import Verif.Serve.ConfAuth
import Verif.Serve.ConfDemo
import Verif.Serve.ConfProps
import Verif.Serve.ConfSpec
import Verif.Serve.CsvProps
import Verif.Serve.Http
import Verif.Serve.HttpDemo
import Verif.Serve.HttpProps
import Verif.Serve.HttpSpec
import Verif.Serve.JsonNested
import Verif.Serve.JsonProps
import Verif.Serve.JsonSpec
import Verif.Serve.Main
import Verif.Serve.MainProps
import Verif.Serve.Out
import Verif.Serve.OutDemo
import Verif.Serve.OutNested
import Verif.Serve.OutProps
import Verif.Serve.OutSpec
import Verif.Serve.Pool
import Verif.Serve.PoolDemo
import Verif.Serve.PoolProps
import Verif.Serve.PoolWake
import Verif.Serve.Search
import Verif.Serve.SearchDelete
import Verif.Serve.SearchDemo
import Verif.Serve.SearchProps
import Verif.Serve.SearchSpec
import Verif.Serve.Url
import Verif.Serve.UrlDemo
import Verif.Serve.UrlProps
import Verif.Serve.UrlSpec
import Verif.Serve.Wire
import Verif.Serve.WireDemo
import Verif.Serve.WireProps
import Verif.TTree.Add
import Verif.TTree.Balance
import Verif.TTree.Bounds
import Verif.TTree.Chain
import Verif.TTree.Index
import Verif.TTree.Insert
import Verif.TTree.InsertCases
import Verif.TTree.Lookup
import Verif.TTree.Model
import Verif.TTree.Props
import Verif.TTree.Remove
import Verif.TTree.RemoveRow
import Verif.TTree.Rep
import Verif.TTree.Retrace
import Verif.TTree.Rotate
import Verif.TTree.RotateCases
import Verif.TTree.Search
import Verif.TTree.Spec
import Verif.Varlen.AllocOp
import Verif.Varlen.Extend
import Verif.Varlen.FreeOp
import Verif.Varlen.Inv
import Verif.Varlen.Lists
import Verif.Varlen.Model
import Verif.Varlen.Props
import Verif.Varlen.Spec
import Verif.Varlen.Steps
import Verif.Varlen.Walk
import Verif.Yajl.Accept
import Verif.Yajl.Api
import Verif.Yajl.Decode
import Verif.Yajl.Demo
import Verif.Yajl.Ext
import Verif.Yajl.Glue
import Verif.Yajl.Lex
import Verif.Yajl.Model
import Verif.Yajl.Print
import Verif.Yajl.Props
import Verif.Yajl.Pure
import Verif.Yajl.Sound
import Verif.Yajl.Spec
import Verif.Yajl.Stream
import Verif.Yajl.Tok
import Verif.Yajl.Whole
/-! Prints the axioms every claimed theorem depends on (expected: propext, Classical.choice, Quot.sound). -/
#print axioms WG.C01_int_roundtrip
#print axioms WG.C01_int_success
#print axioms WG.C01_int_frame
#print axioms WG.C02_char_roundtrip
#print axioms WG.C02_date_roundtrip
#print axioms WG.C02_time_roundtrip
#print axioms WG.C02_fixpoint_roundtrip
#print axioms WG.C02_var_roundtrip
#print axioms WG.C02_anonconst_roundtrip
#print axioms WG.C02_double_roundtrip
#print axioms WG.C03_type_correct
#print axioms WG.C03_never_illegal
#print axioms WG.C03_injective
#print axioms WG.C03_null_unique
#print axioms WG.C04_calendar_roundtrip
#print axioms WG.C04_consecutive
#print axioms WG.C04_order
#print axioms WG.C04_inverse
#print axioms WG.C04_refused
#print axioms WG.C04_feb30_counterexample
#print axioms WG.C05_time_roundtrip
#print axioms WG.C05_time_order
#print axioms WG.C05_refused
#print axioms WG.C05_minute60_counterexample
#print axioms WG.C06_antisymm
#print axioms WG.C06_trans
#print axioms WG.C06_nan_counterexample
#print axioms WG.C07_equal_same_content
#print axioms WG.C07_types
#print axioms WG.C07_int
#print axioms WG.C07_date
#print axioms WG.C07_time
#print axioms WG.C07_fixpoint
#print axioms WG.C07_char
#print axioms WG.C07_double
#print axioms WG.C07_str
#print axioms WG.C07_blob
#print axioms WG.Varlen.C08_disjoint
#print axioms WG.Varlen.C08_inside
#print axioms WG.Varlen.C08_subareas
#print axioms WG.Varlen.C08_free
#print axioms WG.Varlen.C08_fresh
#print axioms WG.Varlen.C08_free_ok
#print axioms WG.Varlen.C08_fuel
#print axioms WG.Varlen.C09_alloc_frame
#print axioms WG.Varlen.C09_free_frame
#print axioms WG.Varlen.C09_size_partial
#print axioms WG.Varlen.C09_size_counterexample
#print axioms WG.Varlen.C10_coalesced
#print axioms WG.Varlen.C10_nothing_lost
#print axioms WG.Varlen.C10_reuse_partial
#print axioms WG.Varlen.C10_reuse_counterexample
#print axioms WG.Fixlen.C11_fresh
#print axioms WG.Fixlen.C11_disjoint
#print axioms WG.Fixlen.C11_not_free
#print axioms WG.Fixlen.C11_inside
#print axioms WG.Fixlen.C11_alloc_frame
#print axioms WG.Fixlen.C11_free_frame
#print axioms WG.Fixlen.C11_reuse
#print axioms WG.Fixlen.C11_nothing_lost
#print axioms WG.Fixlen.C12_disjoint
#print axioms WG.Fixlen.C12_freesize
#print axioms WG.Fixlen.C12_fail
#print axioms WG.Recs.C13_refines_partial
#print axioms WG.Recs.C13_last_write_partial
#print axioms WG.Recs.C13_frame_partial
#print axioms WG.Recs.C13_fresh_partial
#print axioms WG.Recs.C13_len_partial
#print axioms WG.Recs.C13_self_reference_counterexample
#print axioms WG.Recs.C14_set_refused
#print axioms WG.Recs.C14_set_new_refused
#print axioms WG.Recs.C14_get_illegal
#print axioms WG.Recs.C14_in_range
#print axioms WG.Atomic.C14_atomic_refused
#print axioms WG.Varlen.C15_raw
#print axioms WG.Varlen.C15_data
#print axioms WG.Varlen.C15_exactly_once
#print axioms WG.Varlen.C15_next
#print axioms WG.Recs.C16_delete_refused
#print axioms WG.Recs.C16_no_dangling
#print axioms WG.Recs.C17_parents_partial
#print axioms WG.Recs.C17_repeated_counterexample
#print axioms WG.Recs.C18_count
#print axioms WG.Recs.C18_never_freed_in_use
#print axioms WG.Recs.C18_released
#print axioms WG.Recs.C19_interning_partial
#print axioms WG.Recs.C19_unique_partial
#print axioms WG.Recs.C19_clash_counterexample
#print axioms WG.Recs.C20_str_round_trip
#print axioms WG.Recs.C20_blob_round_trip
#print axioms WG.Recs.C20_stable
#print axioms WG.Atomic.C21_no_lost_update_partial
#print axioms WG.Atomic.C21_sum_partial
#print axioms WG.Atomic.C21_refused
#print axioms WG.Atomic.C21_truncation_counterexample
#print axioms WG.TTree.C22_contents_in_order
#print axioms WG.TTree.C22_no_panic
#print axioms WG.TTree.C22_nodes
#print axioms WG.TTree.wgEnv_ord
#print axioms WG.TTree.segEnv_ord
#print axioms WG.TTree.C22_nomem_partial
#print axioms WG.TTree.C22_nomem_counterexample
#print axioms WG.TTree.C23_balanced
#print axioms WG.TTree.C23_height_bound
#print axioms WG.TTree.C24_lookup
#print axioms WG.TTree.C24_found_iff
#print axioms WG.TTree.C24_first_position
#print axioms WG.TTree.C24_last_position
#print axioms WG.Query.C25_query_partial
#print axioms WG.Query.C25_refused
#print axioms WG.Query.C25_gap_counterexample
#print axioms WG.Query.C25_illegal_counterexample
#print axioms WG.Recs.C25_after_history_partial
#print axioms WG.Query.C26_prefetch_partial
#print axioms WG.Query.C26_count_counterexample
#print axioms WG.Query.C27_find_record
#print axioms WG.Recs.C27_after_history_partial
#print axioms WG.Recs.C28_index_exact_partial
#print axioms WG.Recs.C28_calls_succeed_partial
#print axioms WG.Recs.C28_twice_counterexample
#print axioms WG.Recs.C28_set_new_counterexample
#print axioms WG.Recs.C28_template_counterexample
#print axioms WG.Recs.C28_raw_counterexample
#print axioms WG.HashIndex.C29_lookup
#print axioms WG.HashIndex.C29_rows
#print axioms WG.HashIndex.C29_once
#print axioms WG.HashIndex.C29_unhashable
#print axioms WG.HashIndex.C29_codes
#print axioms WG.HashIndex.C29_plain_keys
#print axioms WG.HashIndex.C29_build
#print axioms WG.HashIndex.C29_equal_partial
#print axioms WG.HashIndex.C29_same_key_partial
#print axioms WG.HashIndex.C29_exact_partial
#print axioms WG.HashIndex.C29_int_counterexample
#print axioms WG.HashIndex.C29_uri_counterexample
#print axioms WG.HashIndex.C29_zero_counterexample
#print axioms WG.HashIndex.C29_json_counterexample
#print axioms WG.GintHash.C30_lookup
#print axioms WG.GintHash.C30_map
#print axioms WG.GintHash.C30_terminates
#print axioms WG.GintHash.C30_after_failure_counterexample
#print axioms WG.ResultSet.C31_pages
#print axioms WG.ResultSet.C31_intersect
#print axioms WG.ResultSet.C31_intersect_fails
#print axioms WG.ResultSet.C31_unique
#print axioms WG.ResultSet.C31_unique_fails
#print axioms WG.C32_exclusive
#print axioms WG.C32_free_again
#print axioms WG.C32_readers_share
#print axioms WG.C33_exclusive
#print axioms WG.C33_writer_preference
#print axioms WG.C33_free_again
#print axioms WG.C34_exclusive_partial
#print axioms WG.C34_fifo_partial
#print axioms WG.C34_wakeup_partial
#print axioms WG.C34_no_deadlock_partial
#print axioms WG.C34_free_again_partial
#print axioms WG.C34_queue_mutex
#print axioms WG.C34_stale_wake_counterexample
#print axioms WG.C34_timeout_counterexample
#print axioms WG.C35_dump_import
#print axioms WG.C35_refused_import
#print axioms WG.C35_key_overwritten
#print axioms WG.C36_accepts_dump
#print axioms WG.C36_truncated
#print axioms WG.C36_extended
#print axioms WG.C36_burst
#print axioms WG.C36_single_byte
#print axioms WG.C37_snapshot_partial
#print axioms WG.C37_accepted_partial
#print axioms WG.C37_size_race_rejected
#print axioms WG.C37_size_race_counterexample
#print axioms WG.C37_lock_traffic_counterexample
#print axioms WG.C38_varint_roundtrip
#print axioms WG.C38_varint_size
#print axioms WG.C38_varint_torn
#print axioms WG.C39_parse_partial
#print axioms WG.C39_torn_partial
#print axioms WG.C39_bigint_counterexample
#print axioms WG.C39_bigint_truncated
#print axioms WG.C39_nested_counterexample
#print axioms WG.C40_replay_partial
#print axioms WG.C40_progress_partial
#print axioms WG.C40_reuse_counterexample
#print axioms WG.C40_failed_create_counterexample
#print axioms WG.MPool.C41_blocks_partial
#print axioms WG.MPool.C41_served
#print axioms WG.MPool.C41_overflow_counterexample
#print axioms WG.MPool.C42_pairs
#print axioms WG.MPool.C42_atoms_partial
#print axioms WG.MPool.C42_second_counterexample
#print axioms WG.MPool.C42_empty_second_counterexample
#print axioms WG.MPool.C42_type0_counterexample
#print axioms WG.IndexCat.C43_find_partial
#print axioms WG.IndexCat.C43_create
#print axioms WG.IndexCat.C43_distinct
#print axioms WG.IndexCat.C43_drop_partial
#print axioms WG.IndexCat.C43_type
#print axioms WG.IndexCat.C43_template
#print axioms WG.IndexCat.C43_chains
#print axioms WG.IndexCat.C43_all_partial
#print axioms WG.IndexCat.dbVt_ok
#print axioms WG.IndexCat.C43_all_counterexample
#print axioms WG.IndexCat.C43_failed_creation_counterexample
#print axioms WG.IndexCat.C43_drop_hash_counterexample
#print axioms WG.IndexCat.C43_refcount_counterexample
#print axioms WG.IndexCat.C43_negative_counterexample
#print axioms WG.IndexCat.C43_long_template_counterexample
#print axioms WG.IndexCat.C44_sorted
#print axioms WG.IndexCat.C44_refused
#print axioms WG.IndexCat.C44_create_order
#print axioms WG.IndexCat.C44_find_order
#print axioms WG.Recs.C45_failures_partial
#print axioms WG.Recs.C45_cell_counterexample
#print axioms WG.Recs.C45_index_failure_counterexample
#print axioms WG.Recs.C46_find_document
#print axioms WG.Recs.C46_mark_kept
#print axioms WG.Recs.C47_delete_document
#print axioms WG.Recs.C47_not_document
#print axioms WG.Recs.C47_shared_counterexample
#print axioms WG.C48_normalize_perms
#print axioms WG.C48_idempotent
#print axioms WG.C49_header_compat
#print axioms WG.Varlen.C50_list_sizes
#print axioms WG.Varlen.C50_index
#print axioms WG.Varlen.C50_ordered
#print axioms WG.Iso.C51_format
#print axioms WG.Iso.C51_parse_date
#print axioms WG.Iso.C51_parse_time
#print axioms WG.Iso.C51_roundtrip
#print axioms WG.Iso.C51_injective
#print axioms WG.Iso.C51_fits
#print axioms WG.Iso.C51_any_text
#print axioms WG.Iso.C51_year10000_counterexample
#print axioms WG.Iso.C51_fraction_counterexample
#print axioms WG.Param.C52_int
#print axioms WG.Param.C52_double
#print axioms WG.Param.C52_str
#print axioms WG.Param.C52_xmlliteral
#print axioms WG.Param.C52_uri
#print axioms WG.Param.C52_keeps
#print axioms WG.Param.C52_valueSet
#print axioms WG.Param.C52_like_stored
#print axioms WG.JsonQuery.C53_json_query_partial
#print axioms WG.JsonQuery.C53_with_indexes_partial
#print axioms WG.JsonQuery.C53_array_counterexample
#print axioms WG.JsonQuery.C53_plain_record_counterexample
#print axioms WG.Json.C54_import
#print axioms WG.Json.C54_import_document
#print axioms WG.Json.C54_broken_text
#print axioms WG.Json.C54_import_then_delete
#print axioms WG.Json.C54_print
#print axioms WG.Json.C54_import_print
#print axioms WG.Json.C54_check_json
#print axioms WG.Json.C54_file_partial
#print axioms WG.Json.sample_runs
#print axioms WG.Json.C54_null_counterexample
#print axioms WG.Json.C54_int_counterexample
#print axioms WG.Json.C54_check_counterexample
#print axioms WG.Json.C54_leftover_counterexample
#print axioms WG.Json.C54_delete_counterexample
#print axioms WG.Json.C54_key_counterexample
#print axioms WG.Json.C54_file_counterexample
#print axioms WG.Yajl.C55_reads
#print axioms WG.Yajl.C55_import_document
#print axioms WG.Yajl.C55_only_partial
#print axioms WG.Yajl.C55_safe_partial
#print axioms WG.Yajl.C55_check
#print axioms WG.Yajl.C55_check_only_partial
#print axioms WG.Yajl.C55_blocks_partial
#print axioms WG.Yajl.C55_file_partial
#print axioms WG.Yajl.C55_file_full
#print axioms WG.Yajl.C55_file_safe_partial
#print axioms WG.Yajl.text1_runs
#print axioms WG.Yajl.C55_unterminated_counterexample
#print axioms WG.Yajl.C55_int_counterexample
#print axioms WG.Yajl.C55_surrogate_counterexample
#print axioms WG.Yajl.C55_abort_counterexample
#print axioms WG.Yajl.C55_literal_counterexample
#print axioms WG.Yajl.C56_print_parse
#print axioms WG.Yajl.C56_round_trip
#print axioms WG.Yajl.sample_round
#print axioms WG.Yajl.C56_utf8_counterexample
#print axioms WG.Csv.C57_int
#print axioms WG.Csv.C57_double
#print axioms WG.Csv.C57_exact_partial
#print axioms WG.Csv.C57_string
#print axioms WG.Csv.C57_date
#print axioms WG.Csv.C57_time
#print axioms WG.Csv.Demo.C57_lookalike_counterexample
#print axioms WG.Csv.Demo.C57_errno_counterexample
#print axioms WG.Csv.C58_import_partial
#print axioms WG.Csv.C58_safe
#print axioms WG.Csv.Demo.C58_last_line_counterexample
#print axioms WG.Csv.Demo.C58_after_quote_counterexample
#print axioms WG.Csv.C59_roundtrip_partial
#print axioms WG.Csv.C59_fits
#print axioms WG.Csv.Demo.C59_null_counterexample
#print axioms WG.Csv.Demo.C59_char_counterexample
#print axioms WG.Csv.Demo.C59_int_counterexample
#print axioms WG.Csv.Demo.C59_type_counterexample
#print axioms WG.Csv.Demo.C59_uri_counterexample
#print axioms WG.Print.C60_safe_partial
#print axioms WG.Print.C60_exact
#print axioms WG.Print.C60_leaf
#print axioms WG.Print.C60_print_record
#print axioms WG.Print.C60_uninit_counterexample
#print axioms WG.Print.C60_cut_counterexample
#print axioms WG.JFile.C61_journal_partial
#print axioms WG.JFile.C61_session_partial
#print axioms WG.JFile.Demo.C61_import_counterexample
#print axioms WG.JFile.Demo.C61_closed_counterexample
#print axioms WG.JFile.Demo.C61_replay_counterexample
#print axioms WG.JFile.Demo.C61_failed_dump_counterexample
#print axioms WG.JFile.C62_backups_partial
#print axioms WG.JFile.C62_names
#print axioms WG.JFile.Demo.C62_other_key_counterexample
#print axioms WG.Segment.C63_disjoint
#print axioms WG.Segment.C63_inside
#print axioms WG.Segment.C63_alloc_frame
#print axioms WG.Segment.C63_free_frame
#print axioms WG.Segment.C63_hash
#print axioms WG.Segment.C63_stores
#print axioms WG.Segment.C63_init_size
#print axioms WG.Segment.C63_header_partial
#print axioms WG.Segment.d3_reach
#print axioms WG.Segment.C63_header_counterexample
#print axioms WG.Attach.C64_number_partial
#print axioms WG.Attach.C64_same_partial
#print axioms WG.Attach.C64_default
#print axioms WG.Attach.C64_range
#print axioms WG.Attach.C64_counterexample
#print axioms WG.Attach.C65_handle
#print axioms WG.Attach.C65_kept
#print axioms WG.Attach.C65_new
#print axioms WG.Attach.C65_created
#print axioms WG.Attach.C65_removed
#print axioms WG.Attach.C65_shared
#print axioms WG.Attach.C65_attach
#print axioms WG.Attach.C65_create
#print axioms WG.Attach.one_done
#print axioms WG.Attach.two_done
#print axioms WG.Attach.C65_race_counterexample
#print axioms WG.Attach.C65_leftover_counterexample
#print axioms WG.Attach.C65_import_counterexample
#print axioms WG.Attach.C65_journal_counterexample
#print axioms WG.Attach.C65_cleanup_counterexample
#print axioms WG.Reason.C66_unify
#print axioms WG.Reason.C66_unify_further
#print axioms WG.Reason.Demo.C66_null_counterexample
#print axioms WG.Reason.Demo.C66_var_counterexample
#print axioms WG.Reason.C67_equal
#print axioms WG.Reason.C67_match
#print axioms WG.Reason.C67_flat
#print axioms WG.Reason.Demo.C67_equal_counterexample
#print axioms WG.Reason.Demo.C67_match_counterexample
#print axioms WG.Reason.C68_subsume_partial
#print axioms WG.Reason.C68_subsume_flat
#print axioms WG.Reason.C68_given_flat
#print axioms WG.Reason.Demo.C68_counterexample
#print axioms WG.Reason.C69_proof
#print axioms WG.Reason.C69_model
#print axioms WG.Reason.C69_kept
#print axioms WG.Reason.C70_horn_partial
#print axioms WG.Reason.C70_unsat_partial
#print axioms WG.Reason.ResDemo.C70_counterexample
#print axioms WG.Reason.C71_safe_partial
#print axioms WG.Reason.ResDemo.C71_counterexample
#print axioms WG.Serve.C72_decision
#print axioms WG.Serve.C72_actions
#print axioms WG.Serve.C72_locked
#print axioms WG.Serve.C72_outside
#print axioms WG.Serve.C72_weaker
#print axioms WG.Serve.C72_served
#print axioms WG.Serve.C72_insert_served
#print axioms WG.Serve.C72_drop_served
#print axioms WG.Serve.C72_create_served
#print axioms WG.Serve.exGranted
#print axioms WG.Serve.exAdmin
#print axioms WG.Serve.C73_safe
#print axioms WG.Serve.C73_refused
#print axioms WG.Serve.C73_partial
#print axioms WG.Serve.C73_roundtrip
#print axioms WG.Serve.C73_length_partial
#print axioms WG.Serve.C73_length_counterexample
#print axioms WG.Serve.C73_counterexample
#print axioms WG.Serve.C74_search_partial
#print axioms WG.Serve.C74_count
#print axioms WG.Serve.C74_control_counterexample
#print axioms WG.Serve.C74_language_counterexample
#print axioms WG.Serve.C74_memory_counterexample
#print axioms WG.Serve.C74_empty_counterexample
#print axioms WG.Serve.C74_jsonp_counterexample
#print axioms WG.Serve.C74_cycle_counterexample
#print axioms WG.Serve.C74_nested_partial
#print axioms WG.Serve.C74_nested_counterexample
#print axioms WG.Serve.demo_search
#print axioms WG.Serve.demo_count
#print axioms WG.Serve.demo_nested_fits
#print axioms WG.Serve.demo_nested
#print axioms WG.Serve.C75_partial
#print axioms WG.Serve.C75_nested_partial
#print axioms WG.Serve.C75_csv_partial
#print axioms WG.Serve.C75_counterexample
#print axioms WG.Serve.C75_language_counterexample
#print axioms WG.Serve.C75_int_counterexample
#print axioms WG.Serve.demo_json
#print axioms WG.Serve.demo_json_nested
#print axioms WG.Serve.demo_csv
#print axioms WG.Serve.C76_search_partial
#print axioms WG.Serve.C76_fields_partial
#print axioms WG.Serve.C76_count_partial
#print axioms WG.Serve.C76_ids_partial
#print axioms WG.Serve.C76_delete_partial
#print axioms WG.Serve.C76_delete_fields_partial
#print axioms WG.Serve.C76_delete_ids_partial
#print axioms WG.Serve.C76_zero_counterexample
#print axioms WG.Serve.C76_delete_from_counterexample
#print axioms WG.Serve.C76_forged_counterexample
#print axioms WG.Serve.C76_twice_counterexample
#print axioms WG.Serve.C76_thousand_counterexample
#print axioms WG.Serve.C76_update_counterexample
#print axioms WG.Serve.C76_negative_counterexample
#print axioms WG.Serve.demo_page
#print axioms WG.Serve.demo_fields
#print axioms WG.Serve.demo_counted
#print axioms WG.Serve.demo_ids
#print axioms WG.Serve.demo_delete
#print axioms WG.Serve.demo_delete_fields
#print axioms WG.Serve.demo_delete_ids
#print axioms WG.Serve.C77_partial
#print axioms WG.Serve.C77_rights_partial
#print axioms WG.Serve.C77_size_counterexample
#print axioms WG.Serve.C77_spaces_counterexample
#print axioms WG.Serve.C77_write_counterexample
#print axioms WG.Serve.C77_line_counterexample
#print axioms WG.Serve.C77_word_counterexample
#print axioms WG.Serve.C77_behind_counterexample
#print axioms WG.Serve.C77_empty_counterexample
#print axioms WG.Serve.demo_conf
#print axioms WG.Serve.demo_conf_unknown
#print axioms WG.Serve.demo_conf_rights
#print axioms WG.Serve.C78_partial
#print axioms WG.Serve.C78_read_partial
#print axioms WG.Serve.C78_refused
#print axioms WG.Serve.C78_kind
#print axioms WG.Serve.C78_number_counterexample
#print axioms WG.Serve.C78_field_counterexample
#print axioms WG.Serve.C78_empty_counterexample
#print axioms WG.Serve.C78_negative_counterexample
#print axioms WG.Serve.C78_record_counterexample
#print axioms WG.Serve.C78_default_counterexample
#print axioms WG.Serve.C78_shift_counterexample
#print axioms WG.Serve.demo_asks
#print axioms WG.Serve.demo_cond
#print axioms WG.Serve.demo_cond_rows
#print axioms WG.Serve.demo_refused
#print axioms WG.Serve.Pool.C79_order
#print axioms WG.Serve.Pool.C79_served
#print axioms WG.Serve.Pool.C79_exclusive
#print axioms WG.Serve.Pool.C79_woken
#print axioms WG.Serve.Pool.C79_progress
#print axioms WG.Serve.Pool.C79_account
#print axioms WG.Serve.Pool.C79_dropped_partial
#print axioms WG.Serve.Pool.C79_full_counterexample
#print axioms WG.Serve.Pool.demo_pool
#print axioms WG.Serve.Pool.demo_woken
#print axioms WG.Serve.Http.C80_get_partial
#print axioms WG.Serve.Http.C80_post_partial
#print axioms WG.Serve.Http.C80_method
#print axioms WG.Serve.Http.C80_none_partial
#print axioms WG.Serve.Http.C80_short_partial
#print axioms WG.Serve.Http.C80_header
#print axioms WG.Serve.Http.C80_freed_counterexample
#print axioms WG.Serve.Http.C80_stale_counterexample
#print axioms WG.Serve.Http.C80_silent_counterexample
#print axioms WG.Serve.Http.C80_unset_counterexample
#print axioms WG.Serve.Http.C80_short_counterexample
#print axioms WG.Serve.Http.C80_post_counterexample
#print axioms WG.Serve.Http.C80_name_counterexample
#print axioms WG.Serve.Http.demo_http
#print axioms WG.Serve.Http.demo_http_met
#print axioms WG.Ext.C81_same_object
#print axioms WG.Ext.C81_immediate
#print axioms WG.Ext.C81_owner
#print axioms WG.Ext.C81_rec_owner
#print axioms WG.Ext.C81_register_partial
#print axioms WG.Ext.C81_refused
#print axioms WG.Ext.C81_backlinks_partial
#print axioms WG.Ext.C81_delete
#print axioms WG.Ext.C81_history_partial
#print axioms WG.Ext.demo_delete
#print axioms WG.Ext.C81_full_counterexample
#print axioms WG.Ext.C81_replaced_counterexample
#print axioms WG.Ext.C81_foreign_counterexample
#print axioms WG.Ext.demo_owner
#print axioms WG.Ext.demo_one
#print axioms WG.Serve.Wire.C82_defined
#print axioms WG.Serve.Wire.C82_get_partial
#print axioms WG.Serve.Wire.C82_post_partial
#print axioms WG.Serve.Wire.C82_outside
#print axioms WG.Serve.Wire.C82_token
#print axioms WG.Serve.Wire.C82_silent_counterexample
#print axioms WG.Serve.Wire.demo_wire
#print axioms WG.Serve.Wire.demo_wire_met
#print axioms WG.Serve.Wire.C83_missing
#print axioms WG.Serve.Wire.C83_unknown
#print axioms WG.Serve.Wire.C83_server_partial
#print axioms WG.Serve.Wire.C83_cgi_get_partial
#print axioms WG.Serve.Wire.C83_command_partial
#print axioms WG.Serve.Wire.C83_cgi_rights
#print axioms WG.Serve.Wire.C83_empty_counterexample
#print axioms WG.Serve.Wire.C83_long_counterexample
#print axioms WG.Serve.Wire.C83_post_counterexample
#print axioms WG.Serve.Wire.demo_main
#print axioms WG.Serve.Wire.demo_unknown
#print axioms WG.Query.C84_typed_partial
#print axioms WG.Query.C84_illegal_scan
#print axioms WG.Query.C84_illegal_counterexample
#print axioms WG.Query.placedDB_wf
#print axioms WG.Query.demo_typed
#print axioms WG.Param.C84_words
#print axioms WG.Param.C84_strings
#print axioms WG.Param.C84_numbers
#print axioms WG.Param.demo_alike
