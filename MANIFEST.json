{
 "claims": [
  {
   "property": "C01",
   "status": "proved",
   "theorems": [
    "WG.C01_int_roundtrip",
    "WG.C01_int_success",
    "WG.C01_int_frame"
   ],
   "note": "Inline/stored boundary at 2^60; the cell allocator is an argument (any aligned cell)."
  },
  {
   "property": "C02",
   "status": "proved",
   "theorems": [
    "WG.C02_char_roundtrip",
    "WG.C02_date_roundtrip",
    "WG.C02_time_roundtrip",
    "WG.C02_fixpoint_roundtrip",
    "WG.C02_var_roundtrip",
    "WG.C02_anonconst_roundtrip",
    "WG.C02_double_roundtrip"
   ],
   "note": "Rejection ranges are exact. Shifts of signed ints wrap as gcc compiles them. For fixpoints the floating point rounding itself is not modelled."
  },
  {
   "property": "C03",
   "status": "proved",
   "theorems": [
    "WG.C03_type_correct",
    "WG.C03_never_illegal",
    "WG.C03_injective",
    "WG.C03_null_unique"
   ],
   "note": "wg_encode_anonconst actually creates a URI string; it is covered as such."
  },
  {
   "property": "C04",
   "status": "proved",
   "theorems": [
    "WG.C04_calendar_roundtrip",
    "WG.C04_consecutive",
    "WG.C04_order",
    "WG.C04_inverse",
    "WG.C04_refused",
    "WG.C04_feb30_counterexample"
   ],
   "note": "Years 1 to 5879610, beyond which day numbers overflow int. The API accepts impossible days such as Feb 30 (counterexample theorem)."
  },
  {
   "property": "C05",
   "status": "proved",
   "theorems": [
    "WG.C05_time_roundtrip",
    "WG.C05_time_order",
    "WG.C05_refused",
    "WG.C05_minute60_counterexample"
   ],
   "note": "Refused fields are exactly those outside 0..24, 0..60, 0..60, 0..99; minute/second 60 is accepted (counterexample theorem shows it aliases)."
  },
  {
   "property": "C06",
   "status": "proved",
   "theorems": [
    "WG.C06_antisymm",
    "WG.C06_trans",
    "WG.C06_nan_counterexample"
   ],
   "note": "Over any set of well-formed non-NaN values closed under record fields, with arbitrary (also cyclic) record graphs. The counterexample shows why NaN is excluded in the statement."
  },
  {
   "property": "C07",
   "status": "proved",
   "theorems": [
    "WG.C07_equal_same_content",
    "WG.C07_types",
    "WG.C07_int",
    "WG.C07_date",
    "WG.C07_time",
    "WG.C07_fixpoint",
    "WG.C07_char",
    "WG.C07_double",
    "WG.C07_str",
    "WG.C07_blob"
   ],
   "note": "Doubles are ordered by their IEEE 754 value."
  },
  {
   "property": "C08",
   "status": "proved",
   "theorems": [
    "WG.Varlen.C08_disjoint",
    "WG.Varlen.C08_inside",
    "WG.Varlen.C08_subareas",
    "WG.Varlen.C08_free",
    "WG.Varlen.C08_fresh",
    "WG.Varlen.C08_free_ok",
    "WG.Varlen.C08_fuel"
   ],
   "note": "Every history of allocations, failed allocations, frees, writes inside objects and arbitrary activity of the rest of the database in the same segment (segment up to 2^40 bytes, requests below 2^40 bytes)."
  },
  {
   "property": "C09",
   "status": "partial",
   "theorems": [
    "WG.Varlen.C09_alloc_frame",
    "WG.Varlen.C09_free_frame",
    "WG.Varlen.C09_size_partial",
    "WG.Varlen.C09_size_counterexample"
   ],
   "note": "All words are preserved. The recorded size is preserved for objects of four or more words (records with at least one field, all strings); a record without fields can get length 1 when the area is extended (counterexample theorem)."
  },
  {
   "property": "C10",
   "status": "partial",
   "theorems": [
    "WG.Varlen.C10_coalesced",
    "WG.Varlen.C10_nothing_lost",
    "WG.Varlen.C10_reuse_partial",
    "WG.Varlen.C10_reuse_counterexample"
   ],
   "note": "Coalescing and no loss are full. Reuse is proved for requests needing the same memory or at least 32 bytes less; 8 to 24 bytes less can fail (counterexample theorem)."
  },
  {
   "property": "C11",
   "status": "proved",
   "theorems": [
    "WG.Fixlen.C11_fresh",
    "WG.Fixlen.C11_disjoint",
    "WG.Fixlen.C11_not_free",
    "WG.Fixlen.C11_inside",
    "WG.Fixlen.C11_alloc_frame",
    "WG.Fixlen.C11_free_frame",
    "WG.Fixlen.C11_reuse",
    "WG.Fixlen.C11_nothing_lost"
   ],
   "note": "One area of any cell size (multiple of 8 up to 8192); every history of allocations, frees, writes by owners, and arbitrary activity elsewhere in the segment. Disjointness from other areas follows from C12."
  },
  {
   "property": "C12",
   "status": "proved",
   "theorems": [
    "WG.Fixlen.C12_disjoint",
    "WG.Fixlen.C12_freesize",
    "WG.Fixlen.C12_fail"
   ],
   "note": "Any sequence of chunk requests."
  },
  {
   "property": "C13",
   "status": "partial",
   "theorems": [
    "WG.Recs.C13_refines_partial",
    "WG.Recs.C13_last_write_partial",
    "WG.Recs.C13_frame_partial",
    "WG.Recs.C13_fresh_partial",
    "WG.Recs.C13_len_partial",
    "WG.Recs.C13_self_reference_counterexample"
   ],
   "note": "Histories of wg_create_record, wg_set_field, wg_set_new_field, wg_delete_record, encoders and wg_free_encoded over arbitrary record graphs, with arbitrary behaviour of the index layer (an abstract parameter). Missing: overwriting a self-reference whose list cell heads the backlink list follows freed memory (counterexample theorem), and the two defects of C45."
  },
  {
   "property": "C14",
   "status": "proved",
   "theorems": [
    "WG.Recs.C14_set_refused",
    "WG.Recs.C14_set_new_refused",
    "WG.Recs.C14_get_illegal",
    "WG.Recs.C14_in_range",
    "WG.Atomic.C14_atomic_refused"
   ],
   "note": "All states, no reachability needed."
  },
  {
   "property": "C15",
   "status": "proved",
   "theorems": [
    "WG.Varlen.C15_raw",
    "WG.Varlen.C15_data",
    "WG.Varlen.C15_exactly_once",
    "WG.Varlen.C15_next"
   ],
   "note": "Any history of the record area; the not-data bit is the one in the meta word of the record. The database is not changed during the iteration."
  },
  {
   "property": "C16",
   "status": "proved",
   "theorems": [
    "WG.Recs.C16_delete_refused",
    "WG.Recs.C16_no_dangling"
   ],
   "note": "Histories of wg_create_record, wg_set_field, wg_set_new_field, wg_delete_record, encoders and wg_free_encoded over arbitrary record graphs, with arbitrary behaviour of the index layer (an abstract parameter). Histories in which wg_set_field got its list cell and did not report an index failure while storing a reference (the failing cases are C45 counterexamples)."
  },
  {
   "property": "C17",
   "status": "partial",
   "theorems": [
    "WG.Recs.C17_parents_partial",
    "WG.Recs.C17_repeated_counterexample"
   ],
   "note": "Proved when no record refers to the given record from two fields; with a repeated reference the iteration does not terminate (counterexample theorem)."
  },
  {
   "property": "C18",
   "status": "proved",
   "theorems": [
    "WG.Recs.C18_count",
    "WG.Recs.C18_never_freed_in_use",
    "WG.Recs.C18_released"
   ],
   "note": "Histories of wg_create_record, wg_set_field, wg_set_new_field, wg_delete_record, encoders and wg_free_encoded over arbitrary record graphs, with arbitrary behaviour of the index layer (an abstract parameter). Uses as extra string of another string are counted as well."
  },
  {
   "property": "C19",
   "status": "partial",
   "theorems": [
    "WG.Recs.C19_interning_partial",
    "WG.Recs.C19_unique_partial",
    "WG.Recs.C19_clash_counterexample"
   ],
   "note": "Any hash table size and collision pattern, except that a new long extra string must not fall into the empty bucket or before the head of the bucket its owner is about to enter: then the extra string is lost from the table and later duplicated (counterexample theorem with a concrete collision at the default table size)."
  },
  {
   "property": "C20",
   "status": "proved",
   "theorems": [
    "WG.Recs.C20_str_round_trip",
    "WG.Recs.C20_blob_round_trip",
    "WG.Recs.C20_stable"
   ],
   "note": "Strings without 0 bytes, blobs arbitrary. Lengths are unbounded in the model; the C code is limited by its int lengths and the allocator."
  },
  {
   "property": "C21",
   "status": "partial",
   "theorems": [
    "WG.Atomic.C21_no_lost_update_partial",
    "WG.Atomic.C21_sum_partial",
    "WG.Atomic.C21_refused",
    "WG.Atomic.C21_truncation_counterexample"
   ],
   "note": "All interleavings of any number of processes at the granularity of the compare-and-swap loop; amounts and sums must fit the 32-bit argument of the internal encoder (otherwise the code truncates: counterexample theorem)."
  },
  {
   "property": "C22",
   "status": "proved",
   "theorems": [
    "WG.TTree.C22_contents_in_order",
    "WG.TTree.C22_no_panic",
    "WG.TTree.C22_nodes",
    "WG.TTree.wgEnv_ord",
    "WG.TTree.segEnv_ord",
    "WG.TTree.C22_nomem_partial",
    "WG.TTree.C22_nomem_counterexample"
   ],
   "note": "Every history of insertions and removals that get their node when they need one; keys any values on which the comparison is a total preorder (shown for WG_COMPARE without NaN). When no node can be allocated a row can be lost (counterexample theorem). Slot shifting inside a node is list insertion in the model."
  },
  {
   "property": "C23",
   "status": "proved",
   "theorems": [
    "WG.TTree.C23_balanced",
    "WG.TTree.C23_height_bound"
   ],
   "note": ""
  },
  {
   "property": "C24",
   "status": "proved",
   "theorems": [
    "WG.TTree.C24_lookup",
    "WG.TTree.C24_found_iff",
    "WG.TTree.C24_first_position",
    "WG.TTree.C24_last_position"
   ],
   "note": "Equal keys are those that WG_COMPARE finds equal."
  },
  {
   "property": "C25",
   "status": "partial",
   "theorems": [
    "WG.Query.C25_query_partial",
    "WG.Query.C25_refused",
    "WG.Query.C25_gap_counterexample",
    "WG.Query.C25_illegal_counterexample",
    "WG.Recs.C25_after_history_partial"
   ],
   "note": "All databases whose T-tree indexes result from insertions and removals, with or without templates, and all condition lists except `col > v` with `col < v` on an indexed column (there the code returns wrong rows: counterexample theorem) and conditions on the illegal value. The after_history theorem is the same for every database reached by a history of API calls (C28)."
  },
  {
   "property": "C26",
   "status": "partial",
   "theorems": [
    "WG.Query.C26_prefetch_partial",
    "WG.Query.C26_count_counterexample"
   ],
   "note": "Rows, order, limit and isolation are full for the queries of C25; res_count is not assigned when the conditions contradict each other (counterexample theorem)."
  },
  {
   "property": "C27",
   "status": "proved",
   "theorems": [
    "WG.Query.C27_find_record",
    "WG.Recs.C27_after_history_partial"
   ],
   "note": "Conditions are the six documented ones; the value is a proper encoded value. The after_history theorem is the same for every database reached by a history of API calls (C28)."
  },
  {
   "property": "C28",
   "status": "partial",
   "theorems": [
    "WG.Recs.C28_index_exact_partial",
    "WG.Recs.C28_calls_succeed_partial",
    "WG.Recs.C28_twice_counterexample",
    "WG.Recs.C28_set_new_counterexample",
    "WG.Recs.C28_template_counterexample",
    "WG.Recs.C28_raw_counterexample"
   ],
   "note": "All histories of record creation (also raw records), field updates, deletions, value encoding, creation and dropping of T-tree indexes with and without templates, on top of the record store (C13-C19), the comparison (C06) and the T-tree (C22). Excluded, each with a counterexample theorem: a record that can be reached twice from an indexed field, wg_set_new_field on a record from wg_create_record, a template created while a column of it is indexed, raw records that come to match a template. Also excluded: allocation failure of a tree node (C22), and hash indexes."
  },
  {
   "property": "C29",
   "status": "partial",
   "theorems": [
    "WG.HashIndex.C29_lookup",
    "WG.HashIndex.C29_rows",
    "WG.HashIndex.C29_once",
    "WG.HashIndex.C29_unhashable",
    "WG.HashIndex.C29_codes",
    "WG.HashIndex.C29_plain_keys",
    "WG.HashIndex.C29_build",
    "WG.HashIndex.C29_equal_partial",
    "WG.HashIndex.C29_same_key_partial",
    "WG.HashIndex.C29_exact_partial",
    "WG.HashIndex.C29_int_counterexample",
    "WG.HashIndex.C29_uri_counterexample",
    "WG.HashIndex.C29_zero_counterexample",
    "WG.HashIndex.C29_json_counterexample"
   ],
   "note": "The lookup is full: all histories, table sizes, collision patterns, plain and JSON indexes. That equal key bytes mean equal values is proved for integers and variables of 32 bits and for URIs and XML literals with an extra string that do not begin with a byte from 1 to 14; beyond that it is false (counterexample theorems). The converse is proved too, except for -0.0, empty extra strings and records."
  },
  {
   "property": "C30",
   "status": "proved",
   "theorems": [
    "WG.GintHash.C30_lookup",
    "WG.GintHash.C30_map",
    "WG.GintHash.C30_terminates",
    "WG.GintHash.C30_after_failure_counterexample"
   ],
   "note": "Every history of successful insertions, any hash function, any allocation behaviour. After an insertion that failed for lack of memory entries can be lost (counterexample theorem)."
  },
  {
   "property": "C31",
   "status": "proved",
   "theorems": [
    "WG.ResultSet.C31_pages",
    "WG.ResultSet.C31_intersect",
    "WG.ResultSet.C31_intersect_fails",
    "WG.ResultSet.C31_unique",
    "WG.ResultSet.C31_unique_fails"
   ],
   "note": "Any result sets, any table size of the code's size table; the _fails theorems characterise the only way the operations can return NULL (lack of memory)."
  },
  {
   "property": "C32",
   "status": "proved",
   "theorems": [
    "WG.C32_exclusive",
    "WG.C32_free_again",
    "WG.C32_readers_share"
   ],
   "note": "Sequentially consistent atomic steps; fewer than 2^62 processes."
  },
  {
   "property": "C33",
   "status": "proved",
   "theorems": [
    "WG.C33_exclusive",
    "WG.C33_writer_preference",
    "WG.C33_free_again"
   ],
   "note": "Sequentially consistent atomic steps; preference up to the readers already past the check of the writer word."
  },
  {
   "property": "C34",
   "status": "partial",
   "theorems": [
    "WG.C34_exclusive_partial",
    "WG.C34_fifo_partial",
    "WG.C34_wakeup_partial",
    "WG.C34_no_deadlock_partial",
    "WG.C34_free_again_partial",
    "WG.C34_queue_mutex",
    "WG.C34_stale_wake_counterexample",
    "WG.C34_timeout_counterexample"
   ],
   "note": "Proved for runs without spurious or stale futex wake-ups and without time outs that race with a grant; with them exclusion and wake-up fail in the code (counterexample theorems)."
  },
  {
   "property": "C35",
   "status": "proved",
   "theorems": [
    "WG.C35_dump_import",
    "WG.C35_refused_import",
    "WG.C35_key_overwritten"
   ],
   "note": "File input/output is modelled as byte lists; every byte except size, checksum and lock words is reproduced."
  },
  {
   "property": "C36",
   "status": "proved",
   "theorems": [
    "WG.C36_accepts_dump",
    "WG.C36_truncated",
    "WG.C36_extended",
    "WG.C36_burst",
    "WG.C36_single_byte"
   ],
   "note": "CRC-32 with the table of crc1.h; used area of at least 8192 bytes (the library's initial areas alone are larger)."
  },
  {
   "property": "C37",
   "status": "partial",
   "theorems": [
    "WG.C37_snapshot_partial",
    "WG.C37_accepted_partial",
    "WG.C37_size_race_rejected",
    "WG.C37_size_race_counterexample",
    "WG.C37_lock_traffic_counterexample"
   ],
   "note": "The data bytes are a snapshot for every schedule; acceptance by wg_check_dump is proved only without growth before the lock and without lock traffic during the dump; otherwise false of the code (counterexample theorems)."
  },
  {
   "property": "C38",
   "status": "proved",
   "theorems": [
    "WG.C38_varint_roundtrip",
    "WG.C38_varint_size",
    "WG.C38_varint_torn"
   ],
   "note": ""
  },
  {
   "property": "C39",
   "status": "partial",
   "theorems": [
    "WG.C39_parse_partial",
    "WG.C39_torn_partial",
    "WG.C39_bigint_counterexample",
    "WG.C39_bigint_truncated",
    "WG.C39_nested_counterexample"
   ],
   "note": "Proved for sessions without integers outside the 32-bit range and without nested string encodings; those two are counterexamples in the code (counterexample theorems)."
  },
  {
   "property": "C40",
   "status": "partial",
   "theorems": [
    "WG.C40_replay_partial",
    "WG.C40_progress_partial",
    "WG.C40_reuse_counterexample",
    "WG.C40_failed_create_counterexample"
   ],
   "note": "Proved for sessions in which offsets of deleted objects are not reused (any allocator behaviour during replay); with reuse, or after a failed creation, the claim is false of the code (counterexample theorems). Freeing of stored values is not modelled."
  },
  {
   "property": "C41",
   "status": "partial",
   "theorems": [
    "WG.MPool.C41_blocks_partial",
    "WG.MPool.C41_served",
    "WG.MPool.C41_overflow_counterexample"
   ],
   "note": "All histories of requests up to 1 GiB and all malloc behaviours; beyond that the int arithmetic overflows (counterexample theorem)."
  },
  {
   "property": "C42",
   "status": "partial",
   "theorems": [
    "WG.MPool.C42_pairs",
    "WG.MPool.C42_atoms_partial",
    "WG.MPool.C42_second_counterexample",
    "WG.MPool.C42_empty_second_counterexample",
    "WG.MPool.C42_type0_counterexample"
   ],
   "note": "All histories; second strings of length 0 or 1 and atom type 0 are not recovered by the code (counterexample theorems)."
  },
  {
   "property": "C43",
   "status": "partial",
   "theorems": [
    "WG.IndexCat.C43_find_partial",
    "WG.IndexCat.C43_create",
    "WG.IndexCat.C43_distinct",
    "WG.IndexCat.C43_drop_partial",
    "WG.IndexCat.C43_type",
    "WG.IndexCat.C43_template",
    "WG.IndexCat.C43_chains",
    "WG.IndexCat.C43_all_partial",
    "WG.IndexCat.dbVt_ok",
    "WG.IndexCat.C43_all_counterexample",
    "WG.IndexCat.C43_failed_creation_counterexample",
    "WG.IndexCat.C43_drop_hash_counterexample",
    "WG.IndexCat.C43_refcount_counterexample",
    "WG.IndexCat.C43_negative_counterexample",
    "WG.IndexCat.C43_long_template_counterexample"
   ],
   "note": "All histories of creations (T-tree and hash, with and without templates) and drops. Missing, each with a counterexample theorem: wg_get_all_indexes with multi-column indexes, creations that fail after the header was linked, drops of hash indexes, templates whose memory does not start with reference count 0, a single negative column, match records longer than 128."
  },
  {
   "property": "C44",
   "status": "proved",
   "theorems": [
    "WG.IndexCat.C44_sorted",
    "WG.IndexCat.C44_refused",
    "WG.IndexCat.C44_create_order",
    "WG.IndexCat.C44_find_order"
   ],
   "note": "All column lists and all catalogues."
  },
  {
   "property": "C45",
   "status": "partial",
   "theorems": [
    "WG.Recs.C45_failures_partial",
    "WG.Recs.C45_cell_counterexample",
    "WG.Recs.C45_index_failure_counterexample"
   ],
   "note": "wg_set_field, wg_set_new_field, wg_delete_record; two failure modes damage the database (counterexample theorems). wg_create_index is not covered."
  },
  {
   "property": "C46",
   "status": "proved",
   "theorems": [
    "WG.Recs.C46_find_document",
    "WG.Recs.C46_mark_kept"
   ],
   "note": "Histories of wg_create_record, wg_set_field, wg_set_new_field, wg_delete_record, encoders and wg_free_encoded over arbitrary record graphs, with arbitrary behaviour of the index layer (an abstract parameter)."
  },
  {
   "property": "C47",
   "status": "proved",
   "theorems": [
    "WG.Recs.C47_delete_document",
    "WG.Recs.C47_not_document",
    "WG.Recs.C47_shared_counterexample"
   ],
   "note": "All tree-shaped documents in all reachable databases, index updates not failing. The last theorem shows why shared records are excluded from the claim: the call then fails half-way."
  },
  {
   "property": "C48",
   "status": "proved",
   "theorems": [
    "WG.C48_normalize_perms",
    "WG.C48_idempotent"
   ],
   "note": ""
  },
  {
   "property": "C49",
   "status": "proved",
   "theorems": [
    "WG.C49_header_compat"
   ],
   "note": ""
  },
  {
   "property": "C50",
   "status": "proved",
   "theorems": [
    "WG.Varlen.C50_list_sizes",
    "WG.Varlen.C50_index",
    "WG.Varlen.C50_ordered"
   ],
   "note": ""
  },
  {
   "property": "C51",
   "status": "proved",
   "theorems": [
    "WG.Iso.C51_format",
    "WG.Iso.C51_parse_date",
    "WG.Iso.C51_parse_time",
    "WG.Iso.C51_roundtrip",
    "WG.Iso.C51_injective",
    "WG.Iso.C51_fits",
    "WG.Iso.C51_any_text",
    "WG.Iso.C51_year10000_counterexample",
    "WG.Iso.C51_fraction_counterexample"
   ],
   "note": "All days up to 9999-12-31, all times of day, all texts. The two counterexamples are outside the claim: years above 9999 cannot be read back, and a fraction of one digit is read as hundredths."
  },
  {
   "property": "C52",
   "status": "proved",
   "theorems": [
    "WG.Param.C52_int",
    "WG.Param.C52_double",
    "WG.Param.C52_str",
    "WG.Param.C52_xmlliteral",
    "WG.Param.C52_uri",
    "WG.Param.C52_keeps",
    "WG.Param.C52_valueSet",
    "WG.Param.C52_like_stored"
   ],
   "note": "All memories, data and results of malloc. Lengths are not truncated to int (strings of 2 GB and more); doubles are bit patterns, and NaN is excluded from comparison as in C06."
  },
  {
   "property": "C53",
   "status": "partial",
   "theorems": [
    "WG.JsonQuery.C53_json_query_partial",
    "WG.JsonQuery.C53_with_indexes_partial",
    "WG.JsonQuery.C53_array_counterexample",
    "WG.JsonQuery.C53_plain_record_counterexample"
   ],
   "note": "All histories, argument lists and index configurations (scan, T-tree key index, JSON hash index, both). Restricted to databases in which documents are trees of at most seven levels and the pairs asked for occur in documents only; arrays with three or more elements count as pairs (counterexamples). The values asked for are values of the database, not query parameters."
  },
  {
   "property": "C54",
   "status": "partial",
   "theorems": [
    "WG.Json.C54_import",
    "WG.Json.C54_import_document",
    "WG.Json.C54_broken_text",
    "WG.Json.C54_import_then_delete",
    "WG.Json.C54_print",
    "WG.Json.C54_import_print",
    "WG.Json.C54_check_json",
    "WG.Json.C54_file_partial",
    "WG.Json.sample_runs",
    "WG.Json.C54_null_counterexample",
    "WG.Json.C54_int_counterexample",
    "WG.Json.C54_check_counterexample",
    "WG.Json.C54_leftover_counterexample",
    "WG.Json.C54_delete_counterexample",
    "WG.Json.C54_key_counterexample",
    "WG.Json.C54_file_counterexample"
   ],
   "note": "All histories, texts, allocators and failure points, at the level of the callbacks of the JSON parser and the calls of the generator. Not as the statement says, each with a counterexample theorem: null, true and false are dropped and long keys cut (the theorems state exactly what is kept), integers beyond 32 bits are printed wrongly, wg_check_json is one level stricter than the import, a refused import leaves unreachable records behind, files whose length is a multiple of 16384 are ignored. Deletion is proved up to seven record levels (an object takes two); beyond it fails (counterexample theorem)."
  },
  {
   "property": "C55",
   "status": "partial",
   "theorems": [
    "WG.Yajl.C55_reads",
    "WG.Yajl.C55_import_document",
    "WG.Yajl.C55_only_partial",
    "WG.Yajl.C55_safe_partial",
    "WG.Yajl.C55_check",
    "WG.Yajl.C55_check_only_partial",
    "WG.Yajl.C55_blocks_partial",
    "WG.Yajl.C55_file_partial",
    "WG.Yajl.C55_file_full",
    "WG.Yajl.C55_file_safe_partial",
    "WG.Yajl.text1_runs",
    "WG.Yajl.C55_unterminated_counterexample",
    "WG.Yajl.C55_int_counterexample",
    "WG.Yajl.C55_surrogate_counterexample",
    "WG.Yajl.C55_abort_counterexample",
    "WG.Yajl.C55_literal_counterexample"
   ],
   "note": "All byte strings, block boundaries, databases, allocators and failure points; every text of the grammar is read as its value (full). The converse and the safety theorems need every first surrogate escape to be followed by a second one: else a byte is lost or an assertion fails (counterexample theorems). Accepted in addition: an unterminated string or comment after the value. -2^63 is refused. Files whose length is a multiple of 16384 are ignored. The allocations of yajl itself do not fail in the model."
  },
  {
   "property": "C56",
   "status": "partial",
   "theorems": [
    "WG.Yajl.C56_print_parse",
    "WG.Yajl.C56_round_trip",
    "WG.Yajl.sample_round",
    "WG.Yajl.C56_utf8_counterexample"
   ],
   "note": "All documents whose strings are UTF-8, integers fit in 32 bits (C54) and whose doubles %f prints as finite numbers; nesting up to seven levels for reading (127 for printing). Strings that are not UTF-8 are printed as texts that are refused (counterexample theorem)."
  },
  {
   "property": "C57",
   "status": "partial",
   "theorems": [
    "WG.Csv.C57_int",
    "WG.Csv.C57_double",
    "WG.Csv.C57_exact_partial",
    "WG.Csv.C57_string",
    "WG.Csv.C57_date",
    "WG.Csv.C57_time",
    "WG.Csv.Demo.C57_lookalike_counterexample",
    "WG.Csv.Demo.C57_errno_counterexample"
   ],
   "note": "Numbers: all texts of at most 79 characters, errno clear before the call. Missing because false: longer numbers are cut, text after a date or time is ignored, and a stale errno turns a number into a string (counterexample theorems)."
  },
  {
   "property": "C58",
   "status": "partial",
   "theorems": [
    "WG.Csv.C58_import_partial",
    "WG.Csv.C58_safe",
    "WG.Csv.Demo.C58_last_line_counterexample",
    "WG.Csv.Demo.C58_after_quote_counterexample"
   ],
   "note": "All files whose lines end with LF or CR LF and whose fields have at most 4095 bytes, none of them 0; safety for all bytes. Missing because false: a last line without LF is dropped, and bytes after a closing quote are misread (counterexample theorems). The database is a parameter: what its encoders and record creation do is C01-C20."
  },
  {
   "property": "C59",
   "status": "partial",
   "theorems": [
    "WG.Csv.C59_roundtrip_partial",
    "WG.Csv.C59_fits",
    "WG.Csv.Demo.C59_null_counterexample",
    "WG.Csv.Demo.C59_char_counterexample",
    "WG.Csv.Demo.C59_int_counterexample",
    "WG.Csv.Demo.C59_type_counterexample",
    "WG.Csv.Demo.C59_uri_counterexample"
   ],
   "note": "All databases of NULL, 32-bit integers, doubles that %f prints in at most 79 characters, texts of at most 4091 bytes, days up to 9999-12-31, times and plain characters. Texts come back as the value that they look like (C57). Missing because false: records of one NULL, 64-bit integers, types of texts, special characters, URIs without prefix (counterexample theorems)."
  },
  {
   "property": "C60",
   "status": "partial",
   "theorems": [
    "WG.Print.C60_safe_partial",
    "WG.Print.C60_exact",
    "WG.Print.C60_leaf",
    "WG.Print.C60_print_record",
    "WG.Print.C60_uninit_counterexample",
    "WG.Print.C60_cut_counterexample"
   ],
   "note": "All values, record graphs, buffers of at least 2 bytes. Missing because false: a record that gets exactly 2 bytes reads a scratch byte that was never written (counterexample theorem)."
  },
  {
   "property": "C61",
   "status": "partial",
   "theorems": [
    "WG.JFile.C61_journal_partial",
    "WG.JFile.C61_session_partial",
    "WG.JFile.Demo.C61_import_counterexample",
    "WG.JFile.Demo.C61_closed_counterexample",
    "WG.JFile.Demo.C61_replay_counterexample",
    "WG.JFile.Demo.C61_failed_dump_counterexample"
   ],
   "note": "All histories, handles and failures of system calls, one call at a time (the write lock). Missing because false, each with a counterexample theorem: a handle that has logged before wg_import_dump goes on writing to the old journal; after a failed write a closed descriptor number is used again; a failed replay leaves logging off; a failed dump begins a new journal all the same."
  },
  {
   "property": "C62",
   "status": "partial",
   "theorems": [
    "WG.JFile.C62_backups_partial",
    "WG.JFile.C62_names",
    "WG.JFile.Demo.C62_other_key_counterexample"
   ],
   "note": "All histories as for C61, stat not failing for files that exist. Missing because false: a dump of another database replaces the key, so that the journal of that database is written (counterexample theorem)."
  },
  {
   "property": "C63",
   "status": "partial",
   "theorems": [
    "WG.Segment.C63_disjoint",
    "WG.Segment.C63_inside",
    "WG.Segment.C63_alloc_frame",
    "WG.Segment.C63_free_frame",
    "WG.Segment.C63_hash",
    "WG.Segment.C63_stores",
    "WG.Segment.C63_init_size",
    "WG.Segment.C63_header_partial",
    "WG.Segment.d3_reach",
    "WG.Segment.C63_header_counterexample"
   ],
   "note": "All histories over all ten areas, hash arrays and the lock queue, with the header size as parameter. Missing because false: the header is stored before the size is looked at, so a local database of less than 48 bytes is overrun (counterexample theorem)."
  },
  {
   "property": "C64",
   "status": "partial",
   "theorems": [
    "WG.Attach.C64_number_partial",
    "WG.Attach.C64_same_partial",
    "WG.Attach.C64_default",
    "WG.Attach.C64_range",
    "WG.Attach.C64_counterexample"
   ],
   "note": "All names. Numbers from 2147483647 on are excluded: they are cut to 32 bits or replaced by 1000 and alias other databases (counterexample theorem)."
  },
  {
   "property": "C65",
   "status": "partial",
   "theorems": [
    "WG.Attach.C65_handle",
    "WG.Attach.C65_kept",
    "WG.Attach.C65_new",
    "WG.Attach.C65_created",
    "WG.Attach.C65_removed",
    "WG.Attach.C65_shared",
    "WG.Attach.C65_attach",
    "WG.Attach.C65_create",
    "WG.Attach.one_done",
    "WG.Attach.two_done",
    "WG.Attach.C65_race_counterexample",
    "WG.Attach.C65_leftover_counterexample",
    "WG.Attach.C65_import_counterexample",
    "WG.Attach.C65_journal_counterexample",
    "WG.Attach.C65_cleanup_counterexample"
   ],
   "note": "All interleavings, failures and crashes; shared memory by its documented effect. Success is proved for undisturbed calls only, as it fails otherwise (counterexample theorems): a second creator gets NULL; a segment left half-initialised by a crash blocks the name; after the import of a dump of another database attaching fails. Two more counterexamples: changes by others before the journal of a new logged database starts, and a failed creation that removes the database of somebody else."
  },
  {
   "property": "C66",
   "status": "proved",
   "theorems": [
    "WG.Reason.C66_unify",
    "WG.Reason.C66_unify_further",
    "WG.Reason.Demo.C66_null_counterexample",
    "WG.Reason.Demo.C66_var_counterexample"
   ],
   "note": "All terms without NULL and with variable numbers below 5000. Two theorems show what happens outside of this range, which the code does not check."
  },
  {
   "property": "C67",
   "status": "partial",
   "theorems": [
    "WG.Reason.C67_equal",
    "WG.Reason.C67_match",
    "WG.Reason.C67_flat",
    "WG.Reason.Demo.C67_equal_counterexample",
    "WG.Reason.Demo.C67_match_counterexample"
   ],
   "note": "The answers are exact for all terms, and a yes is never missed. Missing because false: with function terms, comparing a record with a long string (any symbol), or matching a constant with a record, reads memory that is no record (counterexample theorems). Proved safe for atoms without function terms."
  },
  {
   "property": "C68",
   "status": "partial",
   "theorems": [
    "WG.Reason.C68_subsume_partial",
    "WG.Reason.C68_subsume_flat",
    "WG.Reason.C68_given_flat",
    "WG.Reason.Demo.C68_counterexample"
   ],
   "note": "Exact for all clauses without function terms; for all other clauses exact if the test ends at all, which it need not as it uses the defective comparison of C67 (counterexample theorem)."
  },
  {
   "property": "C69",
   "status": "proved",
   "theorems": [
    "WG.Reason.C69_proof",
    "WG.Reason.C69_model",
    "WG.Reason.C69_kept"
   ],
   "note": "All clauses without NULL and with variable numbers below 5000, all settings, hash functions and failures of allocation. The interpretations are those in which x = x is true, equations between different data are false and sums are those the program computes."
  },
  {
   "property": "C70",
   "status": "partial",
   "theorems": [
    "WG.Reason.C70_horn_partial",
    "WG.Reason.C70_unsat_partial",
    "WG.Reason.ResDemo.C70_counterexample"
   ],
   "note": "False in general: there is no factoring (counterexample theorem). Proved for Horn clauses without function terms, binary resolution, no preference of positive literals, a hash that depends on the value only. Missing: hyperresolution (see C71), preference of positive literals, function terms."
  },
  {
   "property": "C71",
   "status": "partial",
   "theorems": [
    "WG.Reason.C71_safe_partial",
    "WG.Reason.ResDemo.C71_counterexample"
   ],
   "note": "Without hyperresolution and function terms, all other settings. Missing because false: with the standard settings the buffer of a partial result is freed while it is used (counterexample theorem); with function terms comparing reads past its terms (C67, C68)."
  },
  {
   "property": "C72",
   "status": "proved",
   "theorems": [
    "WG.Serve.C72_decision",
    "WG.Serve.C72_actions",
    "WG.Serve.C72_locked",
    "WG.Serve.C72_outside",
    "WG.Serve.C72_weaker",
    "WG.Serve.C72_served",
    "WG.Serve.C72_insert_served",
    "WG.Serve.C72_drop_served",
    "WG.Serve.C72_create_served",
    "WG.Serve.exGranted",
    "WG.Serve.exAdmin"
   ],
   "note": "All configurations, clients, requests (as parameters and values), sets of existing databases and results of atoi. A list that is not in the configuration file is empty (max_dbase_size is left uninitialised by the code, see DESIGN.md). What the operations do after the database is attached is not part of this model."
  },
  {
   "property": "C73",
   "status": "partial",
   "theorems": [
    "WG.Serve.C73_safe",
    "WG.Serve.C73_refused",
    "WG.Serve.C73_partial",
    "WG.Serve.C73_roundtrip",
    "WG.Serve.C73_length_partial",
    "WG.Serve.C73_length_counterexample",
    "WG.Serve.C73_counterexample"
   ],
   "note": "All queries. Missing because false: codes with the digits a to f are decoded wrongly, and a query of exactly 2000 bytes overflows the buffer of the programs that are not the server (counterexample theorems)."
  },
  {
   "property": "C74",
   "status": "partial",
   "theorems": [
    "WG.Serve.C74_search_partial",
    "WG.Serve.C74_count",
    "WG.Serve.C74_control_counterexample",
    "WG.Serve.C74_language_counterexample",
    "WG.Serve.C74_memory_counterexample",
    "WG.Serve.C74_empty_counterexample",
    "WG.Serve.C74_jsonp_counterexample",
    "WG.Serve.C74_cycle_counterexample",
    "WG.Serve.C74_nested_partial",
    "WG.Serve.C74_nested_counterexample",
    "WG.Serve.demo_search",
    "WG.Serve.demo_count",
    "WG.Serve.demo_nested_fits",
    "WG.Serve.demo_nested"
   ],
   "note": "All records and values that fit, all settings, nested records of any depth without cycles, realloc that succeeds. Missing because false: many control characters, languages over 97 bytes, failing realloc, empty CSV answers, long jsonp names, nested records with cycles, nested records too long for the buffer (counterexample theorems)."
  },
  {
   "property": "C75",
   "status": "partial",
   "theorems": [
    "WG.Serve.C75_partial",
    "WG.Serve.C75_nested_partial",
    "WG.Serve.C75_csv_partial",
    "WG.Serve.C75_counterexample",
    "WG.Serve.C75_language_counterexample",
    "WG.Serve.C75_int_counterexample",
    "WG.Serve.demo_json",
    "WG.Serve.demo_json_nested",
    "WG.Serve.demo_csv"
   ],
   "note": "All lists of records whose values fit and are shown, and nested records of any depth without cycles. That %g prints a number is a hypothesis on each double. Missing because false: quotes, backslashes and control characters in URIs, XML literals, characters, blobs and strings with a language, integers over 32 bits (counterexample theorems)."
  },
  {
   "property": "C76",
   "status": "partial",
   "theorems": [
    "WG.Serve.C76_search_partial",
    "WG.Serve.C76_fields_partial",
    "WG.Serve.C76_count_partial",
    "WG.Serve.C76_ids_partial",
    "WG.Serve.C76_delete_partial",
    "WG.Serve.C76_delete_fields_partial",
    "WG.Serve.C76_delete_ids_partial",
    "WG.Serve.C76_zero_counterexample",
    "WG.Serve.C76_delete_from_counterexample",
    "WG.Serve.C76_forged_counterexample",
    "WG.Serve.C76_twice_counterexample",
    "WG.Serve.C76_thousand_counterexample",
    "WG.Serve.C76_update_counterexample",
    "WG.Serve.C76_negative_counterexample",
    "WG.Serve.demo_page",
    "WG.Serve.demo_fields",
    "WG.Serve.demo_counted",
    "WG.Serve.demo_ids",
    "WG.Serve.demo_delete",
    "WG.Serve.demo_delete_fields",
    "WG.Serve.demo_delete_ids"
   ],
   "note": "All reachable databases, lists of records, from and count below 2^31. The list of records met is a parameter (the scan, or the rows of C25). Missing because false: deletion with from, count=0 with conditions, negative from, record numbers that are no records, are repeated or are 1000, update (counterexample theorems). Missing: records without fields, index failures during a deletion."
  },
  {
   "property": "C77",
   "status": "partial",
   "theorems": [
    "WG.Serve.C77_partial",
    "WG.Serve.C77_rights_partial",
    "WG.Serve.C77_size_counterexample",
    "WG.Serve.C77_spaces_counterexample",
    "WG.Serve.C77_write_counterexample",
    "WG.Serve.C77_line_counterexample",
    "WG.Serve.C77_word_counterexample",
    "WG.Serve.C77_behind_counterexample",
    "WG.Serve.C77_empty_counterexample",
    "WG.Serve.demo_conf",
    "WG.Serve.demo_conf_unknown",
    "WG.Serve.demo_conf_rights"
   ],
   "note": "All files below 512000 bytes made of lines of the grammar, whatever is in memory behind them. Missing because false: longer files, a last line of spaces without new line, lines without =, several words in a line, the empty file (counterexample theorems). A file that cannot be opened is in C83, memory that runs out is not modelled."
  },
  {
   "property": "C78",
   "status": "partial",
   "theorems": [
    "WG.Serve.C78_partial",
    "WG.Serve.C78_read_partial",
    "WG.Serve.C78_refused",
    "WG.Serve.C78_kind",
    "WG.Serve.C78_number_counterexample",
    "WG.Serve.C78_field_counterexample",
    "WG.Serve.C78_empty_counterexample",
    "WG.Serve.C78_negative_counterexample",
    "WG.Serve.C78_record_counterexample",
    "WG.Serve.C78_default_counterexample",
    "WG.Serve.C78_shift_counterexample",
    "WG.Serve.demo_asks",
    "WG.Serve.demo_cond",
    "WG.Serve.demo_cond_rows",
    "WG.Serve.demo_refused"
   ],
   "note": "All parameters, all databases and indexes of C25. Missing because false: numbers outside of int, empty values, negative numbers, numbers that are no records with type=record (counterexample theorems), and the gap of C25. The encoding of values is a parameter (C52), doubles are the texts given to strtod."
  },
  {
   "property": "C79",
   "status": "partial",
   "theorems": [
    "WG.Serve.Pool.C79_order",
    "WG.Serve.Pool.C79_served",
    "WG.Serve.Pool.C79_exclusive",
    "WG.Serve.Pool.C79_woken",
    "WG.Serve.Pool.C79_progress",
    "WG.Serve.Pool.C79_account",
    "WG.Serve.Pool.C79_dropped_partial",
    "WG.Serve.Pool.C79_full_counterexample",
    "WG.Serve.Pool.demo_pool",
    "WG.Serve.Pool.demo_woken"
   ],
   "note": "All numbers of threads, queue sizes above 0, schedules and spurious wake-ups; errors of the pthread functions are left out. Missing because false: a connection that arrives while the queue is full is dropped (counterexample theorem). Progress: some step is possible, fairness of the scheduler is not modelled."
  },
  {
   "property": "C80",
   "status": "partial",
   "theorems": [
    "WG.Serve.Http.C80_get_partial",
    "WG.Serve.Http.C80_post_partial",
    "WG.Serve.Http.C80_method",
    "WG.Serve.Http.C80_none_partial",
    "WG.Serve.Http.C80_short_partial",
    "WG.Serve.Http.C80_header",
    "WG.Serve.Http.C80_freed_counterexample",
    "WG.Serve.Http.C80_stale_counterexample",
    "WG.Serve.Http.C80_silent_counterexample",
    "WG.Serve.Http.C80_unset_counterexample",
    "WG.Serve.Http.C80_short_counterexample",
    "WG.Serve.Http.C80_post_counterexample",
    "WG.Serve.Http.C80_name_counterexample",
    "WG.Serve.Http.demo_http",
    "WG.Serve.Http.demo_http_met"
   ],
   "note": "GET with a query and other methods: all states of the thread. Missing because false: requests without a query or without a version are refused by new threads only, and the data of a POST must happen to be followed by a 0 byte (counterexample theorems). Failures of recv and encryption are not modelled."
  },
  {
   "property": "C81",
   "status": "partial",
   "theorems": [
    "WG.Ext.C81_same_object",
    "WG.Ext.C81_immediate",
    "WG.Ext.C81_owner",
    "WG.Ext.C81_rec_owner",
    "WG.Ext.C81_register_partial",
    "WG.Ext.C81_refused",
    "WG.Ext.C81_backlinks_partial",
    "WG.Ext.C81_delete",
    "WG.Ext.C81_history_partial",
    "WG.Ext.demo_delete",
    "WG.Ext.C81_full_counterexample",
    "WG.Ext.C81_replaced_counterexample",
    "WG.Ext.C81_foreign_counterexample",
    "WG.Ext.demo_owner",
    "WG.Ext.demo_one"
   ],
   "note": "Translation and owner: all values and all places of the databases in user memory. Missing because false: more than 20 databases are not registered although success is reported, and a field with a record of another database is not overwritten correctly (counterexamples)."
  },
  {
   "property": "C82",
   "status": "partial",
   "theorems": [
    "WG.Serve.Wire.C82_defined",
    "WG.Serve.Wire.C82_get_partial",
    "WG.Serve.Wire.C82_post_partial",
    "WG.Serve.Wire.C82_outside",
    "WG.Serve.Wire.C82_token",
    "WG.Serve.Wire.C82_silent_counterexample",
    "WG.Serve.Wire.demo_wire",
    "WG.Serve.Wire.demo_wire_met"
   ],
   "note": "Addresses: all bytes and all states of the thread. GET and POST with encoded parameters: exact. Missing because false: a token must be in the query that is processed, but this may be what is left of another client's request (counterexample); small letters in codes (C73) and the end of POST data (C80)."
  },
  {
   "property": "C83",
   "status": "partial",
   "theorems": [
    "WG.Serve.Wire.C83_missing",
    "WG.Serve.Wire.C83_unknown",
    "WG.Serve.Wire.C83_server_partial",
    "WG.Serve.Wire.C83_cgi_get_partial",
    "WG.Serve.Wire.C83_command_partial",
    "WG.Serve.Wire.C83_cgi_rights",
    "WG.Serve.Wire.C83_empty_counterexample",
    "WG.Serve.Wire.C83_long_counterexample",
    "WG.Serve.Wire.C83_post_counterexample",
    "WG.Serve.Wire.demo_main",
    "WG.Serve.Wire.demo_unknown"
   ],
   "note": "Rights: all environments and inputs. Missing because false: a file that is empty gives all rights, a query of 2000 bytes and the data of a POST are read or written outside of their buffers (counterexamples)."
  },
  {
   "property": "C84",
   "status": "partial",
   "theorems": [
    "WG.Query.C84_typed_partial",
    "WG.Query.C84_illegal_scan",
    "WG.Query.C84_illegal_counterexample",
    "WG.Query.placedDB_wf",
    "WG.Query.demo_typed",
    "WG.Param.C84_words",
    "WG.Param.C84_strings",
    "WG.Param.C84_numbers",
    "WG.Param.demo_alike"
   ],
   "note": "All databases and indexes of C27, all words that compare alike; the encodings of a string, XML literal, URI, integer or double (not NaN) at different times do, the other types have one word. Missing because false: values that cannot be encoded, in a column with an index (counterexample theorem)."
  }
 ]
}