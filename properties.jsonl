{"id": "C01", "title": "Integer encode/decode round trip", "statement": "For every machine integer v, decoding the value returned by wg_encode_int(v) with wg_decode_int gives v back, whether the value is kept inline or stored in the database, and wg_get_encoded_type reports the integer type.", "quantifier": "all 64-bit integers v, all database states with room for one more full integer", "why_tests_cant": "2^64 inputs and an inline/stored boundary at +-2^60", "anchors": ["Db/dbdata.c:wg_encode_int", "Db/dbdata.c:wg_decode_int", "Db/dbdata.h:encode_smallint", "Db/dbdata.h:fits_smallint"]}
{"id": "C02", "title": "Inline scalar round trips and range rejection", "statement": "Chars, dates, times, variables and anonymous constants encoded with the wg_encode_* functions decode to the same value; dates and times outside the documented range are refused with WG_ILLEGAL and never produce a value that decodes to something else.", "quantifier": "all chars, all ints given as dates or times, all variable numbers that fit, all anonymous constant indexes", "why_tests_cant": "the sign-extension and shift behaviour has to hold on every bit pattern", "anchors": ["Db/dbdata.c:wg_encode_char", "Db/dbdata.c:wg_encode_date", "Db/dbdata.c:wg_encode_time", "Db/dbdata.c:wg_encode_var", "Db/dbdata.h"]}
{"id": "C03", "title": "Encoded values are self-describing and unambiguous", "statement": "wg_get_encoded_type of a value produced by wg_encode_X is X, values of different types are never encoded to the same word, two different inline values are never encoded to the same word, and no encoder returns the reserved word WG_ILLEGAL on success.", "quantifier": "all values of all data types, all object offsets the allocators can return", "why_tests_cant": "quantifies over all pairs of encodable values", "anchors": ["Db/dbdata.c:wg_get_encoded_type", "Db/dbdata.h"]}
{"id": "C04", "title": "Calendar conversion round trip", "statement": "For every valid proleptic Gregorian date with year >= 1, wg_date_to_ymd(wg_ymd_to_date(y,m,d)) = (y,m,d); consecutive days get consecutive numbers, so date comparison agrees with calendar order.", "quantifier": "all valid dates (no upper bound on the year in the model)", "why_tests_cant": "infinitely many dates, leap-year corner cases at centuries and 400-year cycles", "anchors": ["Db/dbdata.c:wg_ymd_to_date", "Db/dbdata.c:wg_date_to_ymd", "Db/dbdata.c:ymd_to_scalar", "Db/dbdata.c:scalar_to_ymd"]}
{"id": "C05", "title": "Time of day conversion round trip", "statement": "For every valid hour, minute, second and 1/100 second, wg_time_to_hms(wg_hms_to_time(h,m,s,f)) = (h,m,s,f), the conversion is strictly monotone, and fields outside the accepted range are refused.", "quantifier": "all int quadruples", "why_tests_cant": "all combinations of four ints including invalid ones", "anchors": ["Db/dbdata.c:wg_hms_to_time", "Db/dbdata.c:wg_time_to_hms"]}
{"id": "C06", "title": "Value comparison is a consistent total order", "statement": "The comparison used by every query and index (WG_COMPARE) is reflexive, antisymmetric in sign (a<b iff b>a), transitive and total over all stored values other than floating point NaN, including records compared by content up to the built-in nesting depth.", "quantifier": "all pairs and triples of encoded values, all record graphs (also cyclic ones), all database contents", "why_tests_cant": "three-way quantification over all values and all record graphs", "anchors": ["Db/dbcompare.c:wg_compare", "Db/dbcompare.h:WG_COMPARE"]}
{"id": "C07", "title": "Comparison agrees with the decoded values", "statement": "Two values compare equal only if they have the same type and the same decoded content (for strings: content ignoring the language tag; for URIs and XML literals: content and prefix/type); integers, dates, times, doubles and strings are ordered as their decoded values are ordered.", "quantifier": "all pairs of encoded values and all database contents", "why_tests_cant": "quantifies over all pairs of values", "anchors": ["Db/dbcompare.c:wg_compare"]}
{"id": "C08", "title": "Live variable-length objects never overlap", "statement": "In every state reachable by creating and freeing records and long strings, the memory of any two live objects is disjoint, lies inside the database segment and never overlaps free memory or allocator bookkeeping; writing anywhere inside one object changes no other object and does not disturb the allocator.", "quantifier": "all sequences of allocations and frees of any sizes, in any order, over any segment size", "why_tests_cant": "the free-list splitting, merging and designated-victim logic has unboundedly many histories", "anchors": ["Db/dballoc.c:wg_alloc_gints", "Db/dballoc.c:wg_free_object", "Db/dballoc.c:split_free", "Db/dballoc.c:extend_varlen_area", "Db/dballoc.c:init_subarea_freespace"]}
{"id": "C09", "title": "Allocating or freeing preserves all other objects", "statement": "An allocation or a free leaves every word of every other live object unchanged, and the size recorded for every other live object unchanged.", "quantifier": "all reachable heap states, all live objects, all requested sizes", "why_tests_cant": "frame property over all histories", "anchors": ["Db/dballoc.c:wg_alloc_gints", "Db/dballoc.c:wg_free_object"]}
{"id": "C10", "title": "Freed memory is coalesced and reusable", "statement": "After any history no two free blocks are adjacent; after a free, a request not larger than the freed object can be satisfied without growing the database; freed memory is never lost.", "quantifier": "all reachable heap states and all frees", "why_tests_cant": "depends on all previous history of neighbours", "anchors": ["Db/dballoc.c:wg_free_object", "Db/dballoc.c:wg_freebuckets_index"]}
{"id": "C11", "title": "Fixed-size cells are handed out exclusively", "statement": "A list cell, short string, double, full integer or index node returned by the fixed-length allocator is not in use by anybody else, stays inside its area, and after being freed can be handed out again; growing an area never disturbs cells in use.", "quantifier": "all interleavings of allocations and frees in all fixed-length areas, any segment size", "why_tests_cant": "unbounded histories, area growth", "anchors": ["Db/dballoc.c:wg_alloc_fixlen_object", "Db/dballoc.c:extend_fixedlen_area", "Db/dballoc.c:make_subarea_freelist", "Db/dballoc.c:wg_free_fixlen_object"]}
{"id": "C12", "title": "Segment chunks are disjoint and bounded", "statement": "All memory chunks carved from the database segment are disjoint, 8-byte aligned and inside the segment, and the reported free size equals segment size minus what has been handed out (or 0 when below the minimum).", "quantifier": "all sequences of chunk requests, all segment sizes", "why_tests_cant": "all sequences of area growth", "anchors": ["Db/dballoc.c:alloc_db_segmentchunk", "Db/dballoc.c:wg_database_freesize", "Db/dballoc.c:wg_database_size"]}
{"id": "C13", "title": "Field read returns the last value written", "statement": "After a successful wg_set_field(rec, i, v), wg_get_field(rec, i) returns v, every other field of every record keeps its value, a fresh record of length n has n fields all NULL, and wg_get_record_len keeps returning the creation length.", "quantifier": "all databases, records, field numbers, values and histories of operations", "why_tests_cant": "history and aliasing quantification", "anchors": ["Db/dbdata.c:wg_set_field", "Db/dbdata.c:wg_get_field", "Db/dbdata.c:wg_create_record", "Db/dbdata.c:wg_get_record_len"]}
{"id": "C14", "title": "Out-of-range accesses are refused without effect", "statement": "wg_set_field, wg_set_new_field, wg_set_atomic_field and wg_update_atomic_field with a field number outside 0..len-1 return an error and change nothing; wg_get_field returns WG_ILLEGAL.", "quantifier": "all records, all integer field numbers including negative ones", "why_tests_cant": "all ints and all records", "anchors": ["Db/dbdata.h:recordcheck", "Db/dbdata.c:wg_set_field", "Db/dbdata.c:wg_get_field"]}
{"id": "C15", "title": "Record iteration visits every data record exactly once", "statement": "Starting with wg_get_first_record and following wg_get_next_record until NULL visits every live data record exactly once and nothing else (no deleted records, strings, or non-data records); the raw variants additionally visit non-data records.", "quantifier": "all reachable databases, with any number of memory areas and any mix of free blocks and strings", "why_tests_cant": "unbounded heaps and all layouts", "anchors": ["Db/dbdata.c:wg_get_first_record", "Db/dbdata.c:wg_get_next_record", "Db/dbdata.c:wg_get_next_raw_record"]}
{"id": "C16", "title": "Records that are referenced cannot be deleted", "statement": "wg_delete_record refuses (returns -1, no effect) exactly when some field of some record still refers to the record; therefore no record field ever refers to a deleted record.", "quantifier": "all histories of create, set field and delete over all record graphs", "why_tests_cant": "all reference graphs including cycles and repeated references", "anchors": ["Db/dbdata.c:wg_delete_record", "Db/dbdata.c:wg_set_field", "Db/dbdata.c:wg_set_new_field"]}
{"id": "C17", "title": "Parent iteration enumerates the referring records", "statement": "Following wg_get_first_parent and wg_get_next_parent until NULL visits every record that has a field referring to the given record, and terminates.", "quantifier": "all record graphs and all records", "why_tests_cant": "all graphs, including a parent that refers to the same record from several fields", "anchors": ["Db/dbdata.c:wg_get_first_parent", "Db/dbdata.c:wg_get_next_parent"]}
{"id": "C18", "title": "Long string reference counting is exact", "statement": "The reference count kept for every long string equals the number of record fields holding it; a string in use by some record field is never freed and its storage is released when the last field referring to it is overwritten or its record deleted.", "quantifier": "all histories of set, overwrite and delete over any number of records sharing strings", "why_tests_cant": "unbounded sharing patterns", "anchors": ["Db/dbdata.c:wg_set_field", "Db/dbdata.c:free_field_encoffset", "Db/dbdata.c:wg_delete_record", "Db/dbhash.c:wg_remove_from_strhash"]}
{"id": "C19", "title": "String interning finds exactly the equal string", "statement": "Encoding a long string, URI, XML literal or blob returns an existing object iff a live one with the same type, bytes and extra string (language, prefix, type) exists in the database, and never one with different content, whatever the hash collisions.", "quantifier": "all strings, all types, all contents of the hash table and all collision patterns", "why_tests_cant": "all collision patterns and histories of insertion and removal", "anchors": ["Db/dbdata.c:find_create_longstr", "Db/dbhash.c:wg_find_strhash_bucket", "Db/dbhash.c:wg_right_strhash_bucket", "Db/dbhash.c:wg_remove_from_strhash"]}
{"id": "C20", "title": "String encode/decode round trip", "statement": "Decoding an encoded string, URI, XML literal or blob returns the same bytes, length and extra string, for short inline-cell strings and long strings alike.", "quantifier": "all byte strings and lengths, all types, with and without extra string", "why_tests_cant": "unbounded lengths, boundary between short and long representation, length-difference byte in the header", "anchors": ["Db/dbdata.c:wg_encode_unistr", "Db/dbdata.c:wg_encode_uniblob", "Db/dbdata.c:wg_decode_unistr", "Db/dbdata.c:wg_decode_unistr_len"]}
{"id": "C21", "title": "Atomic field updates never lose an update", "statement": "Concurrent wg_add_int_atomic_field calls on one integer field end with the sum of all successful increments; wg_update_atomic_field succeeds only if the field still held the expected old value; unsupported values and backlinked/indexed fields are refused.", "quantifier": "all interleavings of any number of processes, all increments and field values", "why_tests_cant": "all schedules", "anchors": ["Db/dbdata.c:wg_add_int_atomic_field", "Db/dbdata.c:wg_update_atomic_field", "Db/dbdata.c:wg_set_atomic_field"]}
{"id": "C22", "title": "T-tree index holds exactly the inserted records in key order", "statement": "After any sequence of row insertions and removals, the rows found by walking the T-tree from its first node to its last are exactly the rows inserted and not yet removed, in non-decreasing key order.", "quantifier": "all sequences of insertions and removals, all keys (with duplicates)", "why_tests_cant": "unbounded trees, rotations and merges", "anchors": ["Db/dbindex.c:ttree_add_row", "Db/dbindex.c:ttree_remove_row", "Db/dbindex.c:db_rotate_ttree"]}
{"id": "C23", "title": "T-tree stays balanced", "statement": "After any sequence of insertions and removals the two subtrees of every node differ in height by at most one and the stored heights are the real heights, so lookups take logarithmic time.", "quantifier": "all sequences of insertions and removals", "why_tests_cant": "all rotation cases in all shapes", "anchors": ["Db/dbindex.c:ttree_add_row", "Db/dbindex.c:ttree_remove_row", "Db/dbindex.c:db_rotate_ttree", "Db/dbindex.c:db_which_branch_causes_overweight"]}
{"id": "C24", "title": "T-tree lookup is exact", "statement": "Looking a key up in a T-tree finds a row with that key iff one is present, and the leftmost/rightmost searches locate the first/last position of the key in key order, also with duplicates spanning several nodes.", "quantifier": "all well-formed trees, all keys", "why_tests_cant": "all tree shapes and duplicate distributions", "anchors": ["Db/dbindex.c:wg_search_ttree_index", "Db/dbindex.c:wg_search_ttree_leftmost", "Db/dbindex.c:wg_search_ttree_rightmost", "Db/dbindex.c:wg_search_tnode_first", "Db/dbindex.c:wg_search_tnode_last"]}
{"id": "C25", "title": "Indexed query returns the same rows as a full scan", "statement": "wg_make_query followed by wg_fetch until NULL returns exactly the records that satisfy every condition, each once, regardless of whether a T-tree index (with or without template) is used.", "quantifier": "all databases, all argument lists (any number of conditions on any columns), all index configurations", "why_tests_cant": "all combinations of bounds, duplicates and tree shapes", "anchors": ["Db/dbquery.c:internal_build_query", "Db/dbquery.c:find_ttree_bounds", "Db/dbquery.c:most_restricting_column", "Db/dbquery.c:check_arglist", "Db/dbquery.c:wg_fetch"]}
{"id": "C26", "title": "Prefetched results and row limit", "statement": "The rows returned by wg_fetch on a prefetched query are the rows found when the query was made, in order, their number equals res_count, and with a row limit n exactly the first min(n, total) rows are returned.", "quantifier": "all result sizes (including exact multiples of the page size) and all limits", "why_tests_cant": "unbounded result sizes", "anchors": ["Db/dbquery.c:internal_build_query", "Db/dbquery.c:wg_fetch", "Db/dbquery.c:append_resultset", "Db/dbquery.c:fetch_resultset"]}
{"id": "C27", "title": "wg_find_record enumerates all matches", "statement": "Calling wg_find_record repeatedly, passing the previous result, returns every record whose column satisfies the condition exactly once and then NULL, with or without an index.", "quantifier": "all databases, columns, conditions and values", "why_tests_cant": "all tree shapes and duplicate distributions", "anchors": ["Db/dbquery.c:wg_find_record"]}
{"id": "C28", "title": "Indexes follow every data change", "statement": "After any sequence of record creations, field updates and deletions, each T-tree index contains exactly the live data records that are long enough for the index column and match its template, each once.", "quantifier": "all histories of API calls, all index sets, all templates", "why_tests_cant": "all histories and combinations of indexes", "anchors": ["Db/dbindex.c:wg_index_add_field", "Db/dbindex.c:wg_index_add_rec", "Db/dbindex.c:wg_index_del_field", "Db/dbindex.c:wg_index_del_rec", "Db/dbdata.c:wg_set_field"]}
{"id": "C29", "title": "Hash index lookup returns exactly the equal rows", "statement": "A lookup in a hash index returns exactly the rows stored under the same key bytes after any history of insertions and removals; two keys share key bytes only if their values are equal column by column.", "quantifier": "all histories, all keys, all hash collision patterns", "why_tests_cant": "collision patterns and all key pairs", "anchors": ["Db/dbhash.c:wg_idxhash_store", "Db/dbhash.c:wg_idxhash_remove", "Db/dbhash.c:wg_idxhash_find", "Db/dbhash.c:wg_decode_for_hashing", "Db/dbindex.c:hash_extend_prefix"]}
{"id": "C30", "title": "Offset translation table is a map", "statement": "After any sequence of successful insertions of distinct keys, the extendible hash table used by journal replay returns for each inserted key its value and reports every other key as absent, through all bucket splits and directory doublings.", "quantifier": "all insertion sequences and all hash functions", "why_tests_cant": "all split patterns", "anchors": ["Db/dbhash.c:wg_ginthash_addkey", "Db/dbhash.c:wg_ginthash_getkey", "Db/dbhash.c:ginthash_splitbucket", "Db/dbhash.c:grow_ginthash"]}
{"id": "C31", "title": "Result-set intersection and duplicate removal are exact", "statement": "Combining result sets of a document query keeps exactly the common rows (each once for duplicate-free inputs) and duplicate removal keeps exactly one copy of each row, whichever of the two strategies (nested loop or hash set) is chosen by size.", "quantifier": "all result sets of any size below the hash-set capacity limit", "why_tests_cant": "both strategies for all sizes, probe sequences for all table sizes", "anchors": ["Db/dbquery.c:intersect_resultset", "Db/dbquery.c:unique_resultset", "Db/dbhash.c:wg_dhash_addkey", "Db/dbhash.c:wg_dhash_haskey", "Db/dbhash.c:dhash_lookup"]}
{"id": "C32", "title": "Reader-preference lock gives exclusive writers", "statement": "With the default spin lock, at no time do two writers hold the database lock or a writer and a reader hold it together, for any number of processes, including processes that time out while waiting.", "quantifier": "all interleavings of atomic steps of any number of processes", "why_tests_cant": "all schedules", "anchors": ["Db/dblock.c:db_rpspin_wlock", "Db/dblock.c:db_rpspin_wulock", "Db/dblock.c:db_rpspin_rlock", "Db/dblock.c:db_rpspin_rulock"]}
{"id": "C33", "title": "Writer-preference lock gives exclusive writers", "statement": "With the writer-preference spin lock mutual exclusion holds for all schedules, and once a writer is waiting no new reader acquires the lock before that writer leaves, timeouts included (up to a reader that had already passed its check).", "quantifier": "all interleavings of atomic steps of any number of processes", "why_tests_cant": "all schedules", "anchors": ["Db/dblock.c:db_wpspin_wlock", "Db/dblock.c:db_wpspin_wulock", "Db/dblock.c:db_wpspin_rlock", "Db/dblock.c:db_wpspin_rulock"]}
{"id": "C34", "title": "Queued lock is fair and exclusive", "statement": "With the task-fair queue lock, locks are granted in arrival order, a writer holds the lock alone, and a process returns from the lock call only when it has been granted the lock.", "quantifier": "all interleavings of any number of processes and wake-ups", "why_tests_cant": "all schedules, including delayed wake-ups", "anchors": ["Db/dblock.c:tfqueue_wlock", "Db/dblock.c:tfqueue_wulock", "Db/dblock.c:tfqueue_rlock", "Db/dblock.c:tfqueue_rulock"]}
{"id": "C35", "title": "Dump and import restore the database", "statement": "Importing a file written by wg_dump into a segment at least as large reproduces every byte of the used area except segment size, checksum and lock state, so every record and field reads the same.", "quantifier": "all database contents, all target segment sizes", "why_tests_cant": "all memory contents", "anchors": ["Db/dbdump.c:wg_dump_internal", "Db/dbdump.c:wg_import_dump", "Db/dbdump.c:wg_check_dump"]}
{"id": "C36", "title": "Dump file corruption is detected", "statement": "wg_check_dump accepts every file written by wg_dump on a quiescent database and rejects a file that was truncated, extended, had any one byte changed at any position, or had any run of up to four adjacent bytes changed (as long as the run does not extend from the stored checksum into the bytes after it).", "quantifier": "all dump contents of any length, all positions and values of the corruption", "why_tests_cant": "all contents, all corruptions", "anchors": ["Db/dbdump.c:wg_check_dump", "Db/crc1.h:update_crc32"]}
{"id": "C37", "title": "Dump is safe to run concurrently", "statement": "A dump taken with wg_dump while other processes write under the lock discipline is a consistent snapshot that wg_check_dump accepts.", "quantifier": "all interleavings of a dump with locked writers", "why_tests_cant": "all schedules", "anchors": ["Db/dbdump.c:wg_dump_internal", "Db/dblock.c"]}
{"id": "C38", "title": "Journal number coding round trip", "statement": "Every 64-bit number written to the journal is read back unchanged and consumes exactly the bytes written, whatever follows in the file.", "quantifier": "all 64-bit values and all following bytes", "why_tests_cant": "2^64 inputs and all suffixes", "anchors": ["Db/dblog.c:enc_varint", "Db/dblog.c:fget_varint"]}
{"id": "C39", "title": "Journal entries are parsed back exactly; torn journals are detected", "statement": "Reading a journal written by a sequence of logged operations yields exactly that sequence; if the file is cut at an arbitrary byte (crash), reading yields exactly the operations fully contained in the remaining bytes and reports an error if and only if the cut is inside an operation.", "quantifier": "all sequences of logged operations, all crash points", "why_tests_cant": "all crash points in all histories", "anchors": ["Db/dblog.c:recover_journal", "Db/dblog.c:recover_encode", "Db/dblog.c:wg_log_create_record", "Db/dblog.c:wg_log_encode", "Db/dblog.c:wg_log_set_field"]}
{"id": "C40", "title": "Journal replay reconstructs the database", "statement": "Replaying the journal of a session into a database with the initial contents of that session gives a database with the same records and field values as the session left, up to renaming of storage offsets.", "quantifier": "all histories of logged operations, all allocators", "why_tests_cant": "all histories, including offset reuse after deletion", "anchors": ["Db/dblog.c:recover_journal", "Db/dblog.c:add_tran_offset", "Db/dblog.c:translate_offset", "Db/dblog.c:translate_encoded"]}
{"id": "C41", "title": "Memory pool allocations are disjoint", "statement": "Every block returned by wg_alloc_mpool lies inside memory obtained by the pool, is 4-byte aligned and overlaps no block returned before.", "quantifier": "all sequences of requests of any positive sizes, all addresses returned by malloc", "why_tests_cant": "unbounded histories of extensions", "anchors": ["Db/dbmpool.c:wg_create_mpool", "Db/dbmpool.c:extend_mpool", "Db/dbmpool.c:wg_alloc_mpool"]}
{"id": "C42", "title": "Memory pool atoms and pairs read back", "statement": "wg_first/wg_rest of wg_mkpair(x,y) give x and y; wg_atomtype, wg_atomstr1 and wg_atomstr2 of wg_mkatom(t,s1,s2) give t, s1 and s2 (an empty string reads as NULL), and the atom stays inside the allocated block.", "quantifier": "all types and strings of any length", "why_tests_cant": "unbounded strings", "anchors": ["Db/dbmpool.c:wg_mkatom", "Db/dbmpool.c:wg_atomstr1", "Db/dbmpool.c:wg_atomstr2", "Db/dbmpool.c:wg_mkpair"]}
{"id": "C43", "title": "Index catalogue is consistent", "statement": "After any sequence of wg_create_multi_index and wg_drop_index calls, wg_multi_column_to_index_id finds an index iff one with that type, column set and template was created and not dropped; wg_get_all_indexes lists each existing index exactly once.", "quantifier": "all histories of index creations and drops", "why_tests_cant": "all histories", "anchors": ["Db/dbindex.c:wg_create_multi_index", "Db/dbindex.c:wg_drop_index", "Db/dbindex.c:wg_multi_column_to_index_id", "Db/dbindex.c:wg_get_all_indexes"]}
{"id": "C44", "title": "Column order of an index does not matter", "statement": "wg_create_multi_index and wg_multi_column_to_index_id give the same result for every order of the column list. A list with a repeated column or a column outside 0..127 is refused; the columns of an index are stored in increasing order.", "quantifier": "all column lists", "why_tests_cant": "all permutations and repetitions", "anchors": ["Db/dbindex.c:sort_columns", "Db/dbindex.c:wg_create_multi_index", "Db/dbindex.c:wg_multi_column_to_index_id"]}
{"id": "C45", "title": "Failed operations leave the database usable", "statement": "A failed wg_create_index, wg_set_field or wg_delete_record leaves existing data and later operations on it unaffected.", "quantifier": "all failing calls in all states", "why_tests_cant": "all failure points", "anchors": ["Db/dbindex.c:wg_create_multi_index", "Db/dbindex.c:wg_drop_index", "Db/dbdata.c:wg_set_field"]}
{"id": "C46", "title": "Document lookup finds the enclosing document", "statement": "wg_find_document(rec) returns a top-level document from which rec can be reached in fewer than seven links, and returns NULL only if there is none.", "quantifier": "all record graphs and all records", "why_tests_cant": "all graphs", "anchors": ["Db/dbschema.c:wg_find_document", "Db/dbschema.c:find_document_recursive"]}
{"id": "C47", "title": "Document deletion removes exactly the document", "statement": "wg_delete_document on a tree-shaped document nested less than seven levels deep deletes all of its records and no other record.", "quantifier": "all tree-shaped documents and all surrounding databases", "why_tests_cant": "all trees", "anchors": ["Db/dbschema.c:wg_delete_document", "Db/dbschema.c:delete_record_recursive"]}
{"id": "C48", "title": "Shared segment permissions are normalised", "statement": "The permission mode used for a new shared memory segment always lets the owner read and write, never grants execute or special bits, and gives group and others either read-write or nothing and never more than requested.", "quantifier": "all int modes", "why_tests_cant": "all 2^32 modes", "anchors": ["Db/dbmem.c:normalize_perms"]}
{"id": "C49", "title": "Header compatibility check", "statement": "wg_check_header_compat accepts a memory image iff its magic mark, version and feature words equal those of the library, and reports byte-swapped images as wrong endianness.", "quantifier": "all header contents", "why_tests_cant": "all header contents", "anchors": ["Db/dbmem.c:wg_check_header_compat"]}
{"id": "C50", "title": "Free-list bucket choice is sound", "statement": "The free list consulted for a size holds only blocks large enough: exact lists hold exactly their size, range lists are ordered by size so any block in a higher list fits.", "quantifier": "all block sizes", "why_tests_cant": "all sizes", "anchors": ["Db/dballoc.c:wg_freebuckets_index"]}
{"id": "C51", "title": "ISO date and time text is read back unchanged", "statement": "wg_strf_iso_datetime writes every day from 0001-01-01 to 9999-12-31 and every time of day as the 22 characters YYYY-MM-DDThh:mm:ss.pp. wg_strp_iso_date on that text gives back the day and wg_strp_iso_time on the part after the T gives back the time, so two different moments never have the same text. The text and its end mark never take more than 24 bytes, and for any text at all the two parsers return -1 or a value within the limits of the API.", "quantifier": "all 3652059 days times all 8640000 times of day; all texts for the parsers", "why_tests_cant": "the number of day and time combinations is about 3*10^13, and the set of input texts is unbounded", "anchors": ["Db/dbdata.c:wg_strf_iso_datetime", "Db/dbdata.c:wg_strp_iso_date", "Db/dbdata.c:wg_strp_iso_time", "Db/dbdata.c:scalar_to_ymd"]}
{"id": "C52", "title": "Query parameters compare like stored values and leave the database alone", "statement": "wg_encode_query_param_int, _double, _str, _xmlliteral and _uri return a value that decodes to the given data and extra string and has the given type, or WG_ILLEGAL with nothing changed if memory runs out. Only memory newly allocated for the parameter is written: every value stored in the database, and every other parameter, reads as before. WG_COMPARE of the parameter with any stored value gives the same result as with a stored value of the same type and content, and wg_free_query_param releases exactly the block that was allocated.", "quantifier": "all memories, all data, all addresses malloc may return, all sets of stored values", "why_tests_cant": "addresses and contents are unbounded; a write one byte outside of the block goes unnoticed in a test", "anchors": ["Db/dbquery.c:wg_encode_query_param_int", "Db/dbquery.c:encode_query_param_unistr", "Db/dbquery.c:wg_free_query_param"]}
{"id": "C53", "title": "Document queries return exactly the documents that contain all given pairs", "statement": "wg_make_json_query with a list of key-value pairs returns a query object from which wg_fetch delivers each document that contains every one of the pairs, at any nesting level and with arrays standing for their elements, exactly once, and no other document; the answer does not depend on which indexes exist or on the order of the pairs. NULL is returned only if memory runs out.", "quantifier": "all databases with documents made by any history, all lists of pairs, all combinations of indexes", "why_tests_cant": "documents, pairs and index configurations are unbounded; the code has four different paths per clause", "anchors": ["Db/dbquery.c:wg_make_json_query", "Db/dbquery.c:check_and_merge_recursively", "Db/dbquery.c:prepare_json_arglist"]}
{"id": "C54", "title": "JSON documents are imported completely or not at all visibly, and printed as they were read", "statement": "wg_parse_json_document stores an accepted text as a tree of new records that represents every element and member in order, marks it as document, and leaves all existing records and values as they were; it fails only if the text is malformed, nested too deeply or memory runs out, and then existing data is untouched as well and the database stays usable. wg_print_json_document of the stored document produces the document again, and wg_delete_document removes exactly what the import added. wg_check_json accepts exactly the texts that can be imported; wg_parse_json_file imports the whole file.", "quantifier": "all databases reached by any history, all texts of any size and nesting, all points at which an allocation fails, all allocator behaviours", "why_tests_cant": "texts are unbounded trees; the records are created and linked field by field while the allocator may fail at any step", "anchors": ["Db/dbjson.c:run_json_parser", "Db/dbjson.c:pop", "Db/dbjson.c:add_literal", "Db/dbjson.c:wg_print_json_document", "Db/dbjson.c:pretty_print_json", "Db/dbjson.c:wg_check_json", "Db/dbjson.c:wg_parse_json_file", "Db/dbschema.c:wg_create_triple"]}
{"id": "C55", "title": "JSON texts are read by the grammar, independently of how they are delivered", "statement": "wg_parse_json_document, wg_parse_json_fragment and wg_check_json accept exactly the JSON texts (RFC 8259 plus comments, integers of 64 bits) and read them as the value they stand for: escapes, surrogate pairs, numbers and nesting included. For any other bytes they return an error, never read outside the text, and existing data stays intact. The blocks in which the text is handed to the parser make no difference; wg_parse_json_file treats a file as wg_parse_json_document treats its contents, and changes nothing if the contents are not accepted by wg_check_json.", "quantifier": "all byte strings, all cuts into blocks, all databases, allocators and failure points, all behaviours of strtod", "why_tests_cant": "byte strings and nesting are unbounded, and the lexer saves and resumes partial tokens at every possible block boundary", "anchors": ["json/yajl_all.c:yajl_lex_lex", "json/yajl_all.c:yajl_lex_string", "json/yajl_all.c:yajl_lex_number", "json/yajl_all.c:yajl_string_decode", "json/yajl_all.c:yajl_parse_integer", "json/yajl_all.c:yajl_do_parse", "Db/dbjson.c:run_json_parser", "Db/dbjson.c:wg_check_json", "Db/dbjson.c:wg_parse_json_file"]}
{"id": "C56", "title": "What wg_print_json_document prints is JSON text for the same document", "statement": "The text printed for a stored document is a JSON text that stands for the document's value, and wg_parse_json_document reads it, into any database, as the same document (doubles up to the six decimals printed).", "quantifier": "all documents of any shape and contents, all databases it is read into, all allocators", "why_tests_cant": "documents are unbounded trees with arbitrary strings; every byte value, escape and nesting has to survive the round trip", "anchors": ["Db/dbjson.c:wg_print_json_document", "Db/dbjson.c:pretty_print_json", "json/yajl_all.c:yajl_gen_string", "json/yajl_all.c:yajl_string_encode2", "json/yajl_all.c:yajl_gen_number", "Db/dbjson.c:wg_parse_json_document"]}
{"id": "C57", "title": "The value that a text stands for", "statement": "wg_parse_and_encode and wg_parse_and_encode_param recognise a text as documented: the empty text is NULL, the decimal text of a 64-bit integer is that integer, digits with one decimal point are that double, YYYY-MM-DD is that date, hh:mm:ss with or without hundredths is that time, and any other text is the string itself.", "quantifier": "all texts, all behaviours of atof", "why_tests_cant": "texts are unbounded, and every text that is close to a number or date has to be kept as a string", "anchors": ["Db/dbutil.c:wg_parse_and_encode", "Db/dbutil.c:wg_parse_and_encode_param", "Db/dbutil.c:parse_input_type"]}
{"id": "C58", "title": "CSV import reads exactly the rows of the file", "statement": "wg_import_db_csv creates one record per line of a CSV file, in order, with one field per CSV field, holding the value that the content of the field stands for (quotes removed, doubled quotes undone, commas and line ends inside quotes kept); blank lines are skipped, and LF and CR LF are both line ends. Failures are reported. Whatever the bytes of the file, no memory outside of the buffers is accessed.", "quantifier": "all files of any number of lines, fields and bytes; all databases and failure points of the encoders and of record creation", "why_tests_cant": "files are unbounded, and quoting interacts with every byte and position", "anchors": ["Db/dbutil.c:wg_import_db_csv", "Db/dbutil.c:fread_csv"]}
{"id": "C59", "title": "CSV export and import are inverse", "statement": "A file written by wg_export_db_csv and read by wg_import_db_csv gives one record per exported record, with the same number of fields in the same order and the same values; the text of every value fits the buffer of the export.", "quantifier": "all databases of any number of records, fields and values, all databases the file is read into, all behaviours of %f and atof", "why_tests_cant": "strings can hold any bytes, quotes and separators included, and every value has to survive both directions", "anchors": ["Db/dbutil.c:wg_export_db_csv", "Db/dbutil.c:wg_fprint_record_csv", "Db/dbutil.c:snprint_value_csv", "Db/dbutil.c:csv_escaped_str", "Db/dbutil.c:wg_import_db_csv"]}
{"id": "C60", "title": "Printing a value stays inside the buffer and shows the value", "statement": "wg_snprint_value writes a C string into the buffer it is given and touches no byte outside of it, for values of all types, also records that contain themselves; the string is the whole text of the value, with the fields of records to any depth, if that fits. wg_print_record prints the fields of a record.", "quantifier": "all values, record graphs (cyclic ones included), buffer contents and buffer lengths from 2 on", "why_tests_cant": "record graphs can be of any shape and depth, and every buffer length cuts the text at another place", "anchors": ["Db/dbutil.c:wg_snprint_value", "Db/dbutil.c:snprint_record", "Db/dbutil.c:wg_print_record"]}
{"id": "C61", "title": "The journal contains exactly what was logged", "statement": "While logging is active, every change made through any handle is appended to the current journal file: the file contains the file header followed by exactly what was logged since the journal was begun, in the order of the calls, across wg_stop_logging and wg_start_logging; wg_dump, wg_import_dump and wg_replay_log begin a new journal. A logging call that returns 0 has written its whole entry to the current journal.", "quantifier": "all histories of attaching, detaching, starting, stopping, logging, dumping, importing and replaying by any number of handles, and all failures of stat, open, rename, read and write (also short writes)", "why_tests_cant": "handles keep descriptors of files that other processes rename, so the claim is about all interleavings of handles and all points of failure", "anchors": ["Db/dblog.c:wg_start_logging", "Db/dblog.c:wg_stop_logging", "Db/dblog.c:write_log_buffer", "Db/dblog.c:open_journal", "Db/dblog.c:check_journal", "Db/dblog.c:wg_replay_log", "Db/dbdump.c:wg_dump_internal", "Db/dbdump.c:wg_import_dump"]}
{"id": "C62", "title": "Earlier journals are kept as backups", "statement": "Beginning a new journal never destroys the previous one: it is kept under one of ten backup names; a backup is overwritten only when all ten exist, and then it is the one that was written to longest ago. No call changes any other file, in particular not the journals and backups of other databases.", "quantifier": "all histories of calls as for C61, all files that exist before, all keys of databases", "why_tests_cant": "it depends on which files exist, on their times and on the whole history of rotations", "anchors": ["Db/dblog.c:backup_journal", "Db/dblog.c:open_journal", "Db/dblog.c:wg_journal_filename", "Db/dblog.c:wg_start_logging"]}
{"id": "C63", "title": "Objects of one database never overlap", "statement": "All records, strings, list cells, numbers, index nodes, hash arrays and locks of one database lie inside its memory segment and do not overlap, whatever has been allocated and freed before; allocating or freeing one object does not change any byte of another. wg_attach_local_database and wg_attach_database succeed exactly when the segment is big enough for the initial areas, and store nothing outside of the segment.", "quantifier": "all segment sizes and contents of fresh memory, all histories of allocations and frees in all ten areas and of new hash arrays", "why_tests_cant": "areas grow independently from one common free pointer, so overlap depends on the whole history of all areas", "anchors": ["Db/dballoc.c:wg_init_db_memsegment", "Db/dballoc.c:init_hash_subarea", "Db/dballoc.c:init_syn_vars", "Db/dballoc.c:alloc_db_segmentchunk", "Db/dballoc.c:wg_alloc_gints", "Db/dballoc.c:wg_alloc_fixlen_object", "Db/dballoc.c:wg_free_object", "Db/dballoc.c:wg_create_hash"]}
{"id": "C64", "title": "Database names are numbers", "statement": "A database name stands for the decimal number it begins with; two names that are numbers stand for the same database if and only if they are the same number; a missing name or a name that does not begin with a positive number stands for database 1000. wg_delete_database and the attaching functions agree on this.", "quantifier": "all byte strings and NULL", "why_tests_cant": "there are infinitely many names, and conversion, truncation and defaults interact", "anchors": ["Db/dbmem.c:wg_attach_memsegment", "Db/dbmem.c:wg_delete_database"]}
{"id": "C65", "title": "Attaching gives everybody the same, complete database", "statement": "A handle from wg_attach_database, wg_attach_existing_database or wg_attach_logged_database is of a completely initialised, compatible database of at least the size asked for. Programs that use the same name share the database as long as it is not deleted. An existing database is never initialised again; a new one is empty, and is created only if asked for. A database loses its name only by wg_delete_database or a failed creation, and those attached keep it. If the system calls do not fail, attaching to a database that exists, or creating one that does not, succeeds.", "quantifier": "all numbers of processes, all interleavings of their steps, all failures of system calls, crashes of processes at any point, all segments that existed before", "why_tests_cant": "it is about all schedules and crash points of several processes", "anchors": ["Db/dbmem.c:wg_attach_memsegment", "Db/dbmem.c:CHECK_SEGMENT", "Db/dbmem.c:link_shared_memory", "Db/dbmem.c:create_shared_memory", "Db/dbmem.c:free_shared_memory", "Db/dbmem.c:wg_memmode", "Db/dbmem.c:wg_detach_database", "Db/dbmem.c:wg_delete_database"]}
{"id": "C66", "title": "Unification finds a most general unifier, always ends, and stays inside of its memory", "statement": "For any two terms of the reasoner (variables with the numbers it provides for, constants, nested records; no NULL), wr_unify_term ends without touching memory outside of the variable banks and the records; it returns 1 if and only if some substitution makes the two terms the same; if so, the bindings it leaves are a most general unifier; clearing the variable stack removes all bindings it has made.", "quantifier": "all terms of any size and depth, all contents of memory, all states of the variable banks left by earlier unifications", "why_tests_cant": "termination and most generality are about all terms and all substitutions", "anchors": ["Reasoner/unify.c:wr_unify_term", "Reasoner/unify.c:wr_unify_term_aux", "Reasoner/unify.c:wr_occurs_in", "Reasoner/unify.c:wr_clear_varstack", "Reasoner/unify.h:VARVAL", "Reasoner/unify.h:SETVAR"]}
{"id": "C67", "title": "Equality and matching of terms are exact", "statement": "wr_equal_term returns 1 if and only if the two terms have the same structure, variables and values of constants; wr_match_term returns 1 if and only if the second term is an instance of the first, and then leaves the substitution in the variable bank; neither reads anything but the two terms.", "quantifier": "all terms without NULL, of any size and depth, all contents of memory", "why_tests_cant": "about all pairs of terms and all substitutions", "anchors": ["Reasoner/unify.c:wr_equal_term", "Reasoner/unify.c:wr_equal_term_macroaux", "Reasoner/unify.c:wr_equal_ptr_primitives", "Reasoner/unify.c:wr_match_term", "Reasoner/unify.c:wr_match_term_aux"]}
{"id": "C68", "title": "A clause is thrown away as subsumed only if it is, and if it is", "statement": "wr_subsume_cl returns 1 if and only if there is a substitution under which the literals of the first clause are different literals of the second clause; wr_given_cl_subsumed returns 1 if and only if one of the active clauses subsumes the given one; both leave no bindings behind.", "quantifier": "all pairs of clauses with any number of literals, all lists of active clauses", "why_tests_cant": "the search with its pruning has to be right for all clauses and all substitutions", "anchors": ["Reasoner/subsume.c:wr_subsume_cl", "Reasoner/subsume.c:wr_subsume_cl_aux", "Reasoner/subsume.c:wr_given_cl_subsumed"]}
{"id": "C69", "title": "The reasoner proves only what follows", "statement": "If wg_run_reasoner reports a proof, then the clauses of the database cannot all be true in any interpretation (in which equality and sums of data are what the reasoner takes them for); clauses that have a model are never refuted; every clause the search derives and keeps follows from the clauses of the database.", "quantifier": "all sets of clauses with any number of literals and nested function terms, all settings of the strategy, all hash functions, all points where memory runs out, any length of the search", "why_tests_cant": "soundness is about all clause sets and all interpretations", "anchors": ["Reasoner/rmain.c:wg_run_reasoner", "Reasoner/rgenloop.c:wr_genloop", "Reasoner/rgenloop.c:wr_resolve_binary_all_active", "Reasoner/derive.c:wr_process_resolve_result", "Reasoner/build.c:wr_build_calc_cl", "Reasoner/build.c:wr_build_calc_term", "Reasoner/clstore.c:wr_cl_store_res_terms"]}
{"id": "C70", "title": "If the search ends without a proof there is none", "statement": "If wg_run_reasoner reports that the search is finished without a proof, then the clauses of the database have a model.", "quantifier": "all sets of clauses, all settings of the strategy, any length of the search", "why_tests_cant": "about all clause sets and all interpretations", "anchors": ["Reasoner/rmain.c:wg_run_reasoner", "Reasoner/rgenloop.c:wr_genloop", "Reasoner/rgenloop.c:wr_resolve_binary_all_active", "Reasoner/clstore.c:wr_push_clactive_cl"]}
{"id": "C71", "title": "The search stays inside of its memory", "statement": "For any clauses, wg_run_reasoner never reads a word as something that it is not, never uses a buffer after it has been freed, and frees no buffer twice.", "quantifier": "all sets of clauses, all settings of the strategy, all hash functions, all points where memory runs out, any length of the search", "why_tests_cant": "the buffers are shared by recursive calls in an order that depends on the clauses", "anchors": ["Reasoner/rgenloop.c:wr_genloop", "Reasoner/derive.c:wr_process_resolve_result", "Reasoner/build.c:wr_build_calc_term", "Reasoner/glb.c:wr_glb_free"]}
{"id": "C72", "title": "Nobody does what the configuration does not allow", "statement": "Whatever a request to the server says, a database is read, changed, created or deleted only if the client's address and the token of the request give the right for this in the configuration file, and only if the database is in the list of databases when there is one; a stronger right includes the weaker ones, and requests of clients who have the right are served.", "quantifier": "all configurations, clients, requests and sets of existing databases", "why_tests_cant": "the rights depend on seven lists, of which each may be missing, and on repeated parameters", "anchors": ["Server/dserve_util.c:authorize", "Server/dserve_util.c:authorize_aux", "Server/dserve.c:process_query", "Server/dserve.c:search", "Server/dserve.c:insert", "Server/dserve.c:create", "Server/dserve.c:drop", "Server/dserve.c:op_attach_database", "Server/dserve.c:op_create_database"]}
{"id": "C73", "title": "A query is read as its parameters", "statement": "A query of the form p=v&p=v&... is read as these parameters and values with the percent codes decoded, anything else is refused, and no query makes the server touch memory outside of the query.", "quantifier": "all byte strings as queries", "why_tests_cant": "all byte strings, decoded in place", "anchors": ["Server/dserve_util.c:parse_query", "Server/dserve_util.c:urldecode", "Server/dserve.c:process_query"]}
{"id": "C74", "title": "Answers of any length are complete and stay inside of their buffer", "statement": "The answer of the server to a search, a count or a deletion is written inside of the buffer, which grows as needed; it is the whole answer, it ends with a 0, and a request fails for reasons of memory only if memory cannot be had or the answer is too long.", "quantifier": "all sets of records with any values, all formats and settings of a request, all results of realloc", "why_tests_cant": "sizes are estimated before each value is printed, the room that is needed depends on all values printed before", "anchors": ["Server/dserve_util.c:str_guarantee_space", "Server/dserve_util.c:sprint_record", "Server/dserve_util.c:sprint_value", "Server/dserve_util.c:sprint_string", "Server/dserve_util.c:sprint_blob", "Server/dserve.c:op_print_record", "Server/dserve.c:op_print_data_start", "Server/dserve.c:op_print_data_end", "Server/dserve.c:search"]}
{"id": "C75", "title": "Answers are JSON or CSV and say what the records are", "statement": "An answer in JSON is a JSON text, the array of the records found, each as the array of its values; an answer in CSV is a CSV file with the records as rows. A client that reads the text by the rules of the format gets the values of the records.", "quantifier": "all lists of records with any values", "why_tests_cant": "all byte strings in strings, URIs, blobs and languages", "anchors": ["Server/dserve_util.c:sprint_value", "Server/dserve_util.c:sprint_string", "Server/dserve_util.c:sprint_record", "Server/dserve.c:op_print_record", "Server/dserve.c:op_print_data_start", "Server/dserve.c:op_print_data_end"]}
{"id": "C76", "title": "A request to the server handles exactly the records it asks for", "statement": "A search shows the matching records from position from on, at most count of them, in order; a count is the number of these records; a deletion deletes these records, except those to which others refer, answers with the number of records deleted and leaves all other records as they were. With recids the records are those with the given numbers.", "quantifier": "all databases reached by API calls, all lists of records or rows, all values of from and count, all lists of record numbers", "why_tests_cant": "all combinations of positions, limits, operations and references between records", "anchors": ["Server/dserve.c:search", "Server/dserve.c:op_delete_record", "Server/dserve.c:op_update_record"]}
{"id": "C77", "title": "The server takes its configuration from the file as it is written", "statement": "A server started with a configuration file has for each key exactly the values that the lines of the file give to it, in their order; comments, headings and empty lines do not matter; a file with values for a key that is not known is refused; so a request does only what the lines of the file allow to the client.", "quantifier": "all configuration files made of comments, headings, empty lines, definitions and further values, with any spaces between; any content of the memory behind the file; all requests", "why_tests_cant": "all texts, and the outcome may depend on memory behind the text", "anchors": ["Server/dserve_util.c:load_configuration", "Server/dserve_util.c:add_conf_key_val", "Server/dserve_util.c:add_slval"]}
{"id": "C78", "title": "A search by conditions finds the records that meet them", "statement": "A request to the server with the parameters field, compare, type and value finds exactly the records that meet all the conditions, each once: the i-th condition consists of the i-th values of these parameters; without a type, digits are an integer, digits with a point a double, and other texts strings. A request with a condition that makes no sense is refused.", "quantifier": "all databases with any T-tree indexes, all lists of parameters in any order, all texts of values", "why_tests_cant": "all combinations of parameters, values, indexes and records", "anchors": ["Server/dserve.c:search", "Server/dserve_util.c:encode_incomp", "Server/dserve_util.c:encode_intype", "Server/dserve_util.c:encode_invalue", "Server/dserve_util.c:isint", "Server/dserve_util.c:isdbl"]}
{"id": "C79", "title": "The thread pool serves each queued connection once, in order", "statement": "The threads of the server take the connections out of the queue in the order in which they were put in, each exactly once and by one thread; no thread sleeps for good while a connection waits, and no two threads work on the queue at the same time. A connection that is accepted is put into the queue, unless the queue is full.", "quantifier": "all numbers of threads, all queue sizes, all interleavings of the threads, spurious wake-ups included, all sequences of connections", "why_tests_cant": "all schedules of the threads; lost wake-ups and lost connections show up in rare interleavings only", "anchors": ["Server/dserve_net.c:run_server", "Server/dserve_net.c:handle_http"]}
{"id": "C80", "title": "The server finds the query of a request, and only that", "statement": "The query that the server processes for a GET request is the text between the first ? of the address and the next space, and that of a POST request the data of the length announced; requests with other methods or without a query are refused. What is processed depends on nothing but the request, in particular not on what the thread served before. The header of an answer tells the length of the answer.", "quantifier": "all request lines, headers and data, all earlier requests of the thread, all contents of memory that was not written", "why_tests_cant": "all histories of a thread of the pool and all contents of uninitialised memory", "anchors": ["Server/dserve_net.c:handle_http", "Server/dserve_net.c:get_post_data", "Server/dserve_net.c:readlineb", "Server/dserve_net.c:write_header_clen"]}
{"id": "C81", "title": "References to data of other databases", "statement": "Where child databases are enabled: after a database is registered with another one, encoding a value of it for use there gives a value that refers to the same object with the same type, and immediate values stay what they are; the database that an encoded value or a record belongs to is found, and values that point to no registered database are recognised as such. A shared database or one with indexes takes no such references, and a database with such references gets no index. Fields that hold such references can be overwritten, and the bookkeeping of which record refers to which stays exact.", "quantifier": "all encoded values, all positions and sizes of the databases in user memory, all numbers of registered databases, all histories of writes", "why_tests_cant": "all placements of segments in memory, with differences of either sign, and all sequences of overwriting", "anchors": ["Db/dballoc.c:wg_register_external_db", "Db/dbdata.c:wg_encode_external_data", "Db/dbdata.c:wg_translate_hdroffset", "Db/dbdata.c:get_ptr_owner", "Db/dbdata.c:wg_get_rec_owner", "Db/dbdata.c:wg_set_field", "Db/dbindex.c:wg_create_multi_index"]}
{"id": "C82", "title": "What the server does depends on the bytes of the request and the rights only", "statement": "From the bytes a client sends over a connection to the server, the operation that is done is the one named by the parameters that these bytes encode, on the database they name, and it is done only if the address and the token give the right. A client whose address has no right causes nothing, whatever it sends and whatever other clients sent before; where tokens are required, nothing is done without one.", "quantifier": "all byte sequences that clients send, all earlier requests of the thread, all configurations, all sets of existing databases", "why_tests_cant": "all byte sequences and all histories of a thread", "anchors": ["Server/dserve_net.c:handle_http", "Server/dserve.c:process_query", "Server/dserve_util.c:parse_query", "Server/dserve_util.c:authorize"]}
{"id": "C83", "title": "However the server program is called, the configuration holds", "statement": "The program is called as a server, by a web server (CGI) or from the command line. With a configuration file that can not be opened, or that has values for unknown keys, it does nothing; otherwise the rights are those of the file. Called by a web server it does only what the rights allow to the address and the token, whatever the method, the query and the data are; a query given as GET or on the command line is understood as the parameters it encodes.", "quantifier": "all environments, arguments, inputs, configuration files, contents of memory that was not written", "why_tests_cant": "all environments and inputs, and contents of uninitialised memory", "anchors": ["Server/dserve.c:main", "Server/dserve.c:get_cgi_query", "Server/dserve.c:process_query", "Server/dserve_util.c:load_configuration"]}
{"id": "C84", "title": "Finding records by a value that is not encoded", "statement": "A loop over wg_find_record_int, wg_find_record_str or one of the other functions that take a C value, each call given the previous record, returns every record whose column satisfies the condition exactly once and then NULL, with or without an index, although each call encodes the value anew, at another place in memory.", "quantifier": "all databases and indexes, columns, conditions, values, and all words that the encodings give at the different calls", "why_tests_cant": "all databases, index histories and places of the encoded value", "anchors": ["Db/dbquery.c:wg_find_record_null", "Db/dbquery.c:wg_find_record_int", "Db/dbquery.c:wg_find_record_str", "Db/dbquery.c:wg_find_record_uri", "Db/dbquery.c:wg_find_record"]}
