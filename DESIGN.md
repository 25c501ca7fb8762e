# Formal model of WhiteDB in Lean 4 - design

## Trusted base

* Lean 4.33.0's kernel (and Mathlib definitions where imported; Mathlib is itself checked by the kernel).
* Axioms: only `propext`, `Classical.choice`, `Quot.sound`.  No axioms are added, there is no
  `sorry`/`admit`, no `native_decide`, no `bv_decide`.  `Verif/Audit.lean` prints the axioms of the property
  theorems during the build.
* The reading of the C code: the model is written by hand, function by function, each definition citing
  file and lines.  The correspondence between the C text and the Lean text is trusted (checked by review and
  by the seeded-bug exercise logged in `seeded/LOG.jsonl`).
* Configuration modelled: 64-bit `gint` (HAVE_64BIT_GINT), `CHECK`, `USE_BACKLINKING`, `USE_INDEX_TEMPLATE`,
  `TTREE_CHAINED_NODES`, `TTREE_SINGLE_COMPARE` (config-gcc.h); each lock protocol separately;
  `USE_DBLOG` for the journal model; no `USE_CHILD_DB`, no `USE_REASONER`.

## Conventions

* Bit-level code (encodings, varints, CRC) is modelled on `BitVec 64/32/8` exactly as the C arithmetic does.
* Heap-like code is modelled on total functions from addresses to words plus the C control flow.
* Undefined behaviour and NULL results are explicit outcomes (`none` / error codes).
* Concurrency is modelled as a transition system, one step per atomic memory operation, for an arbitrary
  set of processes.
* Where the code violates the English property, the violation is proved as a theorem with a concrete
  witness (`..._counterexample`) and the property is proved under the missing hypothesis with the suffix
  `_partial`.

## Plan per property

| id | model | method |
|----|-------|--------|
| C01-C03 | `Encoding`: BitVec 64 words, storage for full ints/doubles as an arbitrary cell map | bit-vector lemmas, case analysis on tags |
| C04, C05 | `Calendar`: Int arithmetic of ymd/hms conversions | Euclidean division lemmas, `omega` |
| C06, C07 | `Compare`: values read through the memory segment (or any `Reader`), depth-bounded recursion | lexicographic specification, induction on depth |
| C08-C10, C15, C50 | `Varlen`: word memory, subareas, boundary tags, bucket lists, designated victim | ghost block list, invariant preserved by every operation; walk lemma |
| C11, C12 | `Fixlen`, `Varlen.allocChunk`: free list threaded through memory, bump allocation | invariant over histories |
| C13, C14, C16-C20, C45 | `Records`: records, fields, backlinks, string interning, reference counts | refinement to an abstract store; invariant over all operation histories |
| C21 | `Atomic`: compare-and-swap transition system | invariant over all interleavings |
| C22-C24 | `TTree`: nodes, heights, rotations, node chain | shadow tree; in-order list and AVL invariants |
| C25-C27 | `Query`: bounds, cursor walk, argument check, prefetch | refinement to filtering |
| C28 | `IndexMaint`: `Records` with `TTree` indexes and templates | invariant over histories of API calls; transfers C25, C27 to them |
| C29 | `HashIndex`: chains of key buckets; key bytes | refinement to a multimap; unique parsing of key bytes |
| C30 | `GintHash` | extendible hashing invariant |
| C31 | `ResultSet` | probe sequence covers the table (prime size); set refinement |
| C32-C34 | `Locks` (spin, writer preference, queued) | inductive invariants over all interleavings |
| C35-C37, C49 | `Dump` | byte image functions; CRC linearity; transition system for the concurrent dump |
| C38-C40 | `Journal` | round trip, prefix parsing, replay simulation |
| C41, C42 | `MPool` | invariant over histories |
| C43, C44 | `IndexCat`: index and template chains | invariant over histories; canonical column order |
| C46, C47 | `Schema` on top of `Records` | induction over the document tree |
| C48 | `Mem` | bit-vector reasoning |
| C51 | `Calendar/Iso`: text of dates and times | digit arithmetic; parser run on the produced text |
| C52 | `Param`: the query parameter encoders over byte-addressed process memory | frame of every write, byte-level reading back, then the comparison theorems of `Compare` on the extended value set |
| C53 | `JsonQuery`: wg_make_json_query on top of `Schema`, `ResultSet`, `TTree`, `HashIndex` | per-clause set refinement, intersection over clauses; index sources proved exact |
| C54 | `Json`: import and printing of documents on top of `Records` and `Schema` | invariant for the records not yet linked (`LInv`), induction over the text; count of allocations |
| C55 | `Yajl`: lexer, parser and the functions of the API that take a text; grammar in `Yajl/Spec.lean` | lexer state = pending bytes (`Holds`), parser runs = runs on the whole text (`run`), prefix invariant (`Open`), induction over derivations |
| C56 | `Yajl`: generator of the JSON library, on top of C54 and C55 | induction over the value: the output is a derivation of the grammar |
| C57 | `Csv`: recognition of text values | the scan of the text characterised against the grammar of decimal texts; dates and times from C51 |
| C58 | `Csv`: the CSV reader as a state machine over the bytes of the file | induction over lines, fields and bytes; invariant for the buffer |
| C59 | `Csv`: the CSV writer | every value is written as a field of C58 whose content is read as the value |
| C60 | `Print`: printing over explicit buffers with unwritten bytes | induction over the length of the buffer, which shrinks also for cyclic records |
| C61 | `JFile`: journal files, descriptors and serial numbers, any failing system call | refinement of an abstract journal (`Spec.Next`); invariant: descriptors with the current serial number are of the current file |
| C62 | `JFile`: backup names and rotation | case analysis of each call on top of the invariant of C61; loop invariant for the choice of the backup; decimal names are injective |
| C63 | `Segment`: ten areas, hash arrays and lock queue in one memory with one free pointer | invariant: every area is well-formed in the sense of `Varlen`/`Fixlen` and its subareas are disjoint from everything else; frame lemmas for the operations of the other areas |
| C64 | `Attach`: strtol, conversion to int, defaults | computation on digit strings |
| C65 | `Attach`: the attaching functions as small steps of processes over System V segments | invariant over all interleavings: what each program point knows about the segments, at most one process initialises a segment |
| C66 | `Reason`: words as terms, memory behind them, variable bank and stack, unification with fuel for the recursion | invariant: bindings without cycles; soundness and completeness in every free algebra; termination by (unbound variables, size of the term under the bindings) |
| C67 | `Reason`: equality and matching | induction on terms; counterexamples |
| C68 | `Reason`: subsumption, all its cases | induction on clauses; the pruning is right by an exchange of images |
| C69 | `Reason`: the whole search: building, renaming, computing, storing, choosing literals, resolving, hyperresolution | invariant: every clause that is kept follows from the clauses of the database, in every interpretation; a built term means the same under a linked assignment of its new variables |
| C70 | `Reason`: the same | counterexample in general; Horn clauses: invariant that every pair of kept clauses is resolved and nothing is lost but by subsumption, so the kept facts are a model when the queue is empty |
| C71 | `Reason`: the same, with a list of freed buffers | invariant for clauses without function terms; counterexample for the standard settings |
| C72 | `Serve/Auth`: the check of rights and the operations of the server up to the first access to a database | exact characterisation of the check; every action traced back to the check; requests that are served |
| C73 | `Serve/Url`: parse_query and urldecode on a buffer, with `none` for an access outside | induction over the buffer with the invariant that the written part is behind the read part; counterexamples for small letters and 2000 bytes |
| C74 | `Serve/Out`: the buffer with its size, and everything that prints into it, with outcomes for a write outside, a freed buffer and too deep nesting | each printing step appends its text and keeps the invariant, or the answer is long; composition over values, fields and rows; counterexamples for control characters, languages, cycles, empty CSV answers, nested records that are cut; nested records (`Serve/OutNested`): induction on the number of levels |
| C75 | `Serve/Out` with the grammar of JSON in `Yajl/Spec` and of CSV in `Serve/CsvProps` | the text of each value is derived in the grammar; that other texts are not JSON by completeness of the modelled parser; nested records (`Serve/JsonNested`): induction on the number of levels |
| C76 | `Serve/Search`: the three loops of `search` over the record store of `Records`, with the reading of `from`, `count` and `recids` | induction over the list of records; deletions by composition of the steps of C16; counterexamples for from with delete, count=0, record numbers that are wrong, repeated or 1000 |
| C77 | `Serve/Conf`: load_configuration on the text of the file, with the byte behind it as a parameter and `bad` for an access outside of the buffer; the lines in `Serve/ConfSpec` | what one row does for each kind of line, then induction over the lines; composition with C72; counterexamples for long files, spaces at the end, lines without `=` |
| C78 | `Serve/Cond`: the parameters of a request up to the arguments of the query; the query is that of `Query` | each parameter text read as in `Serve/CondSpec`, induction over the conditions, composition with C25 and C76; counterexamples for numbers outside of int, the empty text, negative numbers, type=record |
| C79 | `Serve/Pool`: the accepting thread and n threads of the pool as a step relation, one step per access to the shared data, with mutex, condition variable and spurious wake-ups | invariants over all reachable states: owner of the mutex, ring against the history of connections, number of threads on their way against number of waiting connections; counterexample for a full queue |
| C80 | `Serve/Http`: reading a request with the variables that a thread keeps, the data of a POST, the header of the answer | the loops over the line as functions on the rest of the buffer, for any state of the thread; induction over the lines of the header; counterexamples for what a thread keeps |
| C81 | `Ext`: registration of databases, translation of values, finding the owner; the lists of backlinks in wg_set_field with references to other databases | arithmetic of 64-bit words, for all places of the segments in user memory; counting of backlinks; counterexamples for the 21st database and for overwriting |
| C82 | `Serve/Wire`: `Http`, `Url` and `Auth` put together to one function from the bytes of a connection to what is done | composition of C80, C73 and C72, for all bytes and all states of the thread; counterexample for a client that sends nothing |
| C83 | `Serve/Main`: main and get_cgi_query on top of `Wire` and `Conf`, for any environment, arguments, input and files | composition of C72, C73 and C77; counterexamples for an empty file, a query of 2000 bytes and the end of the data |
| C84 | `Query/Typed`: the typed functions on top of `findRecord`, with another word at each call; `Param/Alike`: the words for the same value made at different times | words that compare alike give the same next record (scan: congruence; index: the rows are a filter of the rows of the index), then C27; counterexample for values that cannot be encoded |

`MANIFEST.json` names the theorems per property with the remaining gaps; `seeded/LOG.jsonl` records the seeded bugs.

## What is modelled

Every definition cites its lines; this is the summary.

| module | code | simplifications |
|--------|------|-----------------|
| `Encoding` | dbdata.h macros 280-435; scalar encoders and decoders of dbdata.c | overflowing signed shifts wrap (gcc); rounding of wg_encode_fixpoint not modelled |
| `Calendar` | dbdata.c 1810-1843, 1930-2060, 2898-2932 | sprintf/sscanf formats as digit lists |
| `Compare` | dbcompare.c | fixpoints compared before the division (the division itself is modelled in `HashIndex`) |
| `Varlen`, `Fixlen` | dballoc.c: chunks, variable- and fixed-length areas; dbdata.c record walk | one area at a time, the rest of the segment acts arbitrarily outside of it |
| `Records` | dbdata.c: create/delete record, set field, parents, freeing, string encoding; dbhash.c string hash | objects instead of words (justified by C08-C12); allocator results are parameters |
| `Atomic` | dbdata.c 1008-1146, dblock.c compare-and-swap | one field; what the read lock protects is constant |
| `TTree` | dbindex.c 100-1460 | slots of a node are a list |
| `IndexMaint` | dbindex.c 2616-2983, templates, T-tree creation | catalogue is a list; nodes always available |
| `IndexCat` | dbindex.c 1715-2614 | list cells always available; NULL-terminated lists are Lean lists |
| `HashIndex` | dbhash.c 266-564, dbindex.c 1467-1708 | JSON arrays given by a function; allocation does not fail; malloc does not fail |
| `Query` | dbquery.c: wg_make_query, wg_fetch, prefetch, wg_find_record and its typed forms (2157-2277) | malloc does not fail |
| `ResultSet` | dbquery.c result sets, dbhash.c dhash | |
| `GintHash` | dbhash.c 566-840 | hash function is a parameter |
| `Schema` | dbschema.c: documents | |
| `Param` | dbquery.c 1117-1339 | malloc is a parameter; lengths are not truncated to `int`; types without storage are those of `Encoding` |
| `JsonQuery` | dbquery.c 1596-2035 | no query parameters outside the database; the lookup of the indexes themselves is `IndexCat` |
| `Json` | dbjson.c; wg_create_triple/array/object of dbschema.c | starts at the callbacks of the JSON parser and ends at the calls of the generator; `%f` is a parameter; malloc does not fail |
| `Yajl` | json/yajl_all.c: lexer, parser, generator, string coding; dbjson.c: run_json_parser, wg_check_json, wg_parse_json_file | strtod and `%f` are parameters; malloc does not fail; error messages left out; `char` buffers are lists of bytes, and reads outside the text, failed assertions and running out of fuel are the outcome `none` |
| `Csv` | dbutil.c 310-409, 469-535, 568-918 | encoders, record creation, `%f` and atof are parameters; malloc does not fail |
| `Print` | dbutil.c 130-304 | values are given decoded, records by their fields; malloc does not fail |
| `Locks` | dblock.c: three protocols | sequential consistency; futex as its documented effect |
| `Dump` | dbdump.c, dbmem.c header check | files are byte lists |
| `Journal` | dblog.c | files are byte lists |
| `JFile` | dblog.c 138-263, 687-990; effects of dbdump.c on the journal | a file system of names, numbered files and modification times; calls do not overlap (write lock); ftruncate does not fail; umask left out |
| `Segment` | dballoc.c 99-257, 338-362, 430-454, 1438-1445 on top of `Varlen` and `Fixlen` | the header is outside of the memory and counts by its size; the length of the string hash table is a parameter |
| `Attach` | dbmem.c 92-166, 195-366, 472-499, 583-626, 665-845 | shared memory by the documented effect of shmget, shmat, shmctl; sequential consistency; Windows left out; failed imports left out |
| `Reason` | Reasoner/unify.c, unify.h 36-53, subsume.c, build.c, derive.c, rgenloop.c, rmain.c 65-173, clstore.c 100-400 and 690-900 (hash lists) | records as terms with their address; built records always at new places; one bit of the literal's meta; no NaN; any hash function; sums as an arbitrary partial function; printing and counting left out; when allocation fails the frees on the way out are left out |
| `Serve` | Server/dserve.c 210-367 (calls of the program), 404-529, 555-667, 819-886, 959-1015, 1031-1093, 1142-1190, 1263-1351 (rights), 663-815, 1110-1128, 1208-1250 (printing of answers), 584-585, 599-609, 623-626, 684-796, 1133-1135, 1254-1258 (records handled), 615-622, 648-659, 750-770 (conditions), dserve_util.c 45-94, 163-188 (values of conditions), 657-802 (configuration file), dserve_net.c 116-221, 378-423 (thread pool), 455-513, 623-702, 722-745 (requests), 103-155 (queries), 218-427, 452-576, 622-654 (printing), 832-882 (rights) | atoi/atol, the existing databases are parameters; strings as byte lists; errors of `fld` left out |
| `Ext` | with USE_CHILD_DB: Db/dballoc.c 1403-1432, Db/dbdata.c 2962-3095, Db/dbindex.c 2073-2079; of wg_set_field (Db/dbdata.c 613-801) and wg_delete_record (204-289) what concerns backlinks | addresses are words; a cell is always available; strings, indexes and logging left out of wg_set_field |
| `MPool` | dbmpool.c | |
| `Mem` | dbmem.c permissions | |

`Compare` reads values through the interface `Reader` (type, integer, double, string, extra string, blob, fields). It is instantiated by the
memory segment (`Seg.reader`) and by the object heap of `Records`; theorems are stated for one or the other and proved for both.

## Defects of the code found on the way

Each is a theorem about the model with a concrete witness; the property is then proved with the case excluded.

* C04: day 31 is accepted in every month (30 February is 2 March). C05: minute and second 60 are accepted and alias the next hour.
* C06: NaN compares less in both directions.
* C09: a record without fields can get length 1 when its area is extended. C10: a freed object of 40 bytes is not reused for 32 bytes.
* C13: overwriting a self-reference that heads the backlink list follows a freed list cell. C17: wg_get_next_parent does not terminate if a record refers to
  another from two fields.
* C19: a long extra string can be lost from the string hash when its owner falls into the same bucket.
* C21: wg_add_int_atomic_field computes in a 32-bit int. C29: integers are hashed by their low 32 bits.
* C22: an insertion that gets no node can lose a row.
* C25: `> v` with `< v` on an indexed column returns rows; a condition with WG_ILLEGAL is ignored on indexed columns. C26: res_count of a contradictory query is not assigned.
* C28: rows in indexes twice or wrongly (record reachable twice, wg_set_new_field on an indexed record, template creation, raw records).
* C29: key bytes of a URI with prefix can run into the next column; 0.0 and -0.0 have different keys; refused JSON rows stay partly indexed.
* C30: entries of the extendible hash are lost after an insertion that failed for lack of memory.
* C34: stale wake-ups break the queued locks; a time out can lose a wake-up.
* C37: a dump racing with growth or with a reader entering is rejected by wg_check_dump.
* C39, C40: large integers and nested strings are misread from the journal; replay confuses reused offsets and failed creations.
* C41: pool requests near 2^31 overflow. C42: one-character second strings and type 0 are misread.
* C43: wg_get_all_indexes overruns its array for multi-column indexes; failed creations stay linked; dropping a hash index half-drops it; template reference counts are not
  initialised; negative columns and long match records are mishandled.
* C45: failed list cell allocation writes at offset 0; failed index update leaves a missing backlink. C47: deleting a document with shared records fails half-way.
* C53: an array with three or more elements matches as a key-value pair; a matching record outside of documents makes the whole query fail.
* C54: null, true and false are dropped from documents; keys are cut at 79 bytes; integers beyond 32 bits are printed wrongly; wg_check_json rejects seven levels, which the
  import accepts; a document of more than seven record levels can not be deleted; a refused import leaves unreachable records; files whose length is a multiple of 16384
  bytes are silently ignored.
* C55: a `\uD800`-`\uDBFF` escape without second surrogate swallows the byte after it, or aborts the program if `\\u` follows; a string or comment without end is accepted after the value;
  -9223372036854775808 is refused; null, true and false as whole texts give result 0 without a document.
* C56: strings that are not UTF-8, and doubles printed as `inf` or `nan`, make the printed text invalid.
* C57: text after a date or time is dropped, numbers are cut at 79 characters, and errno is not cleared before it is tested.
* C58: a last line without line end is not imported; a byte 0xff after a closing quote is lost. C59: a record with a single NULL is lost; character values are written without quotes; a URI
  without prefix gives NULL to `%s`.
* C60: snprint_record reads an unwritten byte when it gets exactly 2 bytes; a record that does not fit is cut without a mark.
* C61: wg_import_dump brings back an old serial number, so that handles go on writing to a journal that has been renamed; write_log_buffer keeps the number of a descriptor it has closed;
  a failed wg_replay_log leaves logging off; a failed dump begins a new journal. C62: wg_import_dump takes over the key of the dumped database, and with it the name of its journal.
* C63: wg_attach_local_database with less than 48 bytes stores the header past its memory. C64: names from 2147483647 on alias other databases.
* C65: of two simultaneous creators one can fail; a crash during the initialisation, or a failed shmat, blocks the name until the database is deleted; after the import of a dump
  of a database with another key nobody can attach; others can change a new database before its journal starts; a failed creation can remove a database that somebody else created
  meanwhile.
* C66–C68: the reasoner takes NULL for a record, and indexes its banks with unchecked variable numbers. wr_equal_term_macroaux (unify.c 408-433) does not look whether the second word is
  a record: a long string has the same two last bits, so comparing f(b) with a symbol reads the string's cell as a record; wr_match_term_aux (280-284) goes on with a constant as if it
  were a record. wr_equal_ptr_primitives compares the number 11 instead of `l1` (lines 479 and 483; only with uniquestrflag 0, which nobody uses).
* C69–C71: no factoring, so that the search can end without a proof although there is one. With hyperresolution (the standard setting) wr_process_resolve_result (derive.c 133-143,
  196-204) frees `build_buffer` after the recursive call, which is then another buffer: the queue's buffer or an earlier partial result's buffer, freed while in use; for facts with
  `negpref_strat` off the restored pointer was never set. `use_comp_funs` is 1 before the first resolution and stale later, whatever `use_comp_funs_strat` says.
* C72: setup_globals (Server/dserve.c 364-402) does not initialise `max_dbase_size.used`, so that the limit for new databases is undefined if the file has none.
* C73: urldecode (dserve_util.c 140, 143) subtracts 'A'-'a' instead of 'a'-'A': codes with small letters are decoded wrongly (`%2f` gives `v`). A query of 2000 bytes is copied to a buffer
  of 2000 bytes with its 0 (dserve.c 445). An empty value at the end is refused, `+` stays `+`. get_cgi_query does not put a 0 behind a posted query.
* C74: str_guarantee_space doubles the buffer without looking whether the rest is then large enough (dserve_util.c 633-638): with a control character as six bytes a string of 316 of them after
  880 bytes of answer is written past the end. When realloc fails the buffer is freed (dserve_util.c 644) and freed again by err_clear_detach_halt. A CSV search without rows returns
  memory that was never written. `tdata->depth` is never changed, so `depth=101` prints a record that refers to itself until the stack is full. A long jsonp name moves the pointer past
  what snprintf wrote (dserve.c 1214-1222). A language of more than 97 bytes is cut, with its quote.
* C74: sprint_value does not look at the result of sprint_record for a record in a field (dserve_util.c 334): if the inner record holds a string too long for the buffer, the printing stops
  in the middle of the inner record, the outer one goes on, and a broken text with missing brackets is the answer (`C74_nested_counterexample`).
* C75: URIs, XML literals, characters and blobs are not escaped for JSON; a language is written at the position where the string would end if nothing were escaped (dserve_util.c 355-359);
  integers are printed with `%d`, their lower 32 bits.
* C76: a deletion without conditions ignores `from` and deletes the records before it too, since lines 704-711 of dserve.c are outside of the test; it leaves records without fields.
  A search with conditions and count=0 handles one record (the test in line 791 comes after it). A negative `from` becomes a huge number. recids: `from` is ignored; any number that is a
  multiple of 8 is taken for the offset of a record, so a client can have any memory of the segment read, or written with delete and update; a number given twice to a deletion is read
  after the record is gone; with 1000 numbers `ids[1000]` is read (line 716). A deletion by numbers prints the record to the standard output (line 738), which is the answer of a CGI
  program. An update sets field 0 of the records to 0, whatever fields are given (lines 698, 730, 782); `sfcount` is not initialised (line 571). Update and delete hold a read lock only
  (line 680), so two of them, or one and a reader, may run at once. `insert` (821-953) inserts nothing and answers 1.
* C77: a configuration file of at least 512000 bytes is parsed from a buffer that was freed (ten tries, lines 672-688 of dserve_util.c; MAX_CONF_BUF_SIZE is never reached). If the
  file ends with a line of spaces without new line, the byte behind the file is taken for a value of the last key, and in a file of 999, 1999, ... bytes a byte after the buffer is
  written (lines 699-706). A line without `=` is left out and the values below it go to the key before it, so tokens for reading may become tokens of administrators; only the first word
  of a line counts; both without a message.
* C78: with type=record any number is used as an encoded value (dserve_util.c line 77), so value=6 makes the server compare with a string at the start of the database and then give
  this address to `free` (dserve.c line 794). Numbers outside of `int` are cut, also those of columns; an empty value is the integer 0; a negative number is a string, or refused with
  type=int. The tests for empty texts in lines 46 and 57 of dserve_util.c compare the pointer, so an empty compare or type is refused instead of taken as the default. If fewer
  comparisons than fields are given they go to the first fields; surplus values are left out.
* C79: a connection that arrives while the queue is full is neither queued nor closed (dserve_net.c lines 187-191), so its client waits for an answer until it gives up and the server
  loses the descriptor for good; before that the accepting thread sleeps while it holds the mutex, so that no thread of the pool can take a connection meanwhile.
* C80: the variables `query`, `uri` and `version` and the buffer of a thread keep their values from one request to the next (dserve_net.c lines 350-352 are outside of the loop in line 379).
  A GET without `?` that follows a POST reads the freed data of the POST; one that follows a GET takes a part of its own path as the query; for a client that sends nothing, what is left
  of an earlier client's request is processed (the result of readlineb is ignored in line 457); a line without a version is refused by a new thread only. The data of a POST gets no
  final 0 byte (lines 669-683), so what happens to follow it in memory becomes a part of the query, or the read goes out of the block. Header names are compared exactly.
* C81 (USE_CHILD_DB): wg_set_field decides by the owner of the new value whether the backlink of the old one is removed (Db/dbdata.c lines 704-705). A field that holds a record of another
  database can not be overwritten by a local value (-4, or offsets of the other database are followed), and a record of this database that was overwritten by one of another keeps its
  backlink and can not be deleted any more. Registering more than 20 databases is reported as a success but does nothing (Db/dballoc.c lines 1419-1426). wg_dump only warns of references
  to other databases and goes on (Db/dbdump.c lines 96-100). wg_delete_record takes a record out of the indexes before it refuses because the record is not local (Db/dbdata.c lines 230-242).
  The missing `break`s in get_ptr_owner are harmless (`C81_owner`).
* C82: because of the buffer that threads keep (C80), a client that sends nothing can have something done that another client sent in twice encoded form, with that client's token
  (`C82_silent_counterexample`); else what is left of a query is the name of its first parameter, which is refused, as parse_query has put 0 bytes behind it.
* C83: main does not use the return code of load_configuration (Server/dserve.c lines 267, 302): with a file of configuration that is empty (or that can be opened but not read) the server runs without any limits. Called by a
  web server, a query of exactly 2000 bytes overflows `querybuf`, and the data of a POST gets no final 0 byte (get_cgi_query, lines 347-362).
* C84: wg_find_record_date and the other typed functions (Db/dbquery.c 2157-2277) do not look whether the value could be encoded. WG_ILLEGAL goes to wg_find_record, which takes it for a missing
  bound if the column has an index and then returns every record; without an index it finds none (`C84_illegal_counterexample`).

## Not modelled

* OS services (shared memory attach, files, futex internals) beyond their documented effect.
* IEEE rounding in wg_encode_fixpoint (the division in wg_decode_fixpoint is modelled exactly); of the Reasoner the reading and printing of clauses; the Parser directory,
  the Python/Java bindings; of the server the sockets.
* Comparison and printing of records of other databases, Windows code paths, 32-bit builds.
