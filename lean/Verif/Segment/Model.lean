import Verif.Varlen.Model
import Verif.Fixlen.Model
/-!
# A whole database segment (Db/dballoc.c)

All storage areas of a segment in one memory: ten areas, the array of the string hash table, the queue of the task-fair lock and the
arrays of hash indexes. Areas, their allocators and the chunk allocator are those of `Varlen` and `Fixlen`; here they share the memory
and the `free` field of the header. The header itself is not part of the memory, only its size counts.
-/
namespace WG.Segment
open WG.Varlen (Sub upd allocChunk)

/-- `db_area_header`, Db/dballoc.h lines 316-323: a variable-length or a fixed-length area. -/
inductive Area
  | var (fb : Nat → Nat) (subs : List Sub)
  | fix (obj freelist : Nat) (subs : List Sub)

/-- A segment: memory, `free`, `size`, the areas in the order of their creation, and the arrays (offset and number of words). -/
structure DB where
  mem : Nat → Nat
  free : Nat
  size : Nat
  areas : List Area
  arrays : List (Nat × Nat)

/-- What the functions for variable-length areas see of the segment. -/
def DB.var (db : DB) (fb : Nat → Nat) (subs : List Sub) : Varlen.St := ⟨db.mem, fb, subs, db.free, db.size⟩
/-- What the functions for fixed-length areas see. -/
def DB.fix (db : DB) (obj freelist : Nat) (subs : List Sub) : Fixlen.St := ⟨db.mem, obj, freelist, subs, db.free, db.size⟩

/-- The segment after a function for variable-length areas has worked on area `i`. -/
def DB.setVar (db : DB) (i : Nat) (st : Varlen.St) : DB :=
  { db with mem := st.mem, free := st.segFree, areas := db.areas.set i (.var st.fb st.subs) }
def DB.setFix (db : DB) (i : Nat) (st : Fixlen.St) : DB :=
  { db with mem := st.mem, free := st.segFree, areas := db.areas.set i (.fix st.obj st.freelist st.subs) }

/-- `INITIAL_SUBAREA_SIZE` and `MINIMAL_SUBAREA_SIZE`, Db/dballoc.h lines 150-151. -/
def INITSUB : Nat := 8192

/-- The areas in the order of their creation, Db/dballoc.c lines 129-210: `none` for variable length, or the object length. Records,
long strings, list cells, short strings, words, doublewords, index nodes (`struct wg_tnode`: 128 bytes), index headers
(`wg_index_header`: 144 bytes), index templates (24 bytes), hash index data. -/
def layout : List (Option Nat) :=
  [none, none, some 16, some 32, some 8, some 16, some 128, some 144, some 24, none]

/-- One area: `init_db_subarea` and `init_area_buckets`, `init_subarea_freespace` or `make_subarea_freelist`, Db/dballoc.c lines 130-135
and the same for the others. -/
def initArea (db : DB) : Option Nat → Option DB
  | none => match Varlen.newArea db.mem db.free db.size INITSUB with
    | none => none
    | some st => some { db with mem := st.mem, free := st.segFree, areas := db.areas ++ [.var st.fb st.subs] }
  | some obj => match Fixlen.newArea db.mem obj db.free db.size INITSUB with
    | none => none
    | some st => some { db with mem := st.mem, free := st.segFree, areas := db.areas ++ [.fix st.obj st.freelist st.subs] }

def initAreas (db : DB) : List (Option Nat) → Option DB
  | [] => some db
  | k :: ks => match initArea db k with
    | none => none
    | some db => initAreas db ks

/-- The loop of `init_hash_subarea`, line 451. -/
def clearArray (start : Nat) : Nat → (Nat → Nat) → Nat → (Nat → Nat)
  | 0, mem, _ => mem
  | n + 1, mem, j => clearArray start n (upd mem (start + j * 8) 0) (j + 1)

/-- `init_hash_subarea`, Db/dballoc.c lines 430-454. -/
def initHash (db : DB) (len : Nat) : Option DB :=
  let asize := (len + 1) * 8 + 2 * 8
  match allocChunk db.free db.size asize with
  | none => none
  | some (chunk, free) =>
    let i := 8 - chunk % 8
    let i := if i = 8 then 0 else i
    some { db with mem := clearArray (chunk + i) len db.mem 0, free := free, arrays := db.arrays ++ [(chunk + i, len)] }

/-- `init_syn_vars`, Db/dballoc.c lines 338-362: with the queued lock (LOCK_PROTO 3) a chunk for `MAX_LOCKS` nodes and the lock word,
aligned to 128 bytes; otherwise the lock is in the header. What `wg_init_locks` writes there is left out. -/
def initLocks (db : DB) (queued : Bool) : Option DB :=
  if queued then
    match allocChunk db.free db.size (128 * (64 + 2)) with
    | none => none
    | some (chunk, free) => some { db with free := free, arrays := db.arrays ++ [((chunk + 127) / 128 * 128, 128 * 65 / 8)] }
  else some db

/-- `wg_init_db_memsegment`, Db/dballoc.c lines 99-257, on memory `mem` of `size` bytes. `hdr`: `sizeof(db_memsegment_header)`; `len`:
the length of the string hash table, computed with floating point numbers in lines 419-423; `queued`: LOCK_PROTO 3. The reasoner's
constants are left out (not configured). `none` is an error result. -/
def initDb (mem : Nat → Nat) (hdr size len : Nat) (queued : Bool) : Option DB :=
  let i := 8 - hdr % 8
  let i := if i = 8 then 0 else i
  match initAreas ⟨mem, hdr + i, size, [], []⟩ layout with
  | none => none
  | some db => match initHash db len with
    | none => none
    | some db => initLocks db queued

/-- The stores that `wg_init_db_memsegment` makes before it first looks at the size, Db/dballoc.c lines 106-127: offset and length of
`mark`, `version`, `features`, `checksum`, `size`, `initialadr`, `key`, `free` in `db_memsegment_header` (Db/dballoc.h lines 470-481). -/
def headerStores : List (Nat × Nat) := [(0, 4), (4, 4), (8, 4), (12, 4), (16, 8), (32, 8), (40, 8), (24, 8)]

/-- Allocation in area `i`: `wg_alloc_gints` for variable-length areas (Db/dballoc.c lines 873-1000), `wg_alloc_fixlen_object` for the
others (lines 725-748), which ignores `n`. The result `none` is offset 0. -/
def alloc (db : DB) (i n : Nat) : DB × Option Nat :=
  match db.areas[i]? with
  | none => (db, none)
  | some (.var fb subs) => let (st, r) := Varlen.alloc (db.var fb subs) n; (db.setVar i st, r)
  | some (.fix obj fl subs) => let (st, r) := Fixlen.alloc (db.fix obj fl subs); (db.setFix i st, r)

/-- `wg_free_object` (Db/dballoc.c lines 1174-1374) or the functions for cells (lines 800-870). -/
def free (db : DB) (i a : Nat) : DB :=
  match db.areas[i]? with
  | none => db
  | some (.var fb subs) => db.setVar i (Varlen.free (db.var fb subs) a).1
  | some (.fix obj fl subs) => db.setFix i (Fixlen.free (db.fix obj fl subs) a)

/-- `wg_create_hash`, Db/dballoc.c lines 1438-1445: the array of a new hash index; `DEFAULT_IDXHASH_LENGTH` is in Db/dballoc.h line 169. -/
def createHash (db : DB) (size : Int) : Option DB := initHash db (if size ≤ 0 then 10000 else size.toNat)

end WG.Segment
