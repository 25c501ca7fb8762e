import Verif.Encoding.Model
/-!
# Records, references and strings

Model of record creation and deletion, field updates, parent lookup, freeing of stored values (Db/dbdata.c) and of the interning of long
strings (Db/dbdata.c, Db/dbhash.c).

Simplifications, for the whole file:
* The heap is a map from offsets to live objects, one map per area. That objects of one area or of different areas do not overlap, and
  keep their words and sizes while others are allocated and freed, is C08, C09, C11 and C12. Access to an offset without a live object is
  undefined behaviour, the outcome `none` of every function here; so is the write to offset 0 that follows an unchecked failed allocation.
* What the allocator returns is a parameter of each operation (`none` is failure).
* The index functions are parameters (`Ix`): they change only index structures and return a code.
* No journal (USE_DBLOG off), no child databases. Reference counts do not overflow; strings are shorter than 2^31 bytes.
-/
namespace WG.Recs

abbrev Byte := BitVec 8

/-- A backlink cell, `gcell` (Db/dballoc.h): the parent's offset and the offset of the next cell. -/
structure Cell where
  car : Word
  cdr : Word
  deriving DecidableEq

/-- A record (Db/dbdata.h lines 256-278): meta word, head of the backlink chain, fields. The size word is the number of fields. -/
structure Rec where
  info : Word
  back : Word
  fields : List Word
  deriving DecidableEq

/-- A long string object (Db/dbdata.h lines 597-629): meta word, reference count, next string in the hash bucket (encoded), extra string
(encoded, 0 if absent) and the bytes after the header, up to the end of the object. -/
structure LStr where
  info : Word
  refc : Int
  chain : Word
  extra : Word
  data : List Byte
  deriving DecidableEq

/-- The areas for records, list cells, long strings, short strings, doubles and full integers, and the string hash array. -/
structure Heap where
  recs : Word → Option Rec
  cells : Word → Option Cell
  lstrs : Word → Option LStr
  sstrs : Word → Option (List Byte)
  dbls : Word → Option Word
  ints : Word → Option Word
  hash : Nat → Word
  hlen : Nat

/-- Function update. -/
def upd {α : Type} (f : Word → Option α) (k : Word) (v : Option α) : Word → Option α := fun x => if x = k then v else f x

/-- An empty database with a string hash array of `n` slots. -/
def Heap.empty (n : Nat) : Heap :=
  ⟨fun _ => none, fun _ => none, fun _ => none, fun _ => none, fun _ => none, fun _ => none, fun _ => 0, n⟩

/-- Loop bound: there are no more than 2^64 offsets. -/
def walkFuel : Nat := 2 ^ 64

/-- `wg_get_encoded_type(db, w) == WG_RECORDTYPE`, Db/dbdata.c lines 1357 ff. -/
def isRecVal (w : Word) : Bool := w != 0#64 && isDatarec w

/-- `is_special_record`, Db/dbdata.h line 270. -/
def Rec.special (r : Rec) : Bool := r.info &&& 1#64 != 0#64
/-- `is_schema_document`, Db/dbdata.h line 278. -/
def Rec.isDoc (r : Rec) : Bool := r.info &&& 0x10#64 != 0#64

/-! ## Backlinks -/

/-- Store into the backlink head of record `c` (`loc = none`) or into the `cdr` of a cell. -/
def Heap.setLink (h : Heap) (c : Word) (loc : Option Word) (w : Word) : Heap :=
  match loc with
  | none => { h with recs := upd h.recs c ((h.recs c).map fun r => { r with back := w }) }
  | some x => { h with cells := upd h.cells x ((h.cells x).map fun y => { y with cdr := w }) }

/-- The loop removing parent `p` from the backlinks of `c` (Db/dbdata.c lines 263-272 and 701-710): `*next_offset` is at `loc` and holds
`cur`. `some none`: corrupt chain. -/
def unlinkBack (h : Heap) (c p : Word) : Nat → Option Word → Word → Option (Option Heap)
  | 0, _, _ => none
  | n + 1, loc, cur =>
    if cur = 0#64 then some none
    else match h.cells cur with
      | none => none
      | some x =>
        if x.car = p then
          let h1 := h.setLink c loc x.cdr
          some (some { h1 with cells := upd h1.cells cur none })
        else unlinkBack h c p n (some cur) x.cdr

/-- Lines 258-275 and 696-712 of Db/dbdata.c. -/
def removeBacklink (h : Heap) (c p : Word) : Option (Option Heap) :=
  match h.recs c with
  | none => none
  | some r => unlinkBack h c p walkFuel none r.back

/-- The loop finding the end of the chain, Db/dbdata.c lines 763-767: the new cell `q` is appended. -/
def appendBack (h : Heap) (c p q : Word) : Nat → Option Word → Word → Option Heap
  | 0, _, _ => none
  | n + 1, loc, cur =>
    if cur = 0#64 then
      let h1 := { h with cells := upd h.cells q (some ⟨p, 0#64⟩) }
      some (h1.setLink c loc q)
    else match h.cells cur with
      | none => none
      | some x => appendBack h c p q n (some cur) x.cdr

/-- Lines 755-768 and 896-909 of Db/dbdata.c: record `p` now refers to `c`. The result of the allocation is not checked: with 0 the cell is
written over the database header. -/
def addBacklink (h : Heap) (c p : Word) (q : Option Word) : Option Heap :=
  match h.recs c, q with
  | some r, some q => appendBack h c p q walkFuel none r.back
  | _, _ => none

/-- wg_get_first_parent, Db/dbdata.c lines 417-433; `some none` is NULL. -/
def firstParent (h : Heap) (r : Word) : Option (Option Word) :=
  match h.recs r with
  | none => none
  | some x => if x.back = 0#64 then some none else (h.cells x.back).map fun c => some c.car

/-- The loop of wg_get_next_parent, Db/dbdata.c lines 449-456. -/
def nextParentLoop (h : Heap) (p : Word) : Nat → Cell → Option (Option Word)
  | 0, _ => none
  | n + 1, c =>
    if c.cdr = 0#64 then some none
    else match h.cells c.cdr with
      | none => none
      | some d => if c.car = p ∧ d.car ≠ 0#64 then some (some d.car) else nextParentLoop h p n d

/-- wg_get_next_parent, Db/dbdata.c lines 438-460. -/
def nextParent (h : Heap) (r p : Word) : Option (Option Word) :=
  match h.recs r with
  | none => none
  | some x =>
    if x.back = 0#64 then some none
    else match h.cells x.back with
      | none => none
      | some c => nextParentLoop h p walkFuel c

/-! ## Strings -/

/-- The C string at the start of some bytes; `none` if there is no terminating 0. -/
def cstr (bs : List Byte) : Option (List Byte) := if 0#8 ∈ bs then some (bs.takeWhile (· ≠ 0#8)) else none

/-- wg_hash_typedstr, Db/dbhash.c lines 141-159 (the type is not used). `char` is signed. -/
def hashTyped (hlen : Nat) (data : List Byte) (extra : Option (List Byte)) : Nat :=
  let step := fun (h : Word) (c : Byte) => c.signExtend 64 + (h <<< 6) + (h <<< 16) - h
  ((extra.getD []).foldl step (data.foldl step 0#64)).toNat % hlen

/-- `getusedobjectsize(*objptr)` of a long string object (Db/dballoc.h line 225): at least six words, a multiple of 8. -/
def LStr.size (s : LStr) : Nat := 48 + s.data.length
/-- `objsize - ((meta & LONGSTR_META_LENDIFMASK) >> LONGSTR_META_LENDIFSHFT)`, e.g. Db/dbdata.c line 2764. -/
def LStr.len (s : LStr) : Nat := s.size - ((s.info &&& 0xff00#64) >>> 8).toNat
/-- `meta & LONGSTR_META_TYPEMASK`. -/
def LStr.type (s : LStr) : Word := s.info &&& 0xff#64

/-- wg_decode_unistr, Db/dbdata.c lines 2678-2702: the bytes from the returned pointer to the end of the object. -/
def decodeBytes (h : Heap) (w : Word) : Option (List Byte) :=
  if isShortstr w then h.sstrs (decodeShortstr w)
  else if isLongstr w then (h.lstrs (decodeLongstr w)).map (·.data)
  else none

/-- wg_decode_str and relatives as C strings. -/
def decodeStr (h : Heap) (w : Word) : Option (List Byte) := (decodeBytes h w).bind cstr

/-- The extra string of a long string as read by wg_decode_str_lang (lines 2705-2729) and by wg_remove_from_strhash
(Db/dbhash.c lines 236-239): `some none` is NULL. -/
def extraOf (h : Heap) (s : LStr) : Option (Option (List Byte)) :=
  if s.extra = 0#64 then some none else (decodeStr h s.extra).map some

/-- wg_right_strhash_bucket, Db/dbhash.c lines 186-205. -/
def rightBucket (h : Heap) (s : LStr) (data : List Byte) (extra : Option (List Byte)) (type : Word) : Option Bool :=
  if s.type ≠ type then some false
  else if s.len ≠ data.length then some false
  else if s.data.take data.length ≠ data then some false
  else (extraOf h s).map fun e => decide (e = extra)

/-- wg_find_strhash_bucket, Db/dbhash.c lines 168-180: 0 if not found. -/
def findBucket (h : Heap) (data : List Byte) (extra : Option (List Byte)) (type : Word) : Nat → Word → Option Word
  | 0, _ => none
  | n + 1, cur =>
    if cur = 0#64 then some 0#64
    else match h.lstrs (decodeLongstr cur) with
      | none => none
      | some s =>
        match rightBucket h s data extra type with
        | none => none
        | some true => some cur
        | some false => findBucket h data extra type n s.chain

/-- Store into hash slot `b` (`loc = none`) or into the chain word of an encoded long string. -/
def Heap.setChain (h : Heap) (b : Nat) (loc : Option Word) (w : Word) : Heap :=
  match loc with
  | none => { h with hash := fun i => if i = b then w else h.hash i }
  | some x => { h with lstrs := upd h.lstrs (decodeLongstr x) ((h.lstrs (decodeLongstr x)).map fun y => { y with chain := w }) }

/-- The loop of wg_remove_from_strhash, Db/dbhash.c lines 252-260. If the string is not found (lines 261-262) the callers ignore it. -/
def unlinkStr (h : Heap) (b : Nat) (w : Word) : Nat → Option Word → Word → Option Heap
  | 0, _, _ => none
  | n + 1, loc, cur =>
    if cur = 0#64 then some h
    else match h.lstrs (decodeLongstr cur) with
      | none => none
      | some s => if cur = w then some (h.setChain b loc s.chain) else unlinkStr h b w n (some cur) s.chain

/-- wg_remove_from_strhash, Db/dbhash.c lines 213-264. -/
def removeStrhash (h : Heap) (w : Word) : Option Heap :=
  match h.lstrs (decodeLongstr w) with
  | none => none
  | some s =>
    match extraOf h s with
    | none => none
    | some e =>
      let b := hashTyped h.hlen (s.data.take s.len) e
      unlinkStr h b w walkFuel none (h.hash b)

/-- free_field_encoffset, Db/dbdata.c lines 1229-1335. The first argument bounds the recursion into extra strings, which never have
extra strings themselves. Freeing a cell that is not allocated is undefined behaviour. -/
def freeField : Nat → Heap → Word → Option Heap
  | 0, _, _ => none
  | n + 1, h, w =>
    if isDatarec w then some h
    else if isLongstr w then
      match h.lstrs (decodeLongstr w) with
      | none => none
      | some s =>
        if s.refc - 1 > 0 then some { h with lstrs := upd h.lstrs (decodeLongstr w) (some { s with refc := s.refc - 1 }) }
        else
          match removeStrhash h w with
          | none => none
          | some h1 =>
            match (if s.extra ≠ 0#64 then freeField n h1 s.extra else some h1) with
            | none => none
            | some h2 => some { h2 with lstrs := upd h2.lstrs (decodeLongstr w) none }
    else if isShortstr w then
      if (h.sstrs (decodeShortstr w)).isSome then some { h with sstrs := upd h.sstrs (decodeShortstr w) none } else none
    else if isFulldouble w then
      if (h.dbls (decodeFulldouble w)).isSome then some { h with dbls := upd h.dbls (decodeFulldouble w) none } else none
    else if isFullint w then
      if (h.ints (decodeFullintOffset w)).isSome then some { h with ints := upd h.ints (decodeFullintOffset w) none } else none
    else some h

/-- Recursion bound for `freeField`. -/
def freeDepth : Nat := 8

/-- Increment the reference count of a long string, Db/dbdata.c lines 720-727, 875-883, 1206-1214, 2645-2648. -/
def incRef (h : Heap) (w : Word) : Option Heap :=
  if isLongstr w then
    match h.lstrs (decodeLongstr w) with
    | none => none
    | some s => some { h with lstrs := upd h.lstrs (decodeLongstr w) (some { s with refc := s.refc + 1 }) }
  else some h

/-- wg_free_encoded, Db/dbdata.c lines 1186-1217. -/
def freeEncoded (h : Heap) (w : Word) : Option Heap :=
  if isPtr w then (incRef h w).bind fun h1 => freeField freeDepth h1 w else some h

/-- wg_encode_int, Db/dbdata.c lines 1465-1504. -/
def encInt (h : Heap) (v : Word) (al : Option Word) : Heap × Word :=
  if fitsSmallint v then (h, encodeSmallint v)
  else match al with
    | none => (h, illegal)
    | some o => ({ h with ints := upd h.ints o (some v) }, encodeFullintOffset o)

/-- wg_encode_double, Db/dbdata.c lines 1551-1589, on the bit pattern. -/
def encDouble (h : Heap) (v : Word) (al : Option Word) : Heap × Word :=
  match al with
  | none => (h, illegal)
  | some o => ({ h with dbls := upd h.dbls o (some v) }, encodeFulldouble o)

/-- The short string branch of wg_encode_unistr, Db/dbdata.c lines 2517-2547 (SHORTSTR_SIZE is 32). -/
def encShort (h : Heap) (str : List Byte) (al : Option Word) : Heap × Word :=
  match al with
  | none => (h, illegal)
  | some o => ({ h with sstrs := upd h.sstrs o (some (str ++ List.replicate (32 - str.length) 0#8)) }, encodeShortstr o)

/-- Number of words for `length` bytes, Db/dbdata.c lines 2618-2620. -/
def lenGints (length : Nat) : Nat := length / 8 + (if length % 8 ≠ 0 then 1 else 0)

/-- The object built by find_create_longstr, Db/dbdata.c lines 2629-2671: contents, zero padding, meta word with the difference between the
object's size and the string's, reference count 0, chain. -/
def newLong (data : List Byte) (type extra chain : Word) : LStr :=
  let bytes := data ++ List.replicate (lenGints data.length * 8 - data.length) 0#8
  { info := (BitVec.ofNat 64 (48 + bytes.length - data.length) <<< 8) ||| type, refc := 0, chain := chain, extra := extra, data := bytes }

/-- find_create_longstr, Db/dbdata.c lines 2587-2674. `ex` is the encoding of the extra string (the call of wg_encode_str at line 2639). The
result 0 is failure: if the extra string cannot be encoded the allocated object is never used again (in the model it does not come into
being). The bucket's head is read before the extra string is encoded. -/
def findCreate (ex : Heap → List Byte → Option (Heap × Word)) (h : Heap) (data : List Byte) (extra : Option (List Byte)) (type : Word)
    (al : Option Word) : Option (Heap × Word) :=
  let b := hashTyped h.hlen data extra
  let head := h.hash b
  match findBucket h data extra type walkFuel head with
  | none => none
  | some old =>
    if old ≠ 0#64 then some (h, old)
    else match al with
      | none => some (h, 0#64)
      | some o =>
        let fin := fun (h1 : Heap) (e : Word) =>
          (incRef h1 e).map fun h2 =>
            ({ h2 with lstrs := upd h2.lstrs o (some (newLong data type e head))
                       hash := fun i => if i = b then encodeLongstr o else h2.hash i }, encodeLongstr o)
        match extra with
        | none => fin h 0#64
        | some x =>
          match ex h x with
          | none => none
          | some (h1, e) => if e = illegal then some (h1, 0#64) else fin h1 e

/-- What the allocator returns during the encoding of a string: for the string itself and for its extra string. -/
structure StrAlloc where
  short : Option Word
  long : Option Word
  exShort : Option Word
  exLong : Option Word

/-- `wg_encode_str(db, str, NULL)` for an extra string: Db/dbdata.c lines 2484-2569 with `lang == NULL`, type WG_STRTYPE (5). -/
def encExtra (al : StrAlloc) (h : Heap) (str : List Byte) : Option (Heap × Word) :=
  if str.length < 32 then some (encShort h str al.exShort)
  else
    match findCreate (fun _ _ => none) h (str ++ [0#8]) none 5#64 al.exLong with
    | none => none
    | some (h1, w) => some (h1, if w = 0#64 then illegal else encodeLongstr w)

/-- wg_encode_unistr, Db/dbdata.c lines 2484-2569. The string is given without its terminating 0. -/
def encUnistr (h : Heap) (str : List Byte) (lang : Option (List Byte)) (type : Word) (al : StrAlloc) : Option (Heap × Word) :=
  if lang = none ∧ type = 5#64 ∧ str.length < 32 then some (encShort h str al.short)
  else
    match findCreate (encExtra al) h (str ++ [0#8]) lang type al.long with
    | none => none
    | some (h1, w) => some (h1, if w = 0#64 then illegal else encodeLongstr w)

/-- wg_encode_uniblob, Db/dbdata.c lines 2572-2584. -/
def encUniblob (h : Heap) (data : List Byte) (lang : Option (List Byte)) (type : Word) (al : StrAlloc) : Option (Heap × Word) :=
  match findCreate (encExtra al) h data lang type al.long with
  | none => none
  | some (h1, w) => some (h1, if w = 0#64 then illegal else encodeLongstr w)

/-- wg_decode_unistr_len, Db/dbdata.c lines 2737-2769. -/
def decodeLen (h : Heap) (w : Word) : Option Int :=
  if isShortstr w then (decodeStr h w).map fun s => (s.length : Int)
  else if isLongstr w then (h.lstrs (decodeLongstr w)).map fun s => (s.len : Int) - 1
  else some 0

/-- wg_decode_unistr_lang, Db/dbdata.c lines 2705-2729, as a C string; `some none` is NULL. -/
def decodeLang (h : Heap) (w : Word) (type : Word) : Option (Option (List Byte)) :=
  if type = 5#64 ∧ isShortstr w then some none
  else if isLongstr w then
    match h.lstrs (decodeLongstr w) with
    | none => none
    | some s => extraOf h s
  else some none

/-- The loop copying a short string, Db/dbdata.c lines 2804-2812: `i` starts at 1; result: what was written (without the final 0) and the
last value of `i`, or −1. -/
def copyShort (buflen : Nat) : Nat → List Byte → Nat → List Byte → List Byte × Int
  | 0, _, i, out => (out, i - 1)
  | _ + 1, [], i, out => (out, i - 1)
  | n + 1, b :: t, i, out =>
    if i < 32 ∧ b ≠ 0#8 then
      if i ≥ buflen then (out, -1) else copyShort buflen n t (i + 1) (out ++ [b])
    else (out ++ [0#8], i - 1)

/-- wg_decode_unistr_copy, Db/dbdata.c lines 2778-2839: the bytes written to the buffer and the result. -/
def decodeCopy (h : Heap) (w : Word) (buflen : Nat) (type : Word) : Option (List Byte × Int) :=
  if type = 5#64 ∧ isShortstr w then (h.sstrs (decodeShortstr w)).map fun bs => copyShort buflen 32 bs 1 []
  else if isLongstr w then
    (h.lstrs (decodeLongstr w)).map fun s =>
      if buflen < s.len then ([], -1)
      else (s.data.take s.len, if type = 8#64 then (s.len : Int) else s.len - 1)
  else some ([], -1)

/-! ## Index interface -/

/-- The index functions of Db/dbindex.c as seen by the record functions: `addRec`/`delRec` (wg_index_add_rec, wg_index_del_rec), `addField`/
`delField` (wg_index_add_field, wg_index_del_field), and whether `index_table[col]`, `index_template_table[col]` are nonzero. -/
structure Ix (ι : Type) where
  addRec : Heap → ι → Word → ι × Int
  delRec : Heap → ι → Word → ι × Int
  addField : Heap → ι → Word → Nat → ι × Int
  delField : Heap → ι → Word → Nat → ι × Int
  byCol : ι → Nat → Bool
  byTmpl : ι → Nat → Bool

/-- Heap and indexes. -/
structure Db (ι : Type) where
  h : Heap
  ix : ι

variable {ι : Type}

/-- The loop over the columns of one record in remove_/restore_backlink_index_entries (Db/dbdata.c lines 488-501, 546-555): `op` is
wg_index_del_field or wg_index_add_field; `false`: error. -/
def visitCols (X : Ix ι) (op : ι → Word → Nat → ι × Int) (r value : Word) : List Word → Nat → ι → ι × Bool
  | [], _, x => (x, true)
  | w :: t, col, x =>
    if col ≤ 127 ∧ w = value ∧ X.byCol x col then
      let y := op x r col
      if y.2 < -1 then (y.1, false) else visitCols X op r value t (col + 1) y.1
    else visitCols X op r value t (col + 1) x

/-- The loop over a backlink chain, `for(;;) {...}` (e.g. lines 510-520): `f` is applied to every parent. -/
def visitChain (h : Heap) (f : ι → Word → Option (ι × Bool)) : Nat → Word → ι → Option (ι × Bool)
  | 0, _, _ => none
  | n + 1, cur, x =>
    match h.cells cur with
    | none => none
    | some c =>
      match f x c.car with
      | none => none
      | some (y, false) => some (y, false)
      | some (y, true) => if c.cdr = 0#64 then some (y, true) else visitChain h f n c.cdr y

/-- remove_backlink_index_entries and restore_backlink_index_entries (Db/dbdata.c lines 474-525, 534-573), which differ only in `op`.
`depth` is the parameter of the C function. -/
def visitParents (X : Ix ι) (op : ι → Word → Nat → ι × Int) (h : Heap) : Nat → Word → ι → Word → Option (ι × Bool)
  | depth, value, x, r =>
    match h.recs r with
    | none => none
    | some rc =>
      let y := if rc.special then (x, true) else visitCols X op r value rc.fields 0 x
      if y.2 then
        match depth with
        | 0 => some y
        | d + 1 => if rc.back = 0#64 then some y else visitChain h (visitParents X op h d r) walkFuel rc.back y.1
      else some y

/-- `!is_special_record(record) && fieldnr<=MAX_INDEXED_FIELDNR && (index_table[fieldnr] || index_template_table[fieldnr])`,
Db/dbdata.c lines 651-653. -/
def touches (X : Ix ι) (x : ι) (r : Rec) (i : Nat) : Bool := !r.special && decide (i ≤ 127) && (X.byCol x i || X.byTmpl x i)

/-! ## Fields -/

/-- Store into field `i` of record `r`. -/
def Heap.setFld (h : Heap) (r : Word) (i : Nat) (v : Word) : Heap :=
  { h with recs := upd h.recs r ((h.recs r).map fun x => { x with fields := x.fields.set i v }) }

/-- wg_get_field, Db/dbdata.c lines 1149-1165. -/
def getField (h : Heap) (r : Word) (i : Int) : Option Word :=
  (h.recs r).map fun x => if i < 0 ∨ (x.fields.length : Int) ≤ i then illegal else x.fields.getD i.toNat 0#64

/-- wg_get_record_len, Db/dbdata.c lines 582-591. -/
def recordLen (h : Heap) (r : Word) : Option Nat := (h.recs r).map (·.fields.length)

/-- The last part of wg_set_field and wg_set_new_field (lines 772-788 and 912-932): parents of `r` go back into their indexes; `head` is the
backlink list. -/
def restoreParents (X : Ix ι) (h : Heap) (x : ι) (r head : Word) : Option (Db ι × Int) :=
  if head = 0#64 then some (⟨h, x⟩, 0)
  else (visitChain h (visitParents X (X.addField h) h 6 r) walkFuel head x).map fun y => (⟨h, y.1⟩, if y.2 then 0 else -4)

/-- The part of both functions after the field was stored (lines 732-768 and 885-909): index the new value, add the backlink. -/
def afterStore (X : Ix ι) (h : Heap) (x : ι) (r : Word) (i : Nat) (v : Word) (cell : Option Word) : Option (Db ι × Option Int) :=
  match h.recs r with
  | none => none
  | some rc =>
    let y := if touches X x rc i then X.addField h x r i else (x, 0)
    if y.2 < -1 then some (⟨h, y.1⟩, some (-3))
    else if isRecVal v then (addBacklink h v r cell).map fun h => (⟨h, y.1⟩, none)
    else some (⟨h, y.1⟩, none)

/-- The part of wg_set_field that changes the heap (lines 687-730): remove the old reference's backlink, count the new string, free the old
value, store. `some none`: corrupt chain. -/
def replaceField (h : Heap) (r : Word) (i : Nat) (old v : Word) : Option (Option Heap) :=
  match (if isRecVal old then removeBacklink h old r else some (some h)) with
  | none => none
  | some none => some none
  | some (some h1) =>
    (incRef h1 v).bind fun h2 =>
      (if isPtr old then freeField freeDepth h2 old else some h2).map fun h3 => some (h3.setFld r i v)

/-- The part of wg_set_field before the heap is changed (lines 646-678): the indexes forget the old value of the field and of the records
above. The code is 0, −3 or −4. -/
def forgetField (X : Ix ι) (s : Db ι) (r : Word) (i : Nat) (rc : Rec) : Option (ι × Int) :=
  let y := if touches X s.ix rc i then X.delField s.h s.ix r i else (s.ix, 0)
  if y.2 < -1 then some (y.1, -3)
  else if rc.back = 0#64 then some (y.1, 0)
  else (visitChain s.h (visitParents X (X.delField s.h) s.h 6 r) walkFuel rc.back y.1).map fun z => (z.1, if z.2 then 0 else -4)

/-- wg_set_field, Db/dbdata.c lines 613-801. -/
def setField (X : Ix ι) (s : Db ι) (r : Word) (i : Int) (v : Word) (cell : Option Word) : Option (Db ι × Int) :=
  match s.h.recs r with
  | none => none
  | some rc =>
    if i < 0 ∨ (rc.fields.length : Int) ≤ i then some (s, -2)
    else
      let old := rc.fields.getD i.toNat 0#64
      if old = v then some (s, 0)
      else
        match forgetField X s r i.toNat rc with
        | none => none
        | some (x1, code) =>
          if code ≠ 0 then some (⟨s.h, x1⟩, code)
          else
            match replaceField s.h r i.toNat old v with
            | none => none
            | some none => some (⟨s.h, x1⟩, -4)
            | some (some h1) =>
              match afterStore X h1 x1 r i.toNat v cell with
              | none => none
              | some (s2, some code) => some (s2, code)
              | some (s2, none) => restoreParents X s2.h s2.ix r rc.back

/-- wg_set_new_field, Db/dbdata.c lines 822-936. -/
def setNewField (X : Ix ι) (s : Db ι) (r : Word) (i : Int) (v : Word) (cell : Option Word) : Option (Db ι × Int) :=
  match s.h.recs r with
  | none => none
  | some rc =>
    if i < 0 ∨ (rc.fields.length : Int) ≤ i then some (s, -2)
    else if rc.fields.getD i.toNat 0#64 ≠ 0#64 then some (s, -2)
    else
      match incRef (s.h.setFld r i.toNat v) v with
      | none => none
      | some h1 =>
        match afterStore X h1 s.ix r i.toNat v cell with
        | none => none
        | some (s2, some code) => some (s2, code)
        | some (s2, none) =>
          match s2.h.recs r with
          | none => none
          | some rc2 => restoreParents X s2.h s2.ix r rc2.back

/-! ## Records -/

/-- wg_create_raw_record, Db/dbdata.c lines 141-193, followed by the setting of meta bits as done by wg_create_array and wg_create_object
(Db/dbschema.c lines 97-155; 0 for plain records). The offset is 0 on failure. -/
def createRaw (h : Heap) (len : Int) (bits : Word) (al : Option Word) : Heap × Word :=
  if len < 0 then (h, 0#64)
  else match al with
    | none => (h, 0#64)
    | some o => ({ h with recs := upd h.recs o (some ⟨bits, 0#64, List.replicate len.toNat 0#64⟩) }, o)

/-- wg_create_record, Db/dbdata.c lines 118-126, and wg_create_array / wg_create_object, Db/dbschema.c lines 97-155; with `isparam` the bits
include RECORD_META_NOTDATA (1) and the record is not indexed. 0 stands for NULL. -/
def createRecord (X : Ix ι) (s : Db ι) (len : Int) (bits : Word) (al : Option Word) : Db ι × Word :=
  let (h, o) := createRaw s.h len bits al
  if o = 0#64 then (⟨h, s.ix⟩, 0#64)
  else
    let y := if bits &&& 1#64 ≠ 0#64 then (s.ix, 0) else X.addRec h s.ix o
    (⟨h, y.1⟩, if y.2 < -1 then 0#64 else o)

/-- The loop over the fields of a record being deleted, Db/dbdata.c lines 246-279: `none` in the second component is the error −3. -/
def freeFields (r : Word) : List Word → Heap → Option (Option Heap)
  | [], h => some (some h)
  | w :: t, h =>
    match (if isRecVal w then removeBacklink h w r else some (some h)) with
    | none => none
    | some none => some none
    | some (some h1) =>
      match (if isPtr w then freeField freeDepth h1 w else some h1) with
      | none => none
      | some h2 => freeFields r t h2

/-- wg_delete_record, Db/dbdata.c lines 204-289. After the error −3 in the middle of the loop the heap is what it was at that point; the
model keeps the heap from before, which is never observable (`delete_ok`: the error does not occur). -/
def deleteRecord (X : Ix ι) (s : Db ι) (r : Word) : Option (Db ι × Int) :=
  match s.h.recs r with
  | none => none
  | some rc =>
    if rc.back ≠ 0#64 then some (s, -1)
    else
      let y := if rc.special then (s.ix, 0) else X.delRec s.h s.ix r
      if y.2 < -1 then some (⟨s.h, y.1⟩, -3)
      else match freeFields r rc.fields s.h with
        | none => none
        | some none => some (⟨s.h, y.1⟩, -3)
        | some (some h1) => some (⟨{ h1 with recs := upd h1.recs r none }, y.1⟩, 0)

end WG.Recs
