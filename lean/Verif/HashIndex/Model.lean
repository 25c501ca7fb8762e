import Verif.Compare.Model
/-!
# Hash indexes (Db/dbhash.c lines 266-564, Db/dbindex.c lines 1467-1708)
-/
namespace WG.HashIndex

abbrev Byte := BitVec 8
/-- Byte strings that are hashed. -/
abbrev Key := List Byte

/-! ## Bytes of a value -/

/-- Bytes of a `gint` or `double` in memory (little endian). -/
def bytes8 (w : Word) : Key := (List.range 8).map fun i => w.extractLsb' (8 * i) 8
/-- Bytes of an `int` in memory. -/
def bytes4 (w : BitVec 32) : Key := (List.range 4).map fun i => w.extractLsb' (8 * i) 8

/-- The IEEE 754 quotient `n / 10000.0` without sign, rounded to nearest, ties to even, as the bits of a double (for 0 ≤ n ≤ 8000000). -/
def quotMag (n : Nat) : Nat :=
  if n = 0 then 0
  else
    let s := 132 - Nat.log2 (n * 2 ^ 80 / 10000)
    let q := n * 2 ^ s / 10000
    let r := n * 2 ^ s % 10000
    (1075 - s) * 2 ^ 52 + ((if 10000 < 2 * r ∨ (2 * r = 10000 ∧ q % 2 = 1) then q + 1 else q) - 2 ^ 52)

/-- `decode_fixpoint`, Db/dbdata.h line 396: the division of the scaled number by 10000.0. -/
def quot (i : Word) : Word := BitVec.ofNat 64 (if i.toInt < 0 then 2 ^ 63 + quotMag i.toInt.natAbs else quotMag i.toInt.natAbs)

/-- What the index code reads from the database: the decoding functions and the elements of JSON arrays (`is_schema_array`). -/
structure Env where
  R : Reader
  arr : Word → Option (List Word)

/-- CONCAT_FOR_HASHING, Db/dbhash.c lines 269-280. -/
def concatExtra : Option Key → Key → Key
  | none, b => b
  | some e, b => e ++ 0#8 :: b

/-- wg_decode_for_hashing, Db/dbhash.c lines 293-385: a type byte and the bytes of the decoded value; `none`: returns 0. Integers and
variable numbers are cut to 32 bits (`intdata` is an `int`). -/
def hashable (E : Env) (w : Word) : Option Key :=
  match E.R.typ w with
  | some .null => some (1#8 :: bytes8 0#64)
  | some .record => some (2#8 :: bytes8 w)
  | some .int => some (3#8 :: bytes4 ((E.R.int w).setWidth 32))
  | some .double => some (4#8 :: bytes8 (E.R.dbl w))
  | some .fixpoint => some (10#8 :: bytes8 (quot ((decodeFixpoint w).getD 0#64)))
  | some .str => some (5#8 :: E.R.str w)
  | some .uri => some (7#8 :: concatExtra (E.R.lang w) (E.R.str w))
  | some .xmlliteral => some (6#8 :: concatExtra (E.R.lang w) (E.R.str w))
  | some .char => some (9#8 :: bytes4 ((decodeChar w).signExtend 32))
  | some .date => some (11#8 :: bytes4 ((decodeDate w).getD 0#32))
  | some .time => some (12#8 :: bytes4 ((decodeTime w).getD 0#32))
  | some .var => some (14#8 :: bytes4 (((decodeVar w).getD (-1#64)).setWidth 32))
  | some .anonconst | some .blob | none => none

/-! ## The hash table -/

/-- A bucket of a hash chain: key bytes and the list of row offsets (`HASHIDX_RECLIST_POS`). -/
structure Bucket where
  key : Key
  rows : List Word

/-- The array of hash chains (db_hash_area_header). -/
structure Table where
  size : Nat
  chain : Nat → List Bucket

/-- hash_bytes, Db/dbhash.c lines 390-400 (`char` is signed). -/
def hashBytes (d : Key) (n : Nat) : Nat := (d.foldl (fun (h : Word) b => b.signExtend 64 + (h <<< 6) + (h <<< 16) - h) 0#64).toNat % n

/-- find_idxhash_bucket, Db/dbhash.c lines 408-425: length and bytes are compared. -/
def findBucket (k : Key) : List Bucket → Option Bucket
  | [] => none
  | b :: l => if b.key = k then some b else findBucket k l

/-- The chain with the row list of the bucket of `k` replaced. -/
def setRows (k : Key) (rows : List Word) : List Bucket → List Bucket
  | [] => []
  | b :: l => if b.key = k then { b with rows := rows } :: l else b :: setRows k rows l

/-- The chain without the bucket of `k`. -/
def dropBucket (k : Key) : List Bucket → List Bucket
  | [] => []
  | b :: l => if b.key = k then l else b :: dropBucket k l

/-- The table with another chain in slot `i`. -/
def Table.set (T : Table) (i : Nat) (l : List Bucket) : Table := { T with chain := fun j => if j = i then l else T.chain j }

/-- wg_idxhash_store, Db/dbhash.c lines 434-494; allocation does not fail. -/
def store (T : Table) (k : Key) (r : Word) : Table × Int :=
  let i := hashBytes k T.size
  match findBucket k (T.chain i) with
  | none => (T.set i (⟨k, [r]⟩ :: T.chain i), 0)
  | some b => (T.set i (setRows k (r :: b.rows) (T.chain i)), 0)

/-- wg_idxhash_remove, Db/dbhash.c lines 502-541. -/
def remove (T : Table) (k : Key) (r : Word) : Table × Int :=
  let i := hashBytes k T.size
  match findBucket k (T.chain i) with
  | none => (T, -1)
  | some b =>
    if r ∉ b.rows then (T, -1)
    else if b.rows.erase r = [] then (T.set i (dropBucket k (T.chain i)), 0)
    else (T.set i (setRows k (b.rows.erase r) (T.chain i)), 0)

/-- wg_idxhash_find, Db/dbhash.c lines 549-564: the list of rows, empty for 0. -/
def lookup (T : Table) (k : Key) : List Word :=
  match findBucket k (T.chain (hashBytes k T.size)) with
  | none => []
  | some b => b.rows

/-! ## Rows -/

/-- The new prefix in hash_extend_prefix, Db/dbindex.c lines 1570-1590. -/
def extendKey (pre bytes : Key) : Key := if pre = [] then bytes else pre ++ 0#8 :: bytes

/-- The loop over the elements of an array, Db/dbindex.c lines 1531-1537: it stops at the first error. -/
def eachElem {α : Type} (f : α → Table → Table × Int) : List α → Table → Table × Int
  | [], T => (T, 0)
  | x :: l, T => if (f x T).2 ≠ 0 then f x T else eachElem f l (f x T).1

/-- hash_recurse and hash_extend_prefix, Db/dbindex.c lines 1515-1602, for storing and removing (`op`). -/
def recurse (E : Env) (expand : Bool) (op : Table → Key → Table × Int) : List Word → Key → Table → Table × Int
  | [], pre, T => op T pre
  | v :: vs, pre, T =>
    let extend := fun x T => match hashable E x with
      | none => (T, -1)
      | some b => recurse E expand op vs (extendKey pre b) T
    match if expand then E.arr v else none with
    | some elems => eachElem extend elems T
    | none => extend v T

/-- hash_add_row, Db/dbindex.c lines 1474-1484; `values` are the indexed fields of the row `r`, `expand` is true for WG_INDEX_TYPE_HASH_JSON. -/
def addRow (E : Env) (expand : Bool) (T : Table) (r : Word) (values : List Word) : Table × Int :=
  recurse E expand (fun T k => store T k r) values [] T

/-- hash_remove_row, Db/dbindex.c lines 1491-1501. -/
def removeRow (E : Env) (expand : Bool) (T : Table) (r : Word) (values : List Word) : Table × Int :=
  recurse E expand (fun T k => remove T k r) values [] T

/-- The key bytes of a list of values, hash_recurse with HASHIDX_OP_FIND. -/
def keyBytes (E : Env) : List Word → Key → Option Key
  | [], pre => some pre
  | v :: vs, pre => match hashable E v with
    | none => none
    | some b => keyBytes E vs (extendKey pre b)

/-- wg_search_hash, Db/dbindex.c lines 1693-1708, for an index with as many columns as values; `none`: returns -1. -/
def search (E : Env) (T : Table) (values : List Word) : Option (List Word) := (keyBytes E values []).map (lookup T)

/-- A new table (wg_create_hash). -/
def Table.empty (n : Nat) : Table := ⟨n, fun _ => []⟩

/-- create_hash_index, Db/dbindex.c lines 1609-1667: `rows` are the records to be indexed in database order with their indexed fields; the
results of hash_add_row are ignored. -/
def build (E : Env) (expand : Bool) (n : Nat) (rows : List (Word × List Word)) : Table :=
  rows.foldl (fun T e => (addRow E expand T e.1 e.2).1) (Table.empty n)

end WG.HashIndex
