/-!
# Result sets of document queries (Db/dbquery.c) and the hash set they use (Db/dbhash.c)

Rows are record offsets, modelled as `Nat`; 0 is never a row. A result set is a list of pages of 63 slots filled with 0 beyond the rows.
Memory: `Mem` says which allocations succeed. The hash function is a parameter.
-/

namespace WG.ResultSet

/-! ## The set membership hash -/

/-- The primes of dhash_size (Db/dbhash.c:848-854); only the first 20 can be chosen. -/
def primes : List Nat :=
  [389, 769, 1543, 3079, 6151, 12289, 24593, 49157, 98317, 196613, 393241, 786433, 1572869, 3145739, 6291469,
   12582917, 25165843, 50331653, 100663319, 201326611, 402653189, 805306457, 1610612741, 3221225473, 4294967291]

/-- The loop choosing the prime (Db/dbhash.c:860-864): the first of the first 19 above `want`, else the 20th. -/
def pickPrime (want : Nat) : Nat → Nat
  | i => if i < 19 then (if primes.getD i 0 > want then primes.getD i 0 else pickPrime want (i + 1)) else primes.getD i 0
termination_by i => 19 - i

/-- dhash_size (Db/dbhash.c:845-866). -/
def dhashSize (entries : Nat) : Nat :=
  if entries > 2147483645 then 0 else pickPrime (entries * 2) 0

/-- dhash_table (Db/dbhash.c:91-94): size and slots. -/
structure DHash where
  size : Nat
  keys : Nat → Nat

/-- The probing loop of dhash_lookup (Db/dbhash.c:889-893), `n` rounds left, `b` the slot looked at last. The products stay below 2^64. -/
def probe (keys : Nat → Nat) (h1 h2 sz key : Nat) : Nat → Nat → Nat → Nat
  | 0, _, b => b
  | n + 1, i, _ =>
    let b := (h1 + i * h2) % sz
    if keys b = key ∨ keys b = 0 then b else probe keys h1 h2 sz key n (i + 1) b

/-- dhash_lookup (Db/dbhash.c:879-896), macros 868-870. -/
def lookup (hash : Nat → Nat) (t : DHash) (key : Nat) : Nat :=
  let h1 := hash key % t.size
  if t.keys h1 = key ∨ t.keys h1 = 0 then h1
  else probe t.keys h1 (1 + hash key % (t.size - 1)) t.size key (t.size - 1) 1 h1

/-- wg_dhash_init (Db/dbhash.c:904-915): `mem` tells whether the allocations succeed. -/
def dhashInit (mem : Bool) (entries : Nat) : Option DHash :=
  if mem && dhashSize entries != 0 then some ⟨dhashSize entries, fun _ => 0⟩ else none

/-- wg_dhash_addkey (Db/dbhash.c:933-941): `none` is −1. -/
def addkey (hash : Nat → Nat) (t : DHash) (key : Nat) : Option DHash :=
  let b := lookup hash t key
  if t.keys b = 0 then some { t with keys := fun i => if i = b then key else t.keys i }
  else if t.keys b ≠ key then none
  else some t

/-- wg_dhash_haskey (Db/dbhash.c:948-951). -/
def haskey (hash : Nat → Nat) (t : DHash) (key : Nat) : Bool := t.keys (lookup hash t key) == key

/-! ## Result sets -/

/-- QUERY_RESULTSET_PAGESIZE (Db/dbquery.c:57). -/
def pageSize : Nat := 63

/-- query_result_set (Db/dbquery.c:80-86, cursors 75-78, pages 68-73): the chained pages, the read cursor (page number, or `none` for NULL), the write cursor's index
(its page is the last one) and the number of rows. -/
structure RSet where
  pages : List (List Nat)
  rpage : Option Nat
  rpidx : Nat
  wpidx : Nat
  count : Nat

/-- Which allocations succeed while a result set is computed: the set and its pool, the hash table, the `n`-th page of the new set. -/
structure Mem where
  create : Bool
  dhash : Bool
  page : Nat → Bool

/-- create_resultset (Db/dbquery.c:1349-1372). -/
def create (mem : Mem) : Option RSet := if mem.create then some ⟨[], none, 0, pageSize, 0⟩ else none

/-- rewind_resultset (Db/dbquery.c:1386-1389). -/
def rewind (s : RSet) : RSet := { s with rpage := if s.pages = [] then none else some 0, rpidx := 0 }

/-- append_resultset (Db/dbquery.c:1396-1421): `none` is −1. -/
def append (mem : Mem) (s : RSet) (offset : Nat) : Option RSet :=
  let s1 : Option RSet :=
    if s.wpidx ≥ pageSize then
      if mem.page s.pages.length then
        some { s with pages := s.pages ++ [List.replicate pageSize 0], rpage := if s.pages = [] then some 0 else s.rpage, wpidx := 0 }
      else none
    else some s
  s1.map fun s => { s with pages := s.pages.dropLast ++ [(s.pages.getLastD []).set s.wpidx offset], wpidx := s.wpidx + 1, count := s.count + 1 }

/-- fetch_resultset (Db/dbquery.c:1427-1442). -/
def fetch (s : RSet) : Nat × RSet :=
  match s.rpage with
  | none => (0, s)
  | some p =>
    let offset := (s.pages.getD p []).getD s.rpidx 0
    if offset = 0 then (0, { s with rpage := none, rpidx := s.rpidx + 1 })
    else if s.rpidx + 1 ≥ pageSize then (offset, { s with rpage := if p + 1 < s.pages.length then some (p + 1) else none, rpidx := 0 })
    else (offset, { s with rpidx := s.rpidx + 1 })

/-- `while((offset = fetch_resultset(db, set))) body`, where the body may fail. At most `n` rounds (`forRows_eq`: the number of rows is enough). -/
def forRows {σ : Type} (body : σ → Nat → Option σ) : Nat → RSet → σ → Option σ
  | 0, _, st => some st
  | n + 1, s, st =>
    let x := fetch s
    if x.1 = 0 then some st else (body st x.1).bind (forRows body n x.2)

/-- `while((offsetb = fetch_resultset(db, setb))) if(offseta == offsetb) { ... break; }`: was `x` met? Also the set, whose cursor moved. -/
def search (x : Nat) : Nat → RSet → Bool × RSet
  | 0, s => (false, s)
  | n + 1, s =>
    let y := fetch s
    if y.1 = 0 then (false, y.2) else if x = y.1 then (true, y.2) else search x n y.2

/-- intersect_resultset (Db/dbquery.c:1457-1525). `none` is NULL. -/
def intersect (mem : Mem) (hash : Nat → Nat) (a b : RSet) : Option RSet :=
  (create mem).bind fun res =>
    if a.count * b.count < 200 then
      forRows (fun (st : RSet × RSet) x =>
        let y := search x (b.count + 1) (rewind st.1)
        if y.1 then (append mem st.2 x).map (fun r => (y.2, r)) else some (y.2, st.2)) (a.count + 1) (rewind a) (b, res) |>.map (·.2)
    else
      let (a, b) := if a.count > b.count then (b, a) else (a, b)
      (dhashInit mem.dhash a.count).bind fun t0 =>
        (forRows (fun t x => addkey hash t x) (a.count + 1) (rewind a) t0).bind fun t =>
          forRows (fun r x => if haskey hash t x then append mem r x else some r) (b.count + 1) (rewind b) res

/-- unique_resultset (Db/dbquery.c:1536-1594). `none` is NULL. -/
def unique (mem : Mem) (hash : Nat → Nat) (s : RSet) : Option RSet :=
  (create mem).bind fun res =>
    if s.count < 20 then
      forRows (fun (u : RSet) x =>
        let y := search x (u.count + 1) (rewind u)
        if y.1 then some y.2 else append mem y.2 x) (s.count + 1) (rewind s) res
    else
      (dhashInit mem.dhash s.count).bind fun t0 =>
        (forRows (fun (st : DHash × RSet) x =>
          if haskey hash st.1 x then some st
          else (append mem st.2 x).bind fun r => (addkey hash st.1 x).map fun t => (t, r)) (s.count + 1) (rewind s) (t0, res)).map (·.2)

end WG.ResultSet
