/-!
# Variable-length object allocator (Db/dballoc.c)

One variable-length area (records, long strings, or hash index data) of a database segment. Memory is a total
function from byte offsets to words; all accesses of the allocator are at multiples of 8 (an invariant), so words do
not overlap. Words and offsets are natural numbers: offsets are below the segment size, so that the 64-bit arithmetic
of the C code does not wrap. The `freebuckets` array of the area header is kept beside the memory.
-/
namespace WG.Varlen

/-- `db_subarea_header`, Db/dballoc.h. -/
structure Sub where
  size : Nat
  off : Nat
  asize : Nat
  aoff : Nat
deriving DecidableEq

/-- State of one variable-length area: memory, `freebuckets` (indices 0..289), `subarea_array[0..last]`, and the
`free` and `size` fields of the segment header (shared with the other areas). -/
structure St where
  mem : Nat → Nat
  fb : Nat → Nat
  subs : List Sub
  segFree : Nat
  segSize : Nat

def upd (f : Nat → Nat) (x v : Nat) : Nat → Nat := fun y => if y = x then v else f y

/-- `dbstore`, Db/dballoc.h. -/
def St.store (st : St) (x v : Nat) : St := { st with mem := upd st.mem x v }
/-- `freebuckets[i]=v`. -/
def St.setFb (st : St) (i v : Nat) : St := { st with fb := upd st.fb i v }

/-- `EXACTBUCKETS_NR`, `VARBUCKETS_NR`, `DVBUCKET`, `DVSIZEBUCKET`, `MIN_VARLENOBJ_SIZE`, Db/dballoc.h lines 60-110. -/
def EXACT : Nat := 256
def VARB : Nat := 32
def DV : Nat := 288
def DVSIZE : Nat := 289
def MINSZ : Nat := 32
/-- `MINIMAL_SUBAREA_SIZE`, `SUBAREA_ARRAY_SIZE`. -/
def MINSUB : Nat := 8192
def MAXSUBS : Nat := 64

/-- `isfreeobject`, Db/dballoc.h: end bits 01. -/
def isFree (h : Nat) : Bool := h % 4 == 1
/-- `isnormalusedobject`: last bit 0. -/
def isNormalUsed (h : Nat) : Bool := h % 2 == 0
/-- `isnormalusedobjectprevfree`: end bits 10. -/
def isPrevFree (h : Nat) : Bool := h % 4 == 2
/-- `isspecialusedobject`: end bits 11. -/
def isSpecial (h : Nat) : Bool := h % 4 == 3
/-- `(i) & ~3`: `getfreeobjectsize`, `getspecialusedobjectsize`, `getusedobjectwantedbytes`. -/
def clr (h : Nat) : Nat := h - h % 4
/-- `getusedobjectsize`, Db/dballoc.h line 225. -/
def usedSize (h : Nat) : Nat :=
  if clr h ≤ MINSZ then MINSZ else if clr h % 8 ≠ 0 then clr h + 4 else clr h
/-- `makefreeobjectsize`: end bits 01. -/
def mkFree (s : Nat) : Nat := clr s + 1
/-- `makeusedobjectsizeprevused`: end bits 00. -/
def mkPrevUsed (s : Nat) : Nat := clr s
/-- `makeusedobjectsizeprevfree`: end bits 10. -/
def mkPrevFree (s : Nat) : Nat := clr s + 2
/-- `makespecialusedobjectsize`: `i|3`. -/
def mkSpecial (s : Nat) : Nat := clr s + 3

/-- The loop of `wg_freebuckets_index`, Db/dballoc.c lines 1159-1163. -/
def bucketLoop (size : Nat) : Nat → Nat → Nat → Option Nat
  | 0, _, _ => none
  | n + 1, i, cursize => if size < cursize then some (EXACT + i) else bucketLoop size n (i + 1) (cursize * 2)

/-- `wg_freebuckets_index`, Db/dballoc.c lines 1154-1165; `none` is the result -1. -/
def bucketIdx (size : Nat) : Option Nat := if size < EXACT then some size else bucketLoop size VARB 0 (EXACT * 2)

/-- The index as used by code that does not test for -1 (the C code would access `freebuckets[-1]`; index 1000 here
stands for that location outside the array). -/
def bix (size : Nat) : Nat := (bucketIdx size).getD 1000

/-- `dbaddr(db,&freebuckets[i])`: the value stored as "previous" pointer of the first element of a list. The allocator
never follows it; any encoding will do. -/
def bkt (i : Nat) : Nat := 8 * i

/-- Storing a free object to its bucket: Db/dballoc.c lines 660-673 (init_subarea_freespace), 1128-1136 (split_free),
1365-1372 (wg_free_object). The order of the stores differs between the three copies; the addresses are distinct. -/
def pushFree (st : St) (obj size : Nat) : St :=
  let i := bix size
  let head := st.fb i
  let st := st.store obj (mkFree size)
  let st := st.store (obj + size - 8) (mkFree size)
  let st := st.store (obj + 8) head
  let st := st.store (obj + 16) (bkt i)
  let st := if head ≠ 0 then st.store (head + 16) obj else st
  st.setFb i obj

/-- Removing a free object of known size from its list: Db/dballoc.c lines 1228-1247 (previous object), 1261-1276
(next object while merging with the victim), 1304-1320 (next object). -/
def unlinkFree (st : St) (obj size : Nat) : St :=
  let next := st.mem (obj + 8)
  let prev := st.mem (obj + 16)
  let i := bix size
  if st.fb i = obj then
    let st := st.setFb i next
    if next ≠ 0 then st.store (next + 16) prev else st
  else
    let st := st.store (prev + 8) next
    if next ≠ 0 then st.store (next + 16) prev else st

/-- Taking the first element of bucket `i`: Db/dballoc.c lines 899-903, 956-960. -/
def popFree (st : St) (i : Nat) : St :=
  let next := st.mem (st.fb i + 8)
  let st := st.setFb i next
  if next ≠ 0 then st.store (next + 16) (bkt i) else st

/-- Marking the object at `x`, if it is a normal used object, as following a used object. -/
def markPrevUsed (st : St) (x : Nat) : St :=
  if isNormalUsed (st.mem x) then st.store x (mkPrevUsed (st.mem x)) else st
/-- ... as following a free object. -/
def markPrevFree (st : St) (x : Nat) : St :=
  if isNormalUsed (st.mem x) then st.store x (mkPrevFree (st.mem x)) else st

/-- `alloc_db_segmentchunk`, Db/dballoc.c lines 305-329: offset of the chunk and new value of `free`. -/
def allocChunk (segFree segSize size : Nat) : Option (Nat × Nat) :=
  let nextfree := segFree + size
  if nextfree ≥ 2^63 then none
  else
    let i := 8 - nextfree % 8
    let i := if i = 8 then 0 else i
    let nextfree := nextfree + i
    if nextfree ≥ segSize then none else some (segFree, nextfree)

/-- `init_db_subarea`, Db/dballoc.c lines 269-294, for the next free slot of `subarea_array`. -/
def initSubarea (st : St) (size : Nat) : Option St :=
  if size < MINSUB then none
  else match allocChunk st.segFree st.segSize size with
    | none => none
    | some (chunk, free) =>
      let i := 8 - chunk % 8
      let i := if i = 8 then 0 else i
      let asize := size - i
      some { st with segFree := free, subs := st.subs ++ [⟨size, chunk, asize - asize % MINSZ, chunk + i⟩] }

/-- First half of `init_subarea_freespace`, Db/dballoc.c lines 654-679: if there is a previous subarea the current
victim goes to its free list. -/
def retireDv (st : St) : St :=
  let dv := st.fb DV
  let dvsize := st.fb DVSIZE
  if dv ≠ 0 ∧ dvsize ≥ MINSZ then
    let x := dv + dvsize
    let st := if isNormalUsed (st.mem x) then st.store x (mkPrevFree (usedSize (st.mem x))) else st
    pushFree st dv dvsize
  else st

/-- Second half, Db/dballoc.c lines 680-702: markers and the new designated victim. -/
def markSub (st : St) (s : Sub) : St :=
  let st := st.store s.aoff (mkSpecial MINSZ)
  let st := st.store (s.aoff + 8) 0
  let st := st.store (s.aoff + 16) 0
  let st := st.store (s.aoff + MINSZ - 8) MINSZ
  let e := s.aoff + s.asize - MINSZ
  let st := st.store e (mkSpecial MINSZ)
  let st := st.store (e + 8) 0
  let st := st.store (e + 16) 0
  let st := st.store (e + MINSZ - 8) MINSZ
  let f := s.aoff + MINSZ
  let fs := s.asize - 2 * MINSZ
  let st := st.store f (mkSpecial fs)
  let st := st.store (f + 8) 1
  let st := st.setFb DV f
  st.setFb DVSIZE fs

/-- `init_subarea_freespace`, Db/dballoc.c lines 632-713, for the last subarea. -/
def initFreespace (st : St) : St :=
  match st.subs.getLast? with
  | none => st
  | some s => markSub (if st.subs.length > 1 then retireDv st else st) s

/-- `for(newsize=size<<1; newsize>=0 && newsize<minsize; newsize<<=1);` (Db/dballoc.c line 1037): a value of 2^63 or
more is negative in C. 64 rounds are always enough. -/
def growSize (minsize : Nat) : Nat → Nat → Nat
  | 0, n => n
  | k + 1, n => if n < 2^63 ∧ n < minsize then growSize minsize k (n * 2) else n

/-- `while(newsize >= minsize)`, Db/dballoc.c lines 1040-1047. -/
def trySizes (st : St) (minsize : Nat) : Nat → Nat → Option St
  | 0, _ => none
  | k + 1, n => if n ≥ minsize then
      match initSubarea st n with
      | some st' => some st'
      | none => trySizes st minsize k (n / 2)
    else none

/-- `extend_varlen_area`, Db/dballoc.c lines 1014-1056. -/
def extend (st : St) (minbytes : Nat) : Option St :=
  match st.subs.getLast? with
  | none => none
  | some s =>
    if st.subs.length ≥ MAXSUBS then none
    else
      let minsize := minbytes + 8 + 2 * MINSZ
      let minsize := if minsize < MINSUB then MINSUB else minsize
      let n := growSize minsize 64 (s.size * 2)
      if n ≥ 2^63 then none
      else match trySizes st minsize 64 n with
        | none => none
        | some st => some (initFreespace st)

/-- `split_free`, Db/dballoc.c lines 1068-1141: split the first object of bucket `i` into `nr` used bytes and a free
remainder. `none`: the head is not a free object. -/
def splitFree (st : St) (nr i : Nat) : Option St :=
  let obj := st.fb i
  let old := st.mem obj
  if !isFree old then none
  else
    let oldsize := clr old
    let next := st.mem (obj + 8)
    let st := st.store obj (mkPrevUsed nr)
    let st := if next ≠ 0 then st.store (next + 16) (bkt i) else st
    let st := st.setFb i next
    some (pushFree st (obj + nr) (oldsize - nr))

/-- The search loops over exact-length buckets (Db/dballoc.c lines 912-924 with a limit of three, 947-959): index of
the first bucket from `i` on whose head can be split. -/
def findExact (st : St) (used : Nat) : Nat → Nat → Option Nat
  | 0, _ => none
  | k + 1, i => if i < EXACT then
      if st.fb i ≠ 0 ∧ clr (st.mem (st.fb i)) ≥ used + MINSZ then some i else findExact st used k (i + 1)
    else none

/-- The loop over variable-length buckets (lines 961-990): the first bucket whose head fits exactly or can be split. -/
def findVar (st : St) (used : Nat) : Nat → Nat → Option Nat
  | 0, _ => none
  | k + 1, i => if i < EXACT + VARB then
      if st.fb i ≠ 0 ∧ (clr (st.mem (st.fb i)) = used ∨ clr (st.mem (st.fb i)) ≥ used + MINSZ) then some i
      else findVar st used k (i + 1)
    else none

/-- Bytes really used by a request of `wanted` bytes, Db/dballoc.c lines 887-892. -/
def usedBytes (wanted : Nat) : Nat :=
  if wanted ≤ MINSZ then MINSZ else if wanted % 8 ≠ 0 then wanted + 4 else wanted

/-- Splitting the head of bucket `i` and handing out its first part (lines 916-923, 951-958, 981-988). -/
def takeSplit (st : St) (wanted i : Nat) : St × Option Nat :=
  let res := st.fb i
  match splitFree st (usedBytes wanted) i with
  | none => (st, none)
  | some st => (st.store res (mkPrevUsed wanted), some res)

/-- Handing out the whole head of bucket `i` (lines 898-911, 965-980); `size` is its size. -/
def takeWhole (st : St) (wanted size i : Nat) : St × Option Nat :=
  let res := st.fb i
  let st := popFree st i
  let st := st.store res (mkPrevUsed wanted)
  (markPrevUsed st (res + size), some res)

/-- Handing out the beginning of the designated victim (lines 928-944); `none` if it is unsuitable. -/
def takeDv (st : St) (wanted : Nat) : Option (St × Nat) :=
  let used := usedBytes wanted
  let size := st.fb DVSIZE
  if used ≤ size ∧ st.fb DV ≠ 0 then
    let res := st.fb DV
    if used = size then
      some (((st.setFb DV 0).setFb DVSIZE 0).store res (mkPrevUsed wanted), res)
    else if used + MINSZ ≤ size then
      let st := st.store (res + used) (mkSpecial (size - used))
      let st := st.store (res + used + 8) 1
      let st := (st.setFb DV (res + used)).setFb DVSIZE (size - used)
      some (st.store res (mkPrevUsed wanted), res)
    else none
  else none

/-- `wg_alloc_gints` without the extension of the area, Db/dballoc.c lines 893-990; `none` if nothing fits. -/
def allocHere (st : St) (wanted : Nat) : Option (St × Option Nat) :=
  let used := usedBytes wanted
  if used < EXACT ∧ st.fb used ≠ 0 then some (takeWhole st wanted used used)
  else match findExact st used 3 (used + 1) with
    | some i => some (takeSplit st wanted i)
    | none => match takeDv st wanted with
      | some (st, a) => some (st, some a)
      | none => match findExact st used EXACT (used + 1) with
        | some i => some (takeSplit st wanted i)
        | none => match findVar st used (EXACT + VARB) (bix used) with
          | some i =>
            if clr (st.mem (st.fb i)) = used then some (takeWhole st wanted used i) else some (takeSplit st wanted i)
          | none => none

/-- `wg_alloc_gints` for non-negative sizes, Db/dballoc.c lines 873-1000. The recursive call of line 997 is bounded by
the number of subarea slots (64): the fuel is never used up. The returned state may be changed also on failure. -/
def allocF : Nat → St → Nat → St × Option Nat
  | 0, st, _ => (st, none)
  | k + 1, st, wanted =>
    match allocHere st wanted with
    | some r => r
    | none => match extend st (usedBytes wanted) with
      | none => (st, none)
      | some st => allocF k st wanted

/-- `wg_alloc_gints(db,area,nr)`; the result `none` is offset 0. -/
def alloc (st : St) (nr : Int) : St × Option Nat :=
  if nr < 0 then (st, none) else allocF 65 st (nr.toNat * 8)

/-- Storing the dv head, Db/dballoc.c lines 1284-1285, 1328-1329, 1344-1345. -/
def storeDv (st : St) (obj size : Nat) : St := (st.store obj (mkSpecial size)).store (obj + 8) 1

/-- Last part of `wg_free_object`, Db/dballoc.c lines 1337-1373: the new block becomes the victim if it is larger
(the old victim is then stored instead), otherwise it is stored. -/
def freeStore (st : St) (obj size : Nat) : St :=
  if size > st.fb DVSIZE then
    let dv := st.fb DV
    let dvsize := st.fb DVSIZE
    let st := (st.setFb DV obj).setFb DVSIZE size
    let st := storeDv st obj size
    let st := markPrevUsed st (obj + size)
    if dv = 0 then st
    else pushFree (markPrevFree st (dv + dvsize)) dv dvsize
  else pushFree st obj size

/-- Middle part of `wg_free_object`, Db/dballoc.c lines 1293-1335: merge with the next object. -/
def freeNext (st : St) (obj size : Nat) : St :=
  let next := obj + size
  let h := st.mem next
  if isFree h then freeStore (unlinkFree st next (clr h)) obj (size + clr h)
  else if isSpecial h ∧ next = st.fb DV then
    let size := size + st.fb DVSIZE
    storeDv ((st.setFb DV obj).setFb DVSIZE size) obj size
  else freeStore (markPrevFree st next) obj size

/-- Merging with the preceding victim, Db/dballoc.c lines 1249-1291. -/
def freeIntoDv (st : St) (size : Nat) : St :=
  let obj := st.fb DV
  let size := size + st.fb DVSIZE
  let next := obj + size
  let h := st.mem next
  if isFree h then
    let st := unlinkFree st next (clr h)
    let size := size + clr h
    let st := markPrevUsed st (obj + size)
    (storeDv st obj size).setFb DVSIZE size
  else (storeDv st obj size).setFb DVSIZE size

/-- `wg_free_object`, Db/dballoc.c lines 1174-1374 (the database check is left out). -/
def free (st : St) (obj : Nat) : St × Int :=
  let h := st.mem obj
  if isFree h then (st, -2)
  else
    let size := usedSize h
    if size < MINSZ then (st, -3)
    else if isPrevFree h then
      let psize := clr (st.mem (obj - 8))
      let prev := obj - psize
      let ph := st.mem prev
      if !isFree ph ∨ clr ph ≠ psize then (st, -4)
      else (freeNext (unlinkFree st prev psize) prev (size + psize), 0)
    else if st.fb DV + st.fb DVSIZE = obj then (freeIntoDv st size, 0)
    else (freeNext st obj size, 0)

/-- A new area: `init_db_subarea`, `init_area_buckets`, `init_subarea_freespace` for subarea 0 (as in
`wg_init_db_memsegment`, Db/dballoc.c lines 130-137). -/
def newArea (mem : Nat → Nat) (segFree segSize size : Nat) : Option St :=
  match initSubarea ⟨mem, fun _ => 0, [], segFree, segSize⟩ size with
  | none => none
  | some st => some (initFreespace st)

end WG.Varlen
