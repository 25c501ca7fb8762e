import Verif.Attach.Model
import Verif.Json.Model
import Verif.Records.Hist
import Verif.Csv.Model

/-!
# The server: which records a request handles

The three loops of `search` in Server/dserve.c, for the operations search, count, update and delete. `L` is the list of records that the loop meets: all records in the order of
wg_get_first_record and wg_get_next_record, or the rows that wg_fetch gives (C25). Both move on before a record is handled (line 703, Db/dbquery.c 1004-1009), and no other record goes
away, so the list is fixed when the loop starts. `none` is a read of something that is not there.

Simplifications: printing of a record succeeds (C74 says when), otherwise the request fails; the counters have no bound.
-/
namespace WG.Serve
open WG.Csv (Str Byte)
open WG.Recs

variable {ι : Type}

/-- COUNT_CODE, SEARCH_CODE, UPDATE_CODE, DELETE_CODE, Server/dserve.h lines 263-266. -/
inductive Opcode | search | count | update | delete
deriving DecidableEq

/-- What a request has done: the database, the records shown, and `handlecount`. -/
structure Acc (ι : Type) where
  db : Db ι
  shown : List Word
  handled : Nat

/-- op_delete_record, Server/dserve.c lines 1133-1135, and the counting of the results 0 (lines 707-708, 739-741, 785-786). -/
def opDelete (X : Ix ι) (r : Word) (a : Acc ι) : Option (Acc ι) :=
  (deleteRecord X a.db r).map fun y => ⟨y.1, a.shown, if y.2 = 0 then a.handled + 1 else a.handled⟩

/-- op_update_record(tdata,db,rec,0,0), Server/dserve.c lines 1254-1258: wg_set_int_field (Db/dbdata.c lines 938-944) of field 0 to the integer 0, whatever the request asks for. -/
def opUpdate (X : Ix ι) (r : Word) (a : Acc ι) : Option (Acc ι) :=
  (setField X a.db r 0 (encodeSmallint 0#64) none).map fun y => ⟨y.1, a.shown, a.handled + 1⟩

/-- One record: Server/dserve.c lines 777-788; 692-700 and 725-744 are the same except that the full scan deletes elsewhere. The test of wg_get_first_record in lines 734-735 is left out: there
is a first record, as there is the record. -/
def handle (X : Ix ι) (op : Opcode) (r : Word) (a : Acc ι) : Option (Acc ι) :=
  match op with
  | .count => some { a with handled := a.handled + 1 }
  | .search => some { a with shown := a.shown ++ [r] }
  | .update => opUpdate X r a
  | .delete => opDelete X r a

/-- Server/dserve.c lines 704-711: the deletion in the full scan. -/
def scanDelete (X : Ix ι) (op : Opcode) (r : Word) (a : Acc ι) : Option (Acc ι) :=
  if op = .delete then (Recs.recordLen a.db.h r).bind fun x => if 0 < x then opDelete X r a else some a else some a

/-- The full scan, Server/dserve.c lines 687-713. -/
def scanLoop (X : Ix ι) (op : Opcode) (frm count : Nat) : List Word → Nat → Nat → Acc ι → Option (Acc ι)
  | [], _, _, a => some a
  | r :: rs, rcount, gcount, a =>
    if frm ≤ rcount then
      if count < gcount + 1 then some a
      else (if op = .delete then some a else handle X op r a).bind fun a => (scanDelete X op r a).bind fun a => scanLoop X op frm count rs (rcount + 1) (gcount + 1) a
    else (scanDelete X op r a).bind fun a => scanLoop X op frm count rs (rcount + 1) gcount a

/-- The search by fields, Server/dserve.c lines 774-792. -/
def fetchLoop (X : Ix ι) (op : Opcode) (frm count : Nat) : List Word → Nat → Nat → Acc ι → Option (Acc ι)
  | [], _, _, a => some a
  | r :: rs, rcount, gcount, a =>
    (if frm ≤ rcount then handle X op r a else some a).bind fun a =>
      let g := if frm ≤ rcount then gcount + 1 else gcount
      if count ≤ g then some a else fetchLoop X op frm count rs (rcount + 1) g a

/-- MAXIDS, Server/dserve.h line 108. -/
def maxIds : Nat := 1000

/-- The search by record ids, Server/dserve.c lines 714-745: `ids[j]` is read before `j` is compared with MAXIDS (line 716). The number of a record is its offset; what has the type of a record
or of a long string is read at that offset. -/
def idsLoop (X : Ix ι) (op : Opcode) (count : Nat) : List Int → Nat → Nat → Acc ι → Option (Acc ι)
  | [], j, _, a => if j < maxIds then some a else none
  | i :: is, j, gcount, a =>
    let w := BitVec.ofInt 64 i
    if isRecVal w = true then
      (Recs.recordLen a.db.h w).bind fun x =>
        if x = 0 then idsLoop X op count is (j + 1) gcount a
        else if count < gcount + 1 then some a
        else (handle X op w a).bind fun a => idsLoop X op count is (j + 1) (gcount + 1) a
    else if isLongstr w = true ∧ a.db.h.lstrs (decodeLongstr w) = none then none
    else idsLoop X op count is (j + 1) gcount a

/-- `atoi`: a `long`, cut to an `int`. -/
def atoi (s : Str) : Int := Attach.toInt (Attach.strtol s)

/-- The list of record ids, Server/dserve.c lines 601-609: `x` numbers were found. `n` is at least the length of the text. -/
def parseIds : Nat → Str → Nat → List Int
  | 0, _, _ => []
  | n + 1, s, x =>
    if s = [] then []
    else
      let rest := (s.dropWhile (· ≠ 44#8)).drop 1
      if 0 < atoi s then
        if maxIds ≤ x + 1 then [atoi s] else atoi s :: parseIds n rest (x + 1)
      else parseIds n rest x

/-- Conversion to `unsigned long`. -/
def toULong (i : Int) : Nat := (i % 2 ^ 64).toNat

/-- `from`, Server/dserve.c lines 572, 624; converted in the comparisons of lines 689 and 775. -/
def fromOf : Option Str → Nat
  | none => 0
  | some s => toULong (atoi s)

/-- `count`, Server/dserve.c lines 584-585 and 626; LONG_MAX, and MAXCOUNT of Server/dserve.h line 107. -/
def countOf (op : Opcode) : Option Str → Nat
  | none => if op = .count then 2 ^ 63 - 1 else 100000
  | some s => toULong (atoi s)

/-- A request without conditions (searchtype 0), with the parameters `from` and `count`. -/
def searchAll (X : Ix ι) (op : Opcode) (frm count : Option Str) (L : List Word) (db : Db ι) : Option (Acc ι) :=
  scanLoop X op (fromOf frm) (countOf op count) L 0 0 ⟨db, [], 0⟩

/-- A request with the parameter `recids` (searchtype 1). -/
def searchIds (X : Ix ι) (op : Opcode) (ids : Str) (count : Option Str) (db : Db ι) : Option (Acc ι) :=
  idsLoop X op (countOf op count) (parseIds ids.length ids 0) 0 0 ⟨db, [], 0⟩

/-- A request with conditions (searchtype 2); `L` are the rows of the query. -/
def searchFields (X : Ix ι) (op : Opcode) (frm count : Option Str) (L : List Word) (db : Db ι) : Option (Acc ι) :=
  fetchLoop X op (fromOf frm) (countOf op count) L 0 0 ⟨db, [], 0⟩

end WG.Serve
