import Verif.Schema.Model
import Verif.ResultSet.Model
import Verif.Query.Model
import Verif.IndexMaint.Model
/-!
# Document queries

Model of wg_make_json_query, Db/dbquery.c lines 1596-2035, on top of the record store (`Verif/Records`), documents (`Verif/Schema`), comparison (`Verif/Compare`) and result
sets (`Verif/ResultSet`). Records are offsets; the result sets hold them as numbers.
The outcome `none` is undefined behaviour (access to something that is not a record).
-/
namespace WG.JsonQuery
open WG.Recs WG.ResultSet

/-- `is_schema_array`, Db/dbdata.h line 273. -/
def isArray (rc : Rec) : Bool := rc.info &&& 0x40#64 != 0#64

/-- What the query reads through other parts of the library. `recs`: the data records in the order of wg_get_first_record and wg_get_next_record; `hash`: if there is a
JSON hash index on columns 1 and 2, the rows that wg_search_hash finds in it (none if it returns 0 or an error); `vtree`: is there a JSON T-tree index on
column 2; `key`: if there is a T-tree index on column 1, the rows that find_ttree_bounds and the loop of lines 1893-1933 visit for a key. -/
structure Src where
  recs : List Word
  hash : Option (Word → Word → List Word)
  vtree : Bool
  key : Option (Word → List Word)

/-- Which allocations succeed: the sorted argument list, the query object, and those of the `i`-th result set. -/
structure JMem where
  sort : Bool
  query : Bool
  set : Nat → ResultSet.Mem

/-- A clause: key and value. -/
abbrev Arg := Word × Word

/-- ADD_DOC_TO_RESULTSET, Db/dbquery.c lines 1604-1613: the code is 1, or -1 for failure. -/
def addDoc (h : Heap) (mem : ResultSet.Mem) (set : RSet) (r : Word) : Option (Int × RSet) :=
  match findDocument h r with
  | none => none
  | some none => some (-1, set)
  | some (some d) => match append mem set d.toNat with
    | none => some (-1, set)
    | some set' => some (1, set')

/-- Is the value `w` of a record equal to `v`, or an array that has an element equal to `v`? Db/dbquery.c lines 1671-1680, 1704-1710 and 1629-1640. -/
def valueMatch (h : Heap) (w v : Word) : Option Bool :=
  if WG_COMPARE h.reader w v = 0 then some true
  else if isRecVal w then match h.recs w with
    | none => none
    | some a => some (isArray a && a.fields.any fun x => decide (WG_COMPARE h.reader x v = 0))
  else some false

/-- check_and_merge_by_key, Db/dbquery.c lines 1692-1715: the code is 1 (added), 0 (no match) or -1. -/
def mergeKey (h : Heap) (mem : ResultSet.Mem) (arg : Arg) (set : RSet) (r : Word) : Option (Int × RSet) :=
  match h.recs r with
  | none => none
  | some rc =>
    if rc.fields.length > 2 then
      match valueMatch h (rc.fields.getD 2 0#64) arg.2 with
      | none => none
      | some true => addDoc h mem set r
      | some false => some (0, set)
    else some (0, set)

/-- check_and_merge_by_kv, Db/dbquery.c lines 1652-1686. -/
def mergeKv (h : Heap) (mem : ResultSet.Mem) (arg : Arg) (set : RSet) (r : Word) : Option (Int × RSet) :=
  match h.recs r with
  | none => none
  | some rc =>
    if rc.fields.length > 2 then
      if WG_COMPARE h.reader (rc.fields.getD 1 0#64) arg.1 = 0 then
        match valueMatch h (rc.fields.getD 2 0#64) arg.2 with
        | none => none
        | some true => addDoc h mem set r
        | some false => some (0, set)
      else some (0, set)
    else some (0, set)

/-- The loop over the fields, Db/dbquery.c lines 1739-1749: `f` is the recursive call. -/
def mergeFields (f : RSet → Word → Option (Int × RSet)) : List Word → RSet → Option (Int × RSet)
  | [], set => some (0, set)
  | w :: l, set =>
    if isRecVal w then match f set w with
      | none => none
      | some (rc, set) => if rc ≠ 0 then some (rc, set) else mergeFields f l set
    else mergeFields f l set

/-- check_and_merge_recursively, Db/dbquery.c lines 1726-1751. -/
def mergeRec (h : Heap) (mem : ResultSet.Mem) (arg : Arg) : Nat → RSet → Word → Option (Int × RSet)
  | depth, set, r =>
    match mergeKv h mem arg set r with
    | none => none
    | some (rc, set) =>
      if rc ≠ 0 then some (rc, set)
      else match depth with
        | 0 => some (-1, set)
        | d + 1 => match h.recs r with
          | none => none
          | some x => mergeFields (mergeRec h mem arg d) x.fields set

/-- One round of a loop that calls `f` for a record and gives up (IF_ERR_CLEAN_UP, lines 1615-1623) if the code is negative. The state is the result set, or `none`
once the loop has been left. -/
def step (f : RSet → Word → Option (Int × RSet)) (st : Option RSet) (r : Word) : Option (Option RSet) :=
  match st with
  | none => some none
  | some set => (f set r).map fun x => if x.1 < 0 then none else some x.2

/-- The literal clauses first, then those with records as values, Db/dbquery.c lines 1781-1810. -/
def sortArgs (args : List Arg) : List Arg := args.filter (fun a => !isRecVal a.2) ++ args.filter (fun a => isRecVal a.2)

/-- The result of prepare_json_arglist, Db/dbquery.c lines 1765-1833: the argument list to use and the key index. The hash index has been found in any case. -/
def prepare (src : Src) (mem : JMem) (args : List Arg) : List Arg × Option (Word → List Word) :=
  if args.length > 1 ∧ mem.sort = false then (args, none)
  else (if args.length > 1 then sortArgs args else args,
    if (src.hash.isNone || args.any (fun a => isRecVal a.2)) && !src.vtree then src.key else none)

/-- Lines 1889-1965 of Db/dbquery.c: the documents for one clause, and the working set that remains to be intersected with them. -/
def collect (h : Heap) (src : Src) (key : Option (Word → List Word)) (mem : ResultSet.Mem) (arg : Arg) (cur : Option RSet) (next : RSet) :
    Option (Option (RSet × Option RSet)) :=
  match (if isRecVal arg.2 then none else src.hash), key, cur with
  | some f, _, cur => ((f arg.1 arg.2).foldlM (step (addDoc h mem)) (some next)).map fun x => x.map fun s => (s, cur)
  | none, some k, cur => ((k arg.1).foldlM (step (mergeKey h mem arg)) (some next)).map fun x => x.map fun s => (s, cur)
  | none, none, some c =>
    (forRows (fun st n => step (mergeRec h mem arg 7) st (BitVec.ofNat 64 n)) (c.count + 1) (rewind c) (some next)).map fun x => x.map fun s => (s, none)
  | none, none, none => (src.recs.foldlM (step (mergeKv h mem arg)) (some next)).map fun x => x.map fun s => (s, none)

/-- One round of the loop over the clauses, Db/dbquery.c lines 1879-1999; `i` numbers the round. `some none` is NULL. -/
def clause (h : Heap) (src : Src) (key : Option (Word → List Word)) (mem : JMem) (hash : Nat → Nat) (i : Nat) (arg : Arg) (cur : Option RSet) : Option (Option RSet) :=
  match create (mem.set (3 * i)) with
  | none => some none
  | some next => match collect h src key (mem.set (3 * i)) arg cur next with
    | none => none
    | some none => some none
    | some (some (next, cur)) => match unique (mem.set (3 * i + 1)) hash next with
      | none => some none
      | some next => match cur with
        | some c => some (intersect (mem.set (3 * i + 2)) hash c next)
        | none => some (some next)

/-- The loop over the clauses, Db/dbquery.c lines 1879-1999. -/
def clauses (h : Heap) (src : Src) (key : Option (Word → List Word)) (mem : JMem) (hash : Nat → Nat) : Nat → List Arg → Option RSet → Option (Option RSet)
  | _, [], cur => some cur
  | i, a :: l, cur => match clause h src key mem hash i a cur with
    | none => none
    | some none => some none
    | some (some next) => clauses h src key mem hash (i + 1) l (some next)

/-- wg_make_json_query, Db/dbquery.c lines 1840-2026: a prefetched query object; `some none` is NULL. -/
def makeJsonQuery (h : Heap) (src : Src) (mem : JMem) (hash : Nat → Nat) (args : List Arg) : Option (Option (Query.Query Word)) :=
  if args = [] then some none
  else
    let p := prepare src mem args
    match clauses h src p.2 mem hash 0 p.1 none with
    | none => none
    | some none => some none
    | some (some s) =>
      if mem.query then some (some ⟨.prefetch, [], Query.noTree illegal, ⟨0, -1, 0, -1⟩, 0, s.pages, 0, some s.count⟩) else some none

end WG.JsonQuery
