import Verif.JsonQuery.Model
import Verif.Schema.Props
/-!
# Specification of document queries
-/
namespace WG.JsonQuery
open WG.Recs

/-- A data record (one that wg_get_first_record and wg_get_next_record deliver). -/
def Data (h : Heap) (r : Word) : Prop := ∃ rc, h.recs r = some rc ∧ rc.special = false

/-- The stored value `w` is equal to `v`, or it is an array and one of its elements is equal to `v`. -/
def HasValue (h : Heap) (w v : Word) : Prop :=
  WG_COMPARE h.reader w v = 0 ∨
    ∃ a, isRecVal w = true ∧ h.recs w = some a ∧ isArray a = true ∧ ∃ x ∈ a.fields, WG_COMPARE h.reader x v = 0

/-- Record `r` is a key-value pair (or any other record with at least three fields) with the key in field 1 and the value in field 2. -/
def IsPair (h : Heap) (r key v : Word) : Prop :=
  ∃ fs k w, view h r = some fs ∧ fs[1]? = some k ∧ fs[2]? = some w ∧ WG_COMPARE h.reader k key = 0 ∧ HasValue h w v

/-- Somewhere in document `d`, at any level, there is the key with the value. -/
def Contains (h : Heap) (d key v : Word) : Prop := ∃ r, Below (view h) d r ∧ IsPair h r key v

/-- Databases in which document queries make sense: documents are trees of data records, with at most seven levels of records, and the key-value pairs that are asked for
occur in documents only. Documents made by wg_parse_json_document and the like are such trees. -/
structure DocsOk (h : Heap) (args : List Arg) : Prop where
  tree : ∀ d, IsDocument h d → TreeShaped (view h) d
  shallow : ∀ d r n, IsDocument h d → Links (view h) d r n → n < 7
  data : ∀ d r, IsDocument h d → Below (view h) d r → Data h r
  owned : ∀ a ∈ args, ∀ r, Data h r → IsPair h r a.1 a.2 → ∃ d, IsDocument h d ∧ Below (view h) d r

/-- The records are scanned completely and the indexes, if there are any, deliver the right records. -/
structure SrcOk (h : Heap) (src : Src) (args : List Arg) : Prop where
  recs : ∀ r, r ∈ src.recs ↔ Data h r
  hash : ∀ f, src.hash = some f → ∀ a ∈ args, isRecVal a.2 = false → ∀ r, r ∈ f a.1 a.2 ↔ Data h r ∧ IsPair h r a.1 a.2
  key : ∀ f, src.key = some f → ∀ a ∈ args, ∀ r, r ∈ f a.1 ↔ Data h r ∧ ∃ fs k, view h r = some fs ∧ fs[1]? = some k ∧ WG_COMPARE h.reader k a.1 = 0

/-- The database size up to which duplicates can be removed from a list of documents (Db/dbhash.c). -/
def maxRows : Nat := 201326611

/-- No allocation fails and there are not too many rows. -/
structure Enough (mem : JMem) (src : Src) (args : List Arg) : Prop where
  query : mem.query = true
  create : ∀ i, (mem.set i).create = true
  dhash : ∀ i, (mem.set i).dhash = true
  page : ∀ i n, (mem.set i).page n = true
  recs : src.recs.length ≤ maxRows
  hash : ∀ f, src.hash = some f → ∀ a ∈ args, (f a.1 a.2).length ≤ maxRows
  key : ∀ f, src.key = some f → ∀ a ∈ args, (f a.1).length ≤ maxRows

end WG.JsonQuery
