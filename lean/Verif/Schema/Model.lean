import Verif.Records.Lemmas
/-!
# Documents (Db/dbschema.c)

Structured data is stored as records (arrays and objects) that refer to records; the top-level record of a document has the bit
RECORD_META_DOC. Built on the record store of `Verif/Records`.
-/
namespace WG.Recs

/-- The loop over the backlink chain in find_document_recursive, Db/dbschema.c lines 189-201: `f` is the recursive call. `none` is undefined
behaviour, `some none` is NULL. -/
def findChain (h : Heap) (f : Word → Option (Option Word)) : Nat → Word → Option (Option Word)
  | 0, _ => none
  | n + 1, cur =>
    match h.cells cur with
    | none => none
    | some c =>
      match f c.car with
      | none => none
      | some (some d) => some (some d)
      | some none => if c.cdr = 0#64 then some none else findChain h f n c.cdr

/-- find_document_recursive, Db/dbschema.c lines 183-208. -/
def findDocRec (h : Heap) : Nat → Word → Option (Option Word)
  | depth, r =>
    match h.recs r with
    | none => none
    | some rc =>
      if rc.isDoc then some (some r)
      else match depth with
        | 0 => some none
        | d + 1 => if rc.back = 0#64 then some none else findChain h (findDocRec h d) walkFuel rc.back

/-- wg_find_document, Db/dbschema.c lines 165-172; WG_COMPARE_REC_DEPTH is 7 (Db/dbcompare.h). -/
def findDocument (h : Heap) (r : Word) : Option (Option Word) := findDocRec h 6 r

variable {ι : Type}

/-- The loop over the fields in delete_record_recursive, Db/dbschema.c lines 240-249: `f` is the recursive call, `n` fields are left, `i` is the
current one. -/
def delLoop (X : Ix ι) (f : Db ι → Word → Option (Db ι × Int)) (r : Word) : Nat → Nat → Db ι → Option (Db ι × Int)
  | 0, _, s => some (s, 0)
  | n + 1, i, s =>
    match getField s.h r i with
    | none => none
    | some enc =>
      if isRecVal enc then
        match setField X s r i 0#64 none with
        | none => none
        | some (s1, c) =>
          if c ≠ 0 then some (s1, -1)
          else match f s1 enc with
            | none => none
            | some (s2, c2) => if c2 ≠ 0 then some (s2, -1) else delLoop X f r n (i + 1) s2
      else delLoop X f r n (i + 1) s

/-- delete_record_recursive, Db/dbschema.c lines 233-255. -/
def delRec (X : Ix ι) : Nat → Db ι → Word → Option (Db ι × Int)
  | 0, s, _ => some (s, -1)
  | d + 1, s, r =>
    match recordLen s.h r with
    | none => none
    | some n =>
      match delLoop X (delRec X d) r n 0 s with
      | none => none
      | some (s1, c) =>
        if c ≠ 0 then some (s1, -1)
        else (deleteRecord X s1 r).map fun y => (y.1, if y.2 ≠ 0 then -1 else 0)

/-- wg_delete_document, Db/dbschema.c lines 216-227. -/
def deleteDocument (X : Ix ι) (s : Db ι) (r : Word) : Option (Db ι × Int) :=
  match s.h.recs r with
  | none => none
  | some rc => if rc.isDoc then delRec X 7 s r else some (s, -1)

end WG.Recs
