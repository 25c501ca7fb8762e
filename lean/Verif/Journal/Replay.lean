import Verif.Journal.Model
/-!
# Journal replay

Model of the execution of journal entries by `recover_journal` (Db/dblog.c lines 605-681) and of the offset
translation table.  The database is abstracted to records (fields are encoded values), record metadata and
separately stored values.  The allocator is not fixed: any offset that is not in use may be returned.
Simplifications: separately stored values are never freed (so their offsets are not reused), indexes are
not represented, allocation does not fail.
-/
namespace WG

/-- Abstract database contents, keyed by offset. -/
structure ADb where
  recs : Word → Option (List Word)
  metad : Word → Word
  vals : Word → Option EncData

/-- Point update of a map. -/
def upd {α : Type} (f : Word → α) (k : Word) (v : α) : Word → α := fun x => if x = k then v else f x

/-- Encoded value of a separately stored value at an offset: the encoders of Db/dbdata.c lines 1457-1590
and 2484-2569. -/
def tagOf (d : EncData) (off : Word) : Word :=
  match d with
  | .int _ => encodeFullintOffset off
  | .double _ => encodeFulldouble off
  | .str t s x => if x = [] ∧ t = 5#8 ∧ s.length < 32 then encodeShortstr off else encodeLongstr off
  | .unsupported _ => 0#64

/-- The kinds of values `recover_encode` can store. -/
def EncData.Supported : EncData → Prop
  | .unsupported _ => False
  | _ => True

/-- Translation table: `wg_ginthash_addkey` appends, `wg_ginthash_getkey` finds the first entry
(Db/dbhash.c lines 601-651; see `Verif.GintHash`). -/
abbrev Tbl := List (Word × Word)

/-- `translate_offset`, Db/dblog.c lines 489-496. -/
def translateOffset (t : Tbl) (o : Word) : Word :=
  match t.find? (fun p => p.1 == o) with
  | some p => p.2
  | none => o

/-- `add_tran_enc`, Db/dblog.c lines 457-484. -/
def addTranEnc (t : Tbl) (old new : Word) : Tbl :=
  if isPtr old then
    if old &&& 7#64 = 4#64 then t ++ [(decodeLongstr old, decodeLongstr new)]
    else if old &&& 7#64 = 6#64 then t ++ [(decodeShortstr old, decodeShortstr new)]
    else if old &&& 7#64 = 2#64 then t ++ [(decodeFulldouble old, decodeFulldouble new)]
    else if old &&& 7#64 = 1#64 ∨ old &&& 7#64 = 5#64 then t ++ [(decodeFullintOffset old, decodeFullintOffset new)]
    else t
  else t

/-- `translate_encoded`, Db/dblog.c lines 501-526. -/
def translateEncoded (t : Tbl) (enc : Word) : Word :=
  if isPtr enc then
    if enc &&& 7#64 = 0#64 then translateOffset t enc
    else if enc &&& 7#64 = 4#64 then encodeLongstr (translateOffset t (decodeLongstr enc))
    else if enc &&& 7#64 = 6#64 then encodeShortstr (translateOffset t (decodeShortstr enc))
    else if enc &&& 7#64 = 2#64 then encodeFulldouble (translateOffset t (decodeFulldouble enc))
    else if enc &&& 7#64 = 1#64 ∨ enc &&& 7#64 = 5#64 then
      encodeFullintOffset (translateOffset t (decodeFullintOffset enc))
    else enc
  else enc

/-- Some record has a field pointing to the record at `off` (its backlinks list is not empty). -/
def Referenced (db : ADb) (off : Word) : Prop := ∃ o fs, db.recs o = some fs ∧ off ∈ fs

/-- An offset the allocator may return. -/
def FreshOff (db : ADb) (n : Word) : Prop :=
  n ≠ 0#64 ∧ n &&& 7#64 = 0#64 ∧ db.recs n = none ∧ db.vals n = none

/-- `wg_create_record`, abstractly: Db/dbdata.c lines 118-193. -/
def ADb.create (db : ADb) (n : Word) (len : Nat) : ADb :=
  { db with recs := upd db.recs n (some (List.replicate len 0#64)), metad := upd db.metad n 0#64 }

/-- An encoder result: a new offset with the value, or (interning, Db/dbdata.c lines 2607-2616) an existing
one with the same value. -/
def EncResult (db : ADb) (d : EncData) (n : Word) (db' : ADb) : Prop :=
  (FreshOff db n ∧ db' = { db with vals := upd db.vals n (some d) }) ∨
  (n ≠ 0#64 ∧ n &&& 7#64 = 0#64 ∧ db.vals n = some d ∧ db' = db)

/-- A valid field value: inline, a live record or a stored value. -/
def ValidEnc (db : ADb) (e : Word) : Prop :=
  isPtr e = false ∨ (db.recs e ≠ none) ∨
  (∃ d o, d.Supported ∧ o ≠ 0#64 ∧ o &&& 7#64 = 0#64 ∧ db.vals o = some d ∧ e = tagOf d o)

/-- The effect on the database, during the logged session, of the operation that logged the entry. -/
inductive SStep : ADb → Entry → ADb → Prop
  /-- Db/dbdata.c lines 118-193 -/
  | cre (db len n) : FreshOff db n → SStep db (.cre len n) (db.create n len.toNat)
  /-- Db/dbdata.c lines 204-289: only unreferenced records are deleted (and logged) -/
  | del (db off fs) : db.recs off = some fs → ¬ Referenced db off →
      SStep db (.del off) { db with recs := upd db.recs off none }
  | enc (db d n db') : d.Supported → EncResult db d n db' → SStep db (.enc d (tagOf d n)) db'
  /-- Db/dbdata.c lines 613-801 -/
  | set (db off col e fs) : db.recs off = some fs → col.toNat < fs.length → ValidEnc db e →
      SStep db (.set off col e) { db with recs := upd db.recs off (some (fs.set col.toNat e)) }
  /-- Db/dbschema.c lines 105-113 -/
  | setMeta (db off m fs) : db.recs off = some fs →
      SStep db (.setMeta off m) { db with metad := upd db.metad off m }

/-- Execution of one entry by `recover_journal` (Db/dblog.c lines 615-678); no successor: it returns an
error. -/
inductive RStep : ADb × Tbl → Entry → ADb × Tbl → Prop
  | cre (db t len off n) : off ≠ 0#64 → FreshOff db n →
      RStep (db, t) (.cre len off) (db.create n len.toNat, if n ≠ off then t ++ [(off, n)] else t)
  /-- the record is created although creating it had failed in the session -/
  | creFailed (db t len n) : FreshOff db n → RStep (db, t) (.cre len 0#64) (db.create n len.toNat, t)
  | del (db t off fs) : db.recs (translateOffset t off) = some fs → ¬ Referenced db (translateOffset t off) →
      RStep (db, t) (.del off) ({ db with recs := upd db.recs (translateOffset t off) none }, t)
  /-- result -1 of wg_delete_record (record is referenced) is not an error -/
  | delRefused (db t off fs) : db.recs (translateOffset t off) = some fs → Referenced db (translateOffset t off) →
      RStep (db, t) (.del off) (db, t)
  | enc (db t d e n db') : d.Supported → EncResult db d n db' → e ≠ illegal →
      RStep (db, t) (.enc d e) (db', if tagOf d n ≠ e then addTranEnc t e (tagOf d n) else t)
  | set (db t off col e fs) : db.recs (translateOffset t off) = some fs → col.toNat < fs.length →
      RStep (db, t) (.set off col e)
        ({ db with recs := upd db.recs (translateOffset t off) (some (fs.set col.toNat (translateEncoded t e))) }, t)
  | setMeta (db t off m fs) : db.recs (translateOffset t off) = some fs →
      RStep (db, t) (.setMeta off m) ({ db with metad := upd db.metad (translateOffset t off) m }, t)

/-- Reflexive transitive closures over a list of entries. -/
inductive SRun : ADb → List Entry → ADb → Prop
  | nil (db) : SRun db [] db
  | cons {db e db' es db''} : SStep db e db' → SRun db' es db'' → SRun db (e :: es) db''

inductive RRun : ADb × Tbl → List Entry → ADb × Tbl → Prop
  | nil (s) : RRun s [] s
  | cons {s e s' es s''} : RStep s e s' → RRun s' es s'' → RRun s (e :: es) s''

/-- The offset an entry creates an object at, if any. -/
def Entry.newOff : Entry → Option Word
  | .cre _ n => some n
  | .enc d e => some (match d with
      | .int _ => decodeFullintOffset e
      | .double _ => decodeFulldouble e
      | .str t s x => if x = [] ∧ t = 5#8 ∧ s.length < 32 then decodeShortstr e else decodeLongstr e
      | .unsupported _ => 0#64)
  | _ => none

end WG
