import Verif.Encoding.Model

/-!
# Values of other databases

The functions for child databases (USE_CHILD_DB): a database may hold references to data in other databases of the same process, once these are registered. Addresses are words; the segment of a
database begins at `base`.
-/
namespace WG.Ext
open WG

/-- Of the header of a database: where its segment is, `size`, `key`, the number of indexes and `extdbs`, Db/dballoc.h lines 422-426. -/
structure Db where
  base : Word
  size : Word
  key : Word
  indexes : Nat
  exts : List (Word × Word)

/-- MAX_EXTDB, Db/dballoc.h line 270. -/
def maxExt : Nat := 20

/-- wg_register_external_db, Db/dballoc.c lines 1403-1432, for another database `e`, compiled with CHECK. -/
def register (d e : Db) : Db × Int :=
  if d.key ≠ 0#64 then (d, -1)
  else if 0 < d.indexes then (d, -1)
  else if maxExt ≤ d.exts.length then (d, 0)
  else ({ d with exts := d.exts ++ [(e.base - d.base, e.size)] }, 0)

/-- wg_create_multi_index, Db/dbindex.c lines 2073-2079: an index may be created. -/
def indexAllowed (d : Db) : Bool := decide (d.exts.length = 0)

/-- wg_translate_hdroffset, Db/dbdata.c lines 2973-3004: `base` of the database that uses the value, `ext` of the one that it comes from. -/
def translate (base ext enc : Word) : Word :=
  let extoff := ext - base
  if isPtr enc = true then
    let t := enc &&& 7#64
    if t = 0#64 then encodeDatarec (decodeDatarec enc + extoff)
    else if t = 4#64 then encodeLongstr (decodeLongstr enc + extoff)
    else if t = 6#64 then encodeShortstr (decodeShortstr enc + extoff)
    else if t = 2#64 then encodeFulldouble (decodeFulldouble enc + extoff)
    else if t = 1#64 ∨ t = 5#64 then encodeFullintOffset (decodeFullintOffset enc + extoff)
    else enc
  else enc

/-- wg_encode_external_data, Db/dbdata.c lines 2962-2969. -/
def encodeExternal (d e : Db) (enc : Word) : Word := translate d.base e.base enc

/-- The loops over `extdbs`, Db/dbdata.c lines 3045-3050. -/
def findOff (base off : Word) : List (Word × Word) → Option Word
  | [] => none
  | (o, s) :: r => if o.slt off ∧ off.slt (o + s) then some (base + o) else findOff base off r

/-- is_local_offset, Db/dbdata.c lines 3059-3064. -/
def isLocal (d : Db) (off : Word) : Bool := BitVec.slt 0#64 off && off.slt d.size

/-- get_ptr_owner, Db/dbdata.c lines 3012-3053. The cases of the switch have no `break` (lines 3017-3026), so the last assignment counts for all of them. `none` is NULL. -/
def ptrOwner (d : Db) (enc : Word) : Option Word :=
  if isPtr enc = true then
    let t := enc &&& 7#64
    let off := if t = 0#64 ∨ t = 4#64 ∨ t = 6#64 ∨ t = 2#64 ∨ t = 1#64 ∨ t = 5#64 then decodeFullintOffset enc else 0#64
    if off = 0#64 then none
    else if isLocal d off = true then some d.base
    else findOff d.base off d.exts
  else some d.base

/-- The loop of wg_get_rec_owner, Db/dbdata.c lines 3086-3092. -/
def findRec (base rec' : Word) : List (Word × Word) → Option Word
  | [] => none
  | (o, s) :: r => if (base + o).slt rec' ∧ rec'.slt (base + o + s) then some (base + o) else findRec base rec' r

/-- wg_get_rec_owner, Db/dbdata.c lines 3076-3095, for the record at address `rec'`. -/
def recOwner (d : Db) (rec' : Word) : Option Word :=
  if d.base.slt rec' ∧ rec'.slt (d.base + d.size) then some d.base else findRec d.base rec' d.exts

end WG.Ext
