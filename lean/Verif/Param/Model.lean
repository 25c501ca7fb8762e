import Verif.Compare.Props
/-!
# Query parameters

wg_encode_query_param_* of Db/dbquery.c: values for the conditions of a query, in memory of the process instead of the database.

The memory of the process is addressed by offsets from the base of the database, as the code does (`ptrtooffset`, `offsettoptr`); it is a `Seg` of 2^64 bytes. `malloc n` is the
offset of the block returned for `n` bytes, `none` for NULL. Strings are without their final 0 byte. Simplification: lengths are not truncated to `int`.
-/
namespace WG.Param

/-- A C string without its 0 byte. -/
abbrev Str := List (BitVec 8)

/-- A byte written at offset `o` (little-endian words). -/
def putByte (m : Mem) (o : Word) (b : BitVec 8) : Mem := fun a =>
  if a = o &&& ~~~7#64 then (m a &&& ~~~(0xff#64 <<< (8 * (o &&& 7#64).toNat))) ||| (b.setWidth 64 <<< (8 * (o &&& 7#64).toNat)) else m a

/-- memcpy, and loops that write consecutive bytes. -/
def copy (m : Mem) (o : Word) : Str → Mem
  | [] => m
  | b :: l => copy (putByte m o b) (o + 1#64) l

/-- wg_encode_query_param_int, lines 1165-1180. -/
def paramInt (malloc : Nat → Option Word) (m : Mem) (data : Word) : Mem × Word :=
  if fitsSmallint data then (m, encodeSmallint data)
  else match malloc 8 with
    | none => (m, illegal)
    | some o => (dbstore m o data, encodeFullintOffset o)

/-- wg_encode_query_param_double, lines 1182-1192. -/
def paramDouble (malloc : Nat → Option Word) (m : Mem) (data : Word) : Mem × Word :=
  match malloc 16 with
  | none => (m, illegal)
  | some o => (dbstore m o data, encodeFulldouble o)

/-- encode_query_param_unistr, lines 1229-1301; `t` is the type code (not that of blobs). -/
def paramUnistr (malloc : Nat → Option Word) (m : Mem) (data : Str) (t : Word) (ext : Option Str) : Mem × Word :=
  if t = 5#64 ∧ ext = none then match malloc (data.length + 1) with
    | none => (m, illegal)
    | some o => (copy m o (data ++ [0#8]), encodeShortstr o)
  else
    let length := data.length + 1
    let lenrest := length % 8
    let lengints := length / 8 + if lenrest ≠ 0 then 1 else 0
    let dlen := 8 * (6 + lengints)
    let dlen := if dlen < 32 then 32 else dlen
    let dlen := if dlen % 8 ≠ 0 then dlen + 4 else dlen
    match malloc (dlen + match ext with | some e => e.length + 1 | none => 0) with
    | none => (m, illegal)
    | some o =>
      let m := copy m (o + 48#64) (data ++ [0#8])
      let m := copy m (o + 48#64 + BitVec.ofNat 64 length) (List.replicate (if lenrest ≠ 0 then 8 - lenrest else 0) 0#8)
      let m := match ext with
        | some e => dbstore (copy m (o + BitVec.ofNat 64 dlen) (e ++ [0#8])) (o + 40#64) (encodeShortstr (o + BitVec.ofNat 64 dlen))
        | none => dbstore m (o + 40#64) 0#64
      let m := dbstore m o (BitVec.ofNat 64 dlen)
      let m := dbstore m (o + 8#64) ((BitVec.ofNat 64 (dlen - length) <<< 8) ||| t)
      let m := dbstore m (o + 16#64) 0#64
      let m := dbstore m (o + 24#64) 0#64
      let m := dbstore m (o + 32#64) 0#64
      (m, encodeLongstr o)

/-- wg_encode_query_param_str, lines 1194-1201. -/
def paramStr (malloc : Nat → Option Word) (m : Mem) (data : Str) (lang : Option Str) : Mem × Word := paramUnistr malloc m data 5#64 lang
/-- wg_encode_query_param_xmlliteral, lines 1203-1211. -/
def paramXmlliteral (malloc : Nat → Option Word) (m : Mem) (data : Str) (xsdtype : Option Str) : Mem × Word := paramUnistr malloc m data 6#64 xsdtype
/-- wg_encode_query_param_uri, lines 1213-1221. -/
def paramUri (malloc : Nat → Option Word) (m : Mem) (data : Str) (prefix_ : Option Str) : Mem × Word := paramUnistr malloc m data 7#64 prefix_

/-- wg_free_query_param, lines 1305-1339: the offset of the block given to `free`, if any. -/
def freeParam (w : Word) : Option Word :=
  if isPtr w then
    if w &&& 7#64 = 0#64 then none
    else if w &&& 7#64 = 6#64 then some (decodeShortstr w)
    else if w &&& 7#64 = 4#64 then some (decodeLongstr w)
    else if w &&& 7#64 = 2#64 then some (decodeFulldouble w)
    else if w &&& 7#64 = 1#64 ∨ w &&& 7#64 = 5#64 then some (decodeFullintOffset w)
    else none
  else none

end WG.Param
