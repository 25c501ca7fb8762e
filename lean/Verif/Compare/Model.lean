import Verif.Encoding.Props
/-!
# Comparison of encoded values

Model of `wg_compare` (Db/dbcompare.c lines 52-270) and `WG_COMPARE` (Db/dbcompare.h lines 60-61) together with
the parts of memory it reads: long string headers, C strings, blobs and record fields.

The segment is a word memory and its size in bytes.  Simplifications: doubles are compared as IEEE 754 binary64
patterns; fixpoint values are compared before the division by 10000.0 (which is strictly monotone on their
range); record addresses are compared as offsets; blob lengths are not truncated to `int`.
-/
namespace WG

/-- The memory segment: contents and size in bytes. -/
structure Seg where
  mem : Mem
  size : Nat

/-- Byte at offset `o` (little-endian words). -/
def Seg.byte (s : Seg) (o : Word) : BitVec 8 :=
  (s.mem (o &&& ~~~7#64) >>> (8 * (o &&& 7#64).toNat)).setWidth 8

/-- `n` bytes from offset `o`. -/
def Seg.bytes (s : Seg) (o : Word) (n : Nat) : List (BitVec 8) :=
  (List.range n).map (fun i => s.byte (o + BitVec.ofNat 64 i))

/-- The C string at `o`: the bytes up to a 0 (or the end of the segment). -/
def Seg.cstr (s : Seg) (o : Word) : List (BitVec 8) :=
  (s.bytes o (s.size - o.toNat)).takeWhile (· ≠ 0#8)

/-- `getusedobjectsize`, Db/dballoc.h line 225. -/
def getUsedObjectSize (i : Word) : Word :=
  if (i &&& ~~~3#64).toInt ≤ 32 then 32#64
  else if (i &&& ~~~3#64) &&& 7#64 ≠ 0#64 then (i &&& ~~~3#64) + 4#64
  else i &&& ~~~3#64

/-- `getusedobjectwantedgintsnr`, Db/dballoc.h line 229. -/
def getUsedObjectWantedGints (i : Word) : Word := (i &&& ~~~3#64).sshiftRight 3

/-- `wg_get_record_len`, Db/dbdata.c lines 582-592; `rec` is the record's offset. -/
def recordLen (s : Seg) (r : Word) : Int := (getUsedObjectWantedGints (s.mem r)).toInt - 3

/-- `wg_get_field`, Db/dbdata.c lines 1149-1165, for an existing field number. -/
def recField (s : Seg) (r : Word) (i : Nat) : Word := s.mem (r + BitVec.ofNat 64 (8 * (3 + i)))

/-- The field values of a record in order. -/
def recFields (s : Seg) (r : Word) : List Word := (List.range (recordLen s r).toNat).map (recField s r)

/-- `wg_decode_unistr`, Db/dbdata.c lines 2678-2702 (the string found at the returned pointer; `none` is NULL). -/
def decodeUnistr (s : Seg) (d : Word) : Option (List (BitVec 8)) :=
  if isShortstr d then some (s.cstr (decodeShortstr d))
  else if isLongstr d then some (s.cstr (decodeLongstr d + 48#64))
  else none

/-- `wg_decode_unistr_lang`, Db/dbdata.c lines 2705-2731, for the types other than str. -/
def decodeUnistrLang (s : Seg) (d : Word) : Option (List (BitVec 8)) :=
  if isLongstr d then
    let f := s.mem (decodeLongstr d + 40#64)
    if f = 0#64 then none else decodeUnistr s f
  else none

/-- `wg_decode_blob_len`, Db/dbdata.c (wg_decode_unistr_len lines 2737-2769, plus 1). -/
def decodeBlobLen (s : Seg) (d : Word) : Nat :=
  let o := decodeLongstr d
  (getUsedObjectSize (s.mem o)).toNat - ((s.mem (o + 8#64) &&& 0xff00#64) >>> 8).toNat

/-- `wg_decode_blob`: the bytes behind the header. -/
def decodeBlob (s : Seg) (d : Word) : List (BitVec 8) := s.bytes (decodeLongstr d + 48#64) (decodeBlobLen s d)

/-- strcmp on C strings (bytes are compared unsigned). -/
def strcmp : List (BitVec 8) → List (BitVec 8) → Int
  | [], [] => 0
  | [], _ :: _ => -1
  | _ :: _, [] => 1
  | x :: xs, y :: ys => if x.toNat > y.toNat then 1 else if x.toNat < y.toNat then -1 else strcmp xs ys

/-- memcmp of the first `n` bytes. -/
def memcmp (a b : List (BitVec 8)) : Nat → Int
  | 0 => 0
  | n + 1 => match a, b with
    | x :: xs, y :: ys => if x.toNat > y.toNat then 1 else if x.toNat < y.toNat then -1 else memcmp xs ys n
    | _, _ => 0

/-- The double pattern is a NaN. -/
def isNaN (d : Word) : Bool := decide ((d &&& 0x7fffffffffffffff#64).toNat > 0x7ff0000000000000)

/-- Sign and magnitude of a double pattern as an integer: orders the non-NaN doubles. -/
def dblKey (d : Word) : Int :=
  if d.msb then -((d &&& 0x7fffffffffffffff#64).toNat : Int) else ((d &&& 0x7fffffffffffffff#64).toNat : Int)

/-- `==` on doubles. -/
def dblEq (a b : Word) : Bool := !isNaN a && !isNaN b && decide (dblKey a = dblKey b)
/-- `>` on doubles. -/
def dblGt (a b : Word) : Bool := !isNaN a && !isNaN b && decide (dblKey a > dblKey b)

/-- `x>y ? WG_GREATER : WG_LESSTHAN`. -/
def gtElseLt (gt : Bool) : Int := if gt then 1 else -1

/-- The sign of a C comparison result as WG_GREATER, WG_LESSTHAN, WG_EQUAL (Db/dbcompare.c lines 259-261). -/
def signRes (r : Int) : Int := if r > 0 then 1 else if r < 0 then -1 else 0

/-- What `wg_compare` reads through the decoding functions, for one state of the database: type, integer and double value, string, extra
string (prefix or XML type; `none` is NULL), blob, record length and fields. -/
structure Reader where
  typ : Word → Option WType
  int : Word → Word
  dbl : Word → Word
  str : Word → List (BitVec 8)
  lang : Word → Option (List (BitVec 8))
  blob : Word → List (BitVec 8)
  blobLen : Word → Nat
  len : Word → Int
  fields : Word → List Word

/-- Reading from the memory segment. -/
def Seg.reader (s : Seg) : Reader where
  typ := getEncodedType s.mem
  int w := (decodeInt s.mem w).getD 0#64
  dbl w := (decodeDouble s.mem w).getD 0#64
  str w := (decodeUnistr s w).getD []
  lang := decodeUnistrLang s
  blob := decodeBlob s
  blobLen := decodeBlobLen s
  len := recordLen s
  fields := recFields s

instance : Coe Seg Reader := ⟨Seg.reader⟩

/-- Type code, -1 for no type (`wg_get_encoded_type`). -/
def typeCode (R : Reader) (d : Word) : Int := match R.typ d with
  | some t => t.code
  | none => -1

/-- The string branch of `wg_compare`, Db/dbcompare.c lines 179-262. -/
def compareStrings (R : Reader) (ta : Int) (a b : Word) : Int :=
  if ta = 5 then signRes (strcmp (R.str a) (R.str b))
  else if ta = 9 then
    let one (c : BitVec 8) : List (BitVec 8) := if c = 0#8 then [] else [c]
    signRes (strcmp (one (decodeChar a)) (one (decodeChar b)))
  else if ta = 7 ∨ ta = 6 then
    let main := signRes (strcmp (R.str a) (R.str b))
    match R.lang a, R.lang b with
    | none, none => main
    | some ea, none => if ea ≠ [] then 1 else main
    | none, some eb => if eb ≠ [] then -1 else main
    | some ea, some eb =>
      let r := strcmp ea eb
      if r > 0 then 1 else if r < 0 then -1 else main
  else
    let r := memcmp (R.blob a) (R.blob b) (min (R.blobLen a) (R.blobLen b))
    signRes (if r = 0 then (R.blobLen a : Int) - R.blobLen b else r)

/-- The field loop of `wg_compare`, Db/dbcompare.c lines 137-156; the lists have equal length. -/
def compareFields (cmp : Word → Word → Int) : List Word → List Word → Int
  | ea :: as, eb :: bs =>
    if ea ≠ eb then
      let cr := cmp ea eb
      if cr ≠ 0 then cr else compareFields cmp as bs
    else compareFields cmp as bs
  | _, _ => 0

/-- `wg_compare`, Db/dbcompare.c lines 52-270. -/
def wgCompare (R : Reader) : Nat → Word → Word → Int
  | depth, a, b =>
    let ta := typeCode R a
    let tb := typeCode R b
    if tb = ta then
      if ta > 9 then
        if ta > 10 then
          if ta = 11 then gtElseLt (decide (((decodeDate a).getD 0#32).toInt > ((decodeDate b).getD 0#32).toInt))
          else if ta = 12 then gtElseLt (decide (((decodeTime a).getD 0#32).toInt > ((decodeTime b).getD 0#32).toInt))
          else if ta = 14 then gtElseLt (decide (((decodeVar a).getD (-1#64)).toInt > ((decodeVar b).getD (-1#64)).toInt))
          else gtElseLt (decide (a.toInt > b.toInt))
        else gtElseLt (decide (((decodeFixpoint a).getD 0#64).toInt > ((decodeFixpoint b).getD 0#64).toInt))
      else if ta < 5 then
        if ta = 2 then
          match depth with
          | 0 => gtElseLt (decide ((decodeDatarec a).toInt > (decodeDatarec b).toInt))
          | d + 1 =>
            let lena := R.len (decodeDatarec a)
            let lenb := R.len (decodeDatarec b)
            if lena ≠ lenb then gtElseLt (decide (lena > lenb))
            else compareFields (wgCompare R d) (R.fields (decodeDatarec a)) (R.fields (decodeDatarec b))
        else if ta = 3 then
          let da := R.int a
          let db := R.int b
          if da = db then 0 else gtElseLt (decide (da.toInt > db.toInt))
        else
          let da := R.dbl a
          let db := R.dbl b
          if dblEq da db then 0 else gtElseLt (dblGt da db)
      else compareStrings R ta a b
    else gtElseLt (decide (ta > tb))

/-- `WG_COMPARE_REC_DEPTH`, Db/dbcompare.h line 51. -/
def compareRecDepth : Nat := 7

/-- `WG_COMPARE`, Db/dbcompare.h lines 60-61. -/
def WG_COMPARE (R : Reader) (a b : Word) : Int := if a = b then 0 else wgCompare R compareRecDepth a b

end WG
