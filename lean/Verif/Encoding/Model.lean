/-!
# Encoded data words

Model of the word-level data encoding of WhiteDB: `Db/dbdata.h` lines 280-435 (bit layouts and macros)
and the scalar `wg_encode_*` / `wg_decode_*` functions of `Db/dbdata.c` lines 1358-1875 and 2437-2472.

A `gint` is a `BitVec 64` (configuration HAVE_64BIT_GINT), a C `int` is a `BitVec 32`, a C `char` a
`BitVec 8`.  Left shifts of negative or overflowing signed values, which ISO C leaves undefined, are
modelled as what gcc produces (two's complement wrap-around); this is noted in DESIGN.md.

The database memory is a function from byte offsets to words.  `CHECK` is assumed on; the check of the
database pointer itself (`dbcheck`) is not modelled (the database is a value here, it is always valid).
-/
namespace WG

/-- `gint`, Db/dballoc.h (64-bit build). -/
abbrev Word := BitVec 64

/-- Database memory: byte offset ↦ word stored there (`dbfetch`/`dbstore`, Db/dballoc.h). Only the
word-aligned accesses of the C code are modelled. -/
abbrev Mem := Word → Word

/-- `dbfetch(db,offset)`, Db/dballoc.h. -/
def dbfetch (m : Mem) (off : Word) : Word := m off

/-- `dbstore(db,offset,data)`, Db/dballoc.h. -/
def dbstore (m : Mem) (off v : Word) : Mem := fun o => if o = off then v else m o

/-- `WG_ILLEGAL`, Db/dbdata.h line 76. -/
def illegal : Word := 0xff#64

/-- Data types, Db/dbdata.h lines 60-73. -/
inductive WType
  | null | record | int | double | str | xmlliteral | uri | blob
  | char | fixpoint | date | time | anonconst | var
deriving DecidableEq, Repr

/-- Numeric codes of the types, Db/dbdata.h lines 60-73. -/
def WType.code : WType → Int
  | .null => 1 | .record => 2 | .int => 3 | .double => 4 | .str => 5 | .xmlliteral => 6 | .uri => 7
  | .blob => 8 | .char => 9 | .fixpoint => 10 | .date => 11 | .time => 12 | .anonconst => 13 | .var => 14

/-! ## Small and full integers -/

/-- `fits_smallint`, Db/dbdata.h line 311. -/
def fitsSmallint (i : Word) : Bool := (i <<< 3).sshiftRight 3 == i
/-- `encode_smallint`, Db/dbdata.h line 312. -/
def encodeSmallint (i : Word) : Word := (i <<< 3) ||| 3#64
/-- `decode_smallint`, Db/dbdata.h line 313. -/
def decodeSmallint (i : Word) : Word := i.sshiftRight 3
/-- `issmallint`, Db/dbdata.h line 425. -/
def isSmallint (i : Word) : Bool := (i &&& 7#64) == 3#64
/-- `encode_fullint_offset`, Db/dbdata.h line 320. -/
def encodeFullintOffset (i : Word) : Word := i ||| 1#64
/-- `decode_fullint_offset`, Db/dbdata.h line 321. -/
def decodeFullintOffset (i : Word) : Word := i &&& ~~~3#64
/-- `isfullint`, Db/dbdata.h line 420. -/
def isFullint (i : Word) : Bool := (i &&& 3#64) == 1#64

/-- `wg_encode_int`, Db/dbdata.c lines 1465-1504 (without journal).  `alloc` is the result of
`alloc_word(db)`: `none` stands for offset 0 (out of memory). Returns the new memory and the code. -/
def encodeInt (m : Mem) (alloc : Option Word) (data : Word) : Mem × Word :=
  if fitsSmallint data then (m, encodeSmallint data)
  else match alloc with
    | none => (m, illegal)
    | some off => (dbstore m off data, encodeFullintOffset off)

/-- `wg_decode_int`, Db/dbdata.c lines 1506-1517.  `none`: the error branch (which returns 0). -/
def decodeInt (m : Mem) (data : Word) : Option Word :=
  if isSmallint data then some (decodeSmallint data)
  else if isFullint data then some (dbfetch m (decodeFullintOffset data))
  else none

/-! ## Pointer types -/

/-- `encode_datarec_offset`, Db/dbdata.h line 326. -/
def encodeDatarec (i : Word) : Word := i
/-- `decode_datarec_offset`, Db/dbdata.h line 327. -/
def decodeDatarec (i : Word) : Word := i
/-- `encode_longstr_offset`, Db/dbdata.h line 332. -/
def encodeLongstr (i : Word) : Word := i ||| 4#64
/-- `decode_longstr_offset`, Db/dbdata.h line 333. -/
def decodeLongstr (i : Word) : Word := i &&& ~~~7#64
/-- `encode_fulldouble_offset`, Db/dbdata.h line 338. -/
def encodeFulldouble (i : Word) : Word := i ||| 2#64
/-- `decode_fulldouble_offset`, Db/dbdata.h line 339. -/
def decodeFulldouble (i : Word) : Word := i &&& ~~~7#64
/-- `encode_shortstr_offset`, Db/dbdata.h line 344. -/
def encodeShortstr (i : Word) : Word := i ||| 6#64
/-- `decode_shortstr_offset`, Db/dbdata.h line 345. -/
def decodeShortstr (i : Word) : Word := i &&& ~~~7#64
/-- `isfulldouble`, Db/dbdata.h line 421. -/
def isFulldouble (i : Word) : Bool := (i &&& 7#64) == 2#64
/-- `isshortstr`, Db/dbdata.h line 422. -/
def isShortstr (i : Word) : Bool := (i &&& 7#64) == 6#64
/-- `islongstr`, Db/dbdata.h line 423. -/
def isLongstr (i : Word) : Bool := (i &&& 7#64) == 4#64
/-- `isdatarec`, Db/dbdata.h line 419. -/
def isDatarec (i : Word) : Bool := (i &&& 7#64) == 0#64
/-- `isptr`, Db/dbdata.h line 417. -/
def isPtr (i : Word) : Bool := i != 0#64 && (i &&& 3#64) != 3#64

/-- `wg_encode_double`, Db/dbdata.c lines 1551-1589 (without journal). The double is represented by
its 64-bit pattern, `alloc` is the result of `alloc_doubleword(db)`. -/
def encodeDouble (m : Mem) (alloc : Option Word) (data : Word) : Mem × Word :=
  match alloc with
  | none => (m, illegal)
  | some off => (dbstore m off data, encodeFulldouble off)

/-- `wg_decode_double`, Db/dbdata.c lines 1591-1602. `none`: error branch. -/
def decodeDouble (m : Mem) (data : Word) : Option Word :=
  if isFulldouble data then some (dbfetch m (decodeFulldouble data)) else none

/-! ## Other inline data -/

/-- `fits_var`, Db/dbdata.h line 353. -/
def fitsVar (i : Word) : Bool := (i <<< 4).sshiftRight 4 == i
/-- `wg_encode_var`, Db/dbdata.c lines 2437-2457 with `encode_var`, Db/dbdata.h line 354. -/
def encodeVar (i : Word) : Word := if fitsVar i then (i <<< 4) ||| 7#64 else illegal
/-- `wg_decode_var`, Db/dbdata.c lines 2460-2472 with `decode_var`, Db/dbdata.h line 355.
The tag is not checked by the C code, only 0 is refused (`none`, C returns -1). -/
def decodeVar (d : Word) : Option Word := if d = 0#64 then none else some (d.sshiftRight 4)
/-- `isvar`, Db/dbdata.h line 427. -/
def isVar (i : Word) : Bool := (i &&& 0xf#64) == 7#64

/-- `wg_encode_char`, Db/dbdata.c lines 1521-1537 with `encode_char`, Db/dbdata.h line 361;
`(wg_int)data` sign-extends (char is signed on the modelled platform). -/
def encodeChar (c : BitVec 8) : Word := (c.signExtend 64 <<< 8) ||| 0x1f#64
/-- `wg_decode_char`, Db/dbdata.c lines 1540-1548: no tag check, cast to char truncates. -/
def decodeChar (d : Word) : BitVec 8 := (d.sshiftRight 8).setWidth 8
/-- `ischar`, Db/dbdata.h line 428. -/
def isChar (i : Word) : Bool := (i &&& 0xff#64) == 0x1f#64

/-- `MAXDATE`, Db/dbdata.h line 368: 128*255*255. -/
def maxDate : Int := 8323200
/-- `fits_date`, Db/dbdata.h line 371. -/
def fitsDate (i : BitVec 32) : Bool := decide (i.toInt ≤ maxDate) && decide (i.toInt ≥ -maxDate)
/-- `wg_encode_date`, Db/dbdata.c lines 1642-1663 with `encode_date`, Db/dbdata.h line 372: the shift is
done on a 32-bit int, the result is sign-extended to `wg_int`. -/
def encodeDate (i : BitVec 32) : Word :=
  if fitsDate i then ((i <<< 8) ||| 0x2f#32).signExtend 64 else illegal
/-- `isdate`, Db/dbdata.h line 430. -/
def isDate (i : Word) : Bool := (i &&& 0xff#64) == 0x2f#64
/-- `wg_decode_date`, Db/dbdata.c lines 1665-1676 with `decode_date`, Db/dbdata.h line 373. -/
def decodeDate (d : Word) : Option (BitVec 32) :=
  if isDate d then some ((d.sshiftRight 8).setWidth 32) else none

/-- `MAXTIME`, Db/dbdata.h line 379: 24*60*60*100. -/
def maxTime : Int := 8640000
/-- `fits_time`, Db/dbdata.h line 382. -/
def fitsTime (i : BitVec 32) : Bool := decide (i.toInt ≤ maxTime) && decide (i.toInt ≥ 0)
/-- `wg_encode_time`, Db/dbdata.c lines 1678-1699 with `encode_time`, Db/dbdata.h line 383. -/
def encodeTime (i : BitVec 32) : Word :=
  if fitsTime i then ((i <<< 8) ||| 0x3f#32).signExtend 64 else illegal
/-- `istime`, Db/dbdata.h line 431. -/
def isTime (i : Word) : Bool := (i &&& 0xff#64) == 0x3f#64
/-- `wg_decode_time`, Db/dbdata.c lines 1701-1712 with `decode_time`, Db/dbdata.h line 384: cast to
unsigned int, logical shift. -/
def decodeTime (d : Word) : Option (BitVec 32) :=
  if isTime d then some (d.setWidth 32 >>> 8) else none

/-- `fits_fixpoint` and the scaled integer of `encode_fixpoint`, Db/dbdata.h lines 390-395: the model
starts after rounding, `i` is `(int)round(data*10000)`; the range check `|data| <= 800` gives
`|i| <= 8000000`. -/
def fitsFixpoint (i : BitVec 32) : Bool := decide (i.toInt ≤ 8000000) && decide (i.toInt ≥ -8000000)
/-- `wg_encode_fixpoint`, Db/dbdata.c lines 1605-1626, after rounding (see `fitsFixpoint`). -/
def encodeFixpoint (i : BitVec 32) : Word :=
  if fitsFixpoint i then ((i <<< 8) ||| 0xf#32).signExtend 64 else illegal
/-- `isfixpoint`, Db/dbdata.h line 429. -/
def isFixpoint (i : Word) : Bool := (i &&& 0xff#64) == 0xf#64
/-- `wg_decode_fixpoint`, Db/dbdata.c lines 1628-1639 with `decode_fixpoint`, Db/dbdata.h line 396,
before the division by 10000.0. -/
def decodeFixpoint (d : Word) : Option Word := if isFixpoint d then some (d.sshiftRight 8) else none

/-- `encode_anonconst`, Db/dbdata.h line 406. -/
def encodeAnonconst (i : Word) : Word := (i <<< 8) ||| 0x5f#64
/-- `decode_anonconst`, Db/dbdata.h line 407. -/
def decodeAnonconst (i : Word) : Word := i.sshiftRight 8

/-- `wg_encode_null`, Db/dbdata.c lines 1429-1449. -/
def encodeNull : Word := 0#64

/-- Type stored in the low byte of a long string's meta word (`LONGSTR_META_TYPEMASK`, Db/dbdata.h
line 625): `none` for a byte that is no type code. -/
def typeOfCode (b : Word) : Option WType :=
  if b = 5#64 then some .str else if b = 6#64 then some .xmlliteral else if b = 7#64 then some .uri
  else if b = 8#64 then some .blob else if b = 13#64 then some .anonconst else none

/-- `wg_get_encoded_type`, Db/dbdata.c lines 1358-1405. `none`: the error results (-1), and a long string
whose meta word holds no string type. The order of the tests is that of the C code. -/
def getEncodedType (m : Mem) (d : Word) : Option WType :=
  if d = 0#64 then some .null
  else if (d &&& 3#64) = 3#64 then
    if isVar d then some .var
    else if isSmallint d then some .int
    else
      let b := d &&& 0xff#64
      if b = 0x1f#64 then some .char
      else if b = 0xf#64 then some .fixpoint
      else if b = 0x2f#64 then some .date
      else if b = 0x3f#64 then some .time
      else if b = 0x4f#64 then some .str
      else if b = 7#64 then some .var
      else if b = 0x5f#64 then some .anonconst
      else none
  else
    let t := d &&& 7#64
    if t = 0#64 then some .record
    else if t = 4#64 then typeOfCode (dbfetch m (decodeLongstr d + 8#64) &&& 0xff#64)
    else if t = 6#64 then some .str
    else if t = 2#64 then some .double
    else if t = 1#64 then some .int
    else if t = 5#64 then some .int
    else none

end WG
