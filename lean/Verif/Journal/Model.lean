import Verif.Encoding.Model
import Verif.Dump.Model
/-!
# The journal

Model of the journal coding in `Db/dblog.c` (compiled with USE_DBLOG).  A journal file is the list of bytes
after the 4-byte magic header; reads are from the front of the remaining bytes; reading at the end is EOF.
-/
namespace WG

/-- Byte of a word, as the C cast `(unsigned char)`. -/
def lowByte (v : Word) : Byte := v.setWidth 8

/-- `enc_varint`, Db/dblog.c lines 270-326 (64-bit branch). The C code first stores each byte with the
continuation bit and clears it afterwards when the value turns out to fit (`&= 0x7f`). -/
def encVarint (v : Word) : List Byte :=
  let b0 := lowByte (v ||| 0x80#64)
  if v < 0x80#64 then [b0 &&& 0x7f#8] else
  let b1 := lowByte ((v >>> 7) ||| 0x80#64)
  if v < 0x4000#64 then [b0, b1 &&& 0x7f#8] else
  let b2 := lowByte ((v >>> 14) ||| 0x80#64)
  if v < 0x200000#64 then [b0, b1, b2 &&& 0x7f#8] else
  let b3 := lowByte ((v >>> 21) ||| 0x80#64)
  if v < 0x10000000#64 then [b0, b1, b2, b3 &&& 0x7f#8] else
  let b4 := lowByte ((v >>> 28) ||| 0x80#64)
  if v < 0x800000000#64 then [b0, b1, b2, b3, b4 &&& 0x7f#8] else
  let b5 := lowByte ((v >>> 35) ||| 0x80#64)
  if v < 0x40000000000#64 then [b0, b1, b2, b3, b4, b5 &&& 0x7f#8] else
  let b6 := lowByte ((v >>> 42) ||| 0x80#64)
  if v < 0x2000000000000#64 then [b0, b1, b2, b3, b4, b5, b6 &&& 0x7f#8] else
  let b7 := lowByte ((v >>> 49) ||| 0x80#64)
  if v < 0x100000000000000#64 then [b0, b1, b2, b3, b4, b5, b6, b7 &&& 0x7f#8] else
  [b0, b1, b2, b3, b4, b5, b6, b7, lowByte (v >>> 56)]

/-- The value of the low 7 bits of a byte. -/
def low7 (c : Byte) : Word := (c &&& 0x7f#8).setWidth 64

/-- Continuation bit. -/
def more (c : Byte) : Bool := c &&& 0x80#8 != 0#8

/-- `fget_varint`, Db/dblog.c lines 400-444: `none` is the error return on EOF. -/
def getVarint : List Byte → Option (Word × List Byte)
  | [] => none
  | c0 :: r0 =>
    let t0 := low7 c0
    if !more c0 then some (t0, r0) else
    match r0 with
    | [] => none
    | c1 :: r1 =>
      let t1 := t0 ||| low7 c1 <<< 7
      if !more c1 then some (t1, r1) else
      match r1 with
      | [] => none
      | c2 :: r2 =>
        let t2 := t1 ||| low7 c2 <<< 14
        if !more c2 then some (t2, r2) else
        match r2 with
        | [] => none
        | c3 :: r3 =>
          let t3 := t2 ||| low7 c3 <<< 21
          if !more c3 then some (t3, r3) else
          match r3 with
          | [] => none
          | c4 :: r4 =>
            let t4 := t3 ||| low7 c4 <<< 28
            if !more c4 then some (t4, r4) else
            match r4 with
            | [] => none
            | c5 :: r5 =>
              let t5 := t4 ||| low7 c5 <<< 35
              if !more c5 then some (t5, r5) else
              match r5 with
              | [] => none
              | c6 :: r6 =>
                let t6 := t5 ||| low7 c6 <<< 42
                if !more c6 then some (t6, r6) else
                match r6 with
                | [] => none
                | c7 :: r7 =>
                  let t7 := t6 ||| low7 c7 <<< 49
                  if !more c7 then some (t7, r7) else
                  match r7 with
                  | [] => none
                  | c8 :: r8 => some (t7 ||| c8.setWidth 64 <<< 56, r8)

/-- What an ENC entry carries, `recover_encode`, Db/dblog.c lines 531-600. -/
inductive EncData where
  /-- 4-byte int -/
  | int (v : BitVec 32)
  /-- 8-byte double -/
  | double (v : BitVec 64)
  /-- string types (STR, URI, XMLLITERAL, ANONCONST, BLOB) with data and extra data -/
  | str (type : Byte) (data ext : List Byte)
  /-- any other type: `recover_encode` returns -1 -/
  | unsupported (type : Byte)
deriving DecidableEq, Repr

/-- A journal entry as seen by `recover_journal`, Db/dblog.c lines 605-681. -/
inductive Entry where
  | cre (length offset : Word)
  | del (offset : Word)
  | enc (data : EncData) (enc : Word)
  | set (offset col enc : Word)
  | setMeta (offset data : Word)
deriving DecidableEq, Repr

/-- WG_INTTYPE 3, WG_DOUBLETYPE 4 and the string types: STR 5, XMLLITERAL 6, URI 7, BLOB 8, ANONCONST 13
(Db/dbdata.h lines 60-73). -/
def isStrType (t : Byte) : Bool := t == 5#8 || t == 6#8 || t == 7#8 || t == 8#8 || t == 13#8

/-- The switch of `recover_encode`, Db/dblog.c lines 531-600. `none`: a read hit the end of the file
(the C code then returns WG_ILLEGAL with the stream at EOF). `malloc` is assumed to succeed. -/
def recoverEncode (type : Byte) (s : List Byte) : Option (EncData × List Byte) :=
  if type = 3#8 then
    if s.length < 4 then none else some (.int (le32 s 0), s.drop 4)
  else if type = 4#8 then
    if s.length < 8 then none else some (.double (le64 s 0), s.drop 8)
  else if isStrType type then
    match getVarint s with
    | none => none
    | some (len, s) =>
      match getVarint s with
      | none => none
      | some (ext, s) =>
        if s.length < len.toNat then none else
        let data := s.take len.toNat
        let s := s.drop len.toNat
        if s.length < ext.toNat then none else
        some (.str type data (s.take ext.toNat), s.drop ext.toNat)
  else some (.unsupported type, s)

/-- One iteration of the loop of `recover_journal`, Db/dblog.c lines 612-679, up to the point where the
entry has been read completely. `none` is the error return (-1). When `recover_encode` fails the stream is
at EOF, so the read of the encoded value that follows fails too. -/
def readEntry : List Byte → Option (Entry × List Byte)
  | [] => none
  | c :: s =>
    let cmd := c &&& 0xe0#8
    if cmd = 0x40#8 then
      match getVarint s with
      | none => none
      | some (len, s) =>
        match getVarint s with
        | none => none
        | some (off, s) => some (.cre len off, s)
    else if cmd = 0x80#8 then
      match getVarint s with
      | none => none
      | some (off, s) => some (.del off, s)
    else if cmd = 0#8 then
      match recoverEncode (c &&& 0x1f#8) s with
      | none => none
      | some (d, s) =>
        match getVarint s with
        | none => none
        | some (enc, s) => some (.enc d enc, s)
    else if cmd = 0xc0#8 then
      match getVarint s with
      | none => none
      | some (off, s) =>
        match getVarint s with
        | none => none
        | some (col, s) =>
          match getVarint s with
          | none => none
          | some (enc, s) => some (.set off col enc, s)
    else if cmd = 0x20#8 then
      match getVarint s with
      | none => none
      | some (off, s) =>
        match getVarint s with
        | none => none
        | some (m, s) => some (.setMeta off m, s)
    else none

/-- The loop of `recover_journal` with the execution of entries left out: the entries in the order they
would be executed and whether the loop ends normally (`true`, EOF at a command byte) or with an error.
`fuel` bounds the number of iterations; every iteration consumes a byte, so the length of the stream is
always enough. -/
def readLoop : Nat → List Byte → List Entry × Bool
  | _, [] => ([], true)
  | 0, _ :: _ => ([], false)
  | fuel+1, c :: s =>
    match readEntry (c :: s) with
    | none => ([], false)
    | some (e, s') => let r := readLoop fuel s'; (e :: r.1, r.2)

/-- `recover_journal`, Db/dblog.c lines 605-681, reading only. -/
def readJournal (s : List Byte) : List Entry × Bool := readLoop s.length s

/-! ## Writing -/

/-- A logged API operation. -/
inductive LogOp where
  /-- `wg_create_record` returning `offset` (0 on failure) -/
  | create (length offset : Word)
  | delete (offset : Word)
  /-- `wg_encode_int` of a value that does not fit inline -/
  | encInt (v enc : Word)
  | encDouble (v enc : Word)
  /-- a string of type `type` without NUL bytes; `nested` is the encoded value of the extra string when a
  new string object with an extra string had to be created -/
  | encStr (type : Byte) (data ext : List Byte) (nested : Option Word) (enc : Word)
  | set (offset col enc : Word)
  | setMeta (offset data : Word)

/-- `fits_smallint` applied to an `int` lvalue, Db/dblog.c line 1080, Db/dbdata.h line 138. -/
def fitsSmallint32 (i : BitVec 32) : Bool := (i <<< 3).sshiftRight 3 == i

/-- `wg_log_encode` for string types, Db/dblog.c lines 1100-1124. -/
def logStr (type : Byte) (data ext : List Byte) : List Byte :=
  type :: (encVarint (BitVec.ofNat 64 data.length) ++ encVarint (BitVec.ofNat 64 ext.length) ++ data ++ ext)

/-- Bytes appended to the journal by one operation: `wg_log_create_record`/`wg_log_encval` around
`wg_create_raw_record` (Db/dbdata.c lines 158-187), `wg_log_delete_record`, `wg_log_encode`/`wg_log_encval`
around the encoders (Db/dbdata.c lines 1480-1498, 1562-1583, 2497-2563), `wg_log_set_field`,
`wg_log_set_meta`; Db/dblog.c lines 1012-1175.  `wg_log_encode` reads the integer through an `int` pointer.
A new string with extra data encodes the extra string (with its own log entry) before the result of the
outer encoding is logged: Db/dbdata.c line 2637 inside line 2550. -/
def LogOp.bytes : LogOp → List Byte
  | .create len off => 0x40#8 :: (encVarint len ++ encVarint off)
  | .delete off => 0x80#8 :: encVarint off
  | .encInt v enc =>
    (if fitsSmallint32 (v.setWidth 32) then [] else 3#8 :: bytes32 (v.setWidth 32)) ++ encVarint enc
  | .encDouble v enc => 4#8 :: (bytes64 v ++ encVarint enc)
  | .encStr t data ext none enc => logStr t data ext ++ encVarint enc
  | .encStr t data ext (some inner) enc =>
    logStr t data ext ++ (logStr 5#8 ext [] ++ encVarint inner) ++ encVarint enc
  | .set off col enc => 0xc0#8 :: (encVarint off ++ encVarint col ++ encVarint enc)
  | .setMeta off m => 0x20#8 :: (encVarint off ++ encVarint m)

/-- The journal after a sequence of operations. -/
def journalOf (ops : List LogOp) : List Byte := (ops.map LogOp.bytes).flatten

end WG
