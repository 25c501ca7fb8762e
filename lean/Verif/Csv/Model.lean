import Verif.Calendar.Iso
import Verif.Json.Model
/-!
# Text and CSV

wg_parse_and_encode, wg_import_db_csv and wg_export_db_csv of Db/dbutil.c. Strings are lists of bytes without the final 0. `atof` (the double and whether the value is out of range)
and `%f` are parameters, and so is the database: the import is modelled as a sequence of calls of encoders and of record creations. `none` is a write or read outside of a buffer,
or NULL given to `%s`. Simplification: malloc does not fail.
-/
namespace WG.Csv
open WG.Json (digits fmtInt)

abbrev Byte := BitVec 8
/-- A C string without its 0 byte. -/
abbrev Str := List Byte

/-- A value given to an encoder, Db/dbutil.c lines 474-495. -/
inductive Val
  | null | int (v : Word) | double (v : Word) | str (s : Str) | date (d : Int) | time (t : Int)
  deriving DecidableEq

/-- Bytes as the characters sscanf sees in wg_strp_iso_date and wg_strp_iso_time (called at Db/dbutil.c lines 580-582). -/
def chars (s : Str) : List Char := s.map fun b => Char.ofNat b.toNat

/-- `c >= '0' && c <= '9'`, Db/dbutil.c lines 577 and 598. -/
def isDig (b : Byte) : Bool := decide (48 ≤ b.toNat ∧ b.toNat ≤ 57)

/-- The loop of parse_input_type, Db/dbutil.c lines 589-609: the text put into `numbuf` and the count of decimal separators (2 for a character that is not numeric); `k` characters
are in `numbuf` already. -/
def scanNum : Str → Nat → Nat → Str × Nat
  | [], _, dec => ([], dec)
  | c :: r, k, dec =>
    if c = 46#8 then
      if k + 1 ≥ 79 then ([c], dec + 1) else let (t, d) := scanNum r (k + 1) (dec + 1); (c :: t, d)
    else if isDig c = false ∧ k ≠ 0 then ([], 2)
    else if k + 1 ≥ 79 then ([c], dec) else let (t, d) := scanNum r (k + 1) dec; (c :: t, d)

/-- The number with these decimal digits, for `atol` (Db/dbutil.c line 622). -/
def decimal (s : Str) : Nat := s.foldl (fun n c => 10 * n + (c.toNat - 48)) 0

/-- atol of the C library, called at Db/dbutil.c line 622: the value and whether errno was set to ERANGE. -/
def atol (s : Str) : Int × Bool :=
  let v : Int := match s with
    | [] => 0
    | c :: r => if c = 45#8 then -(decimal (r.takeWhile isDig) : Int) else decimal ((c :: r).takeWhile isDig)
  if v > 2 ^ 63 - 1 then (2 ^ 63 - 1, true) else if v < -2 ^ 63 then (-2 ^ 63, true) else (v, false)

/-- parse_input_type, Db/dbutil.c lines 568-637, and the choice of the encoder in wg_parse_and_encode, lines 469-497 (the same in wg_parse_and_encode_param, lines 507-535).
`errno` tells whether errno is ERANGE or EINVAL before and after. -/
def parseInput (atof : Str → Word × Bool) (errno : Bool) (s : Str) : Val × Bool :=
  match s with
  | [] => (.null, errno)
  | c :: r =>
    if isDig c = true ∨ (c = 45#8 ∧ r.head?.any isDig = true) then
      if c ≠ 45#8 ∧ Iso.strpDate (chars s) ≥ 0 then (.date (Iso.strpDate (chars s)), errno)
      else if c ≠ 45#8 ∧ Iso.strpTime (chars s) ≥ 0 then (.time (Iso.strpTime (chars s)), errno)
      else
        let (num, dec) := scanNum s 0 0
        if dec = 1 then
          let (d, range) := atof num
          if errno || range then (.str s, false) else (.double d, false)
        else if dec = 0 then
          let (v, range) := atol num
          if errno || range then (.str s, false) else (.int (BitVec.ofInt 64 v), false)
        else (.str s, errno)
    else (.str s, errno)

/-! ## Import -/

/-- Results of wg_create_record and wg_set_field for one record, Db/dbutil.c lines 871-883. -/
inductive Created
  | ok | noRecord | noField
  deriving DecidableEq

/-- The database: the encoders (`none` is WG_ILLEGAL) and the creation of a record with given fields, Db/dbutil.c lines 871-883. -/
structure Env (σ : Type) where
  encode : σ → Val → σ × Option Word
  create : σ → List Word → σ × Created

/-- The state of fread_csv, Db/dbutil.c lines 704-710 and 725-729. -/
structure St (σ : Type) where
  db : σ
  /-- encdata -/
  row : List Word
  quoted : Bool
  uq : Bool
  esc : Bool
  eat : Bool
  /-- strbuf up to ptr -/
  buf : Str
  errno : Bool
  err : Int

variable {σ : Type}

/-- `commit_strbuf`, Db/dbutil.c lines 830-860. strbuf has 4096 bytes. -/
def commitField (E : Env σ) (atof : Str → Word × Bool) (s : St σ) : Option (St σ) :=
  if s.buf.length < 4096 then
    let (v, e) := parseInput atof s.errno (s.buf.takeWhile (· ≠ 0#8))
    let (db, w) := E.encode s.db v
    some { s with db := db, row := s.row ++ [w.getD 0#64], buf := [], errno := e }
  else none

/-- `commit_record`, Db/dbutil.c lines 862-887: the state and whether the loop is left. -/
def commitRecord (E : Env σ) (s : St σ) : St σ × Bool :=
  if s.row = [] then (s, false)
  else match E.create s.db s.row with
    | (db, .ok) => ({ s with db := db, row := [] }, false)
    | (db, .noRecord) => ({ s with db := db, err := -2 }, true)
    | (db, .noField) => ({ s with db := db, row := [], err := -2 }, false)

/-- `if(((gint) ptr - (gint) strbuf) < CSV_FIELD_BUF-1) *ptr++ = c`, Db/dbutil.c lines 763-764 and 781-782. -/
def push (s : St σ) (c : Byte) : St σ := if s.buf.length < 4095 then { s with buf := s.buf ++ [c] } else s

/-- The loop of fread_csv, Db/dbutil.c lines 731-888. The byte after a quote is read and put back, lines 749-750: `ungetc` refuses 0xff, which as a `char` is EOF. At the end of the file EOF is
read as a character, which has no effect on the database. -/
def readCsv (E : Env σ) (atof : Str → Word × Bool) : Str → St σ → Option (St σ)
  | [], s => some s
  | c :: rest, s =>
    if s.quoted then
      if s.esc = false ∧ c = 34#8 then
        match rest with
        | [] => commitField E atof { s with quoted := false, eat := true }
        | n :: r =>
          if n ≠ 34#8 then
            match commitField E atof { s with quoted := false, eat := true } with
            | none => none
            | some s => if n = 255#8 then readCsv E atof r s else readCsv E atof (n :: r) s
          else readCsv E atof (n :: r) { s with esc := true }
      else readCsv E atof rest (push { s with esc := false } c)
    else if s.uq then
      if c = 44#8 then
        match commitField E atof { s with uq := false } with
        | none => none
        | some s => readCsv E atof rest s
      else if c = 13#8 then readCsv E atof rest s
      else if c = 10#8 then
        match commitField E atof { s with uq := false } with
        | none => none
        | some s => match commitRecord E s with
          | (s, true) => some s
          | (s, false) => readCsv E atof rest s
      else readCsv E atof rest (push s c)
    else
      if c = 44#8 then
        if s.eat then readCsv E atof rest { s with eat := false }
        else match commitField E atof s with
          | none => none
          | some s => readCsv E atof rest s
      else if c = 13#8 then readCsv E atof rest s
      else if c = 10#8 then
        if s.eat = false ∧ s.row ≠ [] then
          match commitField E atof s with
          | none => none
          | some s => match commitRecord E s with
            | (s, true) => some s
            | (s, false) => readCsv E atof rest s
        else match commitRecord E { s with eat := false } with
          | (s, true) => some s
          | (s, false) => readCsv E atof rest s
      else if c = 34#8 then readCsv E atof rest { s with quoted := true }
      else if s.buf.length < 4096 then readCsv E atof rest { s with uq := true, buf := s.buf ++ [c] }
      else none

/-- wg_import_db_csv, Db/dbutil.c lines 902-918, for a file that can be opened; `errno` as in `parseInput`. The new database and the result. -/
def importCsv (E : Env σ) (atof : Str → Word × Bool) (errno : Bool) (db : σ) (file : Str) : Option (σ × Int) :=
  (readCsv E atof file ⟨db, [], false, false, false, false, [], errno, 0⟩).map fun s => (s.db, s.err)

/-! ## Export -/

/-- A stored value as the decoding functions give it, Db/dbutil.c lines 348-408; fixpoint numbers as the double they decode to; `other`: blobs, variables, anonymous constants. -/
inductive EVal
  | null | record (off : Word) | int (v : Word) | double (v : Word) | fixpoint (v : Word) | str (s : Str) | xml (s : Str) | uri (s : Str) (pre : Option Str) | char (c : Byte)
  | date (d : Int) | time (t : Int) | other

/-- The loop of csv_escaped_str, Db/dbutil.c lines 322-333; `k` bytes are in the buffer. -/
def escapeLoop (buflen : Nat) : Str → Nat → Str
  | [], _ => []
  | c :: r, k =>
    if c = 34#8 then
      if k + 2 < buflen then c :: c :: escapeLoop buflen r (k + 2) else []
    else if k + 1 < buflen then c :: escapeLoop buflen r (k + 1) else []

/-- csv_escaped_str, Db/dbutil.c lines 310-336. -/
def csvEscape (s : Str) (buflen : Nat) : Str := 34#8 :: escapeLoop (buflen - 1) s 1 ++ [34#8]

/-- Text of the code as bytes (format strings at Db/dbutil.c lines 354 and 406). -/
def asc (s : String) : Str := s.toList.map fun c => BitVec.ofNat 8 c.toNat
/-- Characters as bytes, for the text of wg_strf_iso_datetime (Db/dbutil.c lines 396-403). -/
def bytes (s : List Char) : Str := s.map fun c => BitVec.ofNat 8 c.toNat

/-- snprint_value_csv, Db/dbutil.c lines 342-409: the string left in the buffer. `buflen` is 4095, one less after line 347; snprintf keeps one less again. -/
def fieldText (fmtF : Word → Str) : EVal → Option Str
  | .null => some []
  | .record off => some ((asc "\"<record offset " ++ fmtInt (Json.toInt32 off) ++ asc ">\"").take 4093)
  | .int v => some ((fmtInt (Json.toInt32 v)).take 4093)
  | .double d => some ((fmtF d).take 4093)
  | .fixpoint d => some ((fmtF d).take 4093)
  | .str s => some (csvEscape s 4094)
  | .xml s => some (csvEscape s 4094)
  | .uri _ none => none
  | .uri s (some p) => some (csvEscape (p ++ s) 4094)
  | .char c => some ([c].takeWhile (· ≠ 0#8))
  | .date d => (Iso.strf d 0).map fun t => bytes (t.1.take 10)
  | .time t => (Iso.strf 1 t).map fun x => bytes (x.1.drop 11)
  | .other => some (asc "\"<unsupported type>\"")

/-- wg_fprint_record_csv, Db/dbutil.c lines 642-668, for a record that exists. -/
def rowText (fmtF : Word → Str) : List EVal → Option Str
  | [] => some []
  | [v] => fieldText fmtF v
  | v :: w :: r => match fieldText fmtF v, rowText fmtF (w :: r) with
    | some a, some b => some (a ++ 44#8 :: b)
    | _, _ => none

/-- wg_export_db_csv, Db/dbutil.c lines 674-695, for a file that can be opened: the contents of the file, for the records in the order of wg_get_next_record. -/
def exportCsv (fmtF : Word → Str) : List (List EVal) → Option Str
  | [] => some []
  | r :: rs => match rowText fmtF r, exportCsv fmtF rs with
    | some a, some b => some (a ++ 10#8 :: b)
    | _, _ => none

end WG.Csv
