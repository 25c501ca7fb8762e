import Verif.Print.Model

/-!
# The server: the buffer with the answer

str_guarantee_space, sprint_string, sprint_blob, sprint_value, sprint_record of Server/dserve_util.c and the functions of Server/dserve.c that print the answer to a search. Strings are
lists of bytes without the final 0.
-/
namespace WG.Serve
open WG.Csv (Str Byte asc bytes)
open WG.Json (fmtInt)

/-- tdata->buf, Server/dserve.h lines 334-336: `bufsize`, the bytes before `bufptr`, and whether a 0 has been written after them. -/
structure Out where
  size : Nat
  text : Str
  term : Bool
deriving DecidableEq

/-- The outcome: a new buffer; 0 with the buffer as it is then; 0 and the buffer has been freed although tdata->buf still points to it; a write outside of the buffer; `bufptr` moved
past what was written; nesting deeper than the stack. -/
inductive R
  | ok (o : Out) | fail (o : Out) | freed | bad | ahead | deep
deriving DecidableEq

def R.bind : R → (Out → R) → R
  | .ok o, f => f o
  | .fail o, _ => .fail o
  | .freed, _ => .freed
  | .bad, _ => .bad
  | .ahead, _ => .ahead
  | .deep, _ => .deep

/-- The values of the fields, decoded, as sprint_value sees them, Server/dserve_util.c lines 305-425. `blob`: the bytes before the first 0, and the length of the blob. Simplification: XML
literals have a type. -/
inductive SV (ρ : Type)
  | null | int (v : Word) | double (v : Word) | fixpoint (v : Word) | str (s : Str) (lang : Option Str) | uri (s : Str) (pre : Option Str) | xml (s : Str) (typ : Str) | char (c : Byte)
  | date (d : Int) | time (t : Int) | var (v : Int) | blob (s : Str) (n : Nat) | other | record (r : ρ)

/-- The settings of the request (Server/dserve.h lines 321-333), the fields and the numbers of records, `%g`, and realloc, which succeeds for some sizes. -/
structure Env (ρ : Type) where
  json : Bool
  showid : Bool
  depth : Int
  maxdepth : Int
  strenc : Nat
  jsonp : Option Str
  F : ρ → List (SV ρ)
  id : ρ → Int
  fmtG : Word → Str
  realloc : Nat → Bool

variable {ρ : Type}

/-- str_guarantee_space, Server/dserve_util.c lines 622-654; MAX_MALLOC, Server/dserve.h line 127. -/
def guarantee (e : Env ρ) (needed : Nat) (o : Out) : R :=
  if (needed : Int) > (o.size : Int) - o.text.length then
    let newlen := if o.size * 2 < needed then needed else o.size * 2
    if newlen > 100000000 then .fail o
    else if e.realloc newlen then .ok { o with size := newlen } else .freed
  else .ok o

/-- `**bptr = c; (*bptr)++`, for example Server/dserve_util.c lines 235-236. -/
def putc (c : Byte) (o : Out) : R := if o.text.length + 1 ≤ o.size then .ok ⟨o.size, o.text ++ [c], false⟩ else .bad

/-- Bytes and a 0, with `bufptr` set behind the bytes. -/
def puts (s : Str) (o : Out) : R := if o.text.length + s.length + 1 ≤ o.size then .ok ⟨o.size, o.text ++ s, true⟩ else .bad

/-- snprintf of the C library with the limit, and `bufptr` set behind the text by strlen, for example Server/dserve_util.c lines 318-319. -/
def snprintf (limit : Nat) (s : Str) (o : Out) : R := puts (s.take (limit - 1)) o

/-- `hex_chars[c]`, Server/dserve_util.c line 455. -/
def hexChar (n : Nat) : Byte := if n < 10 then BitVec.ofNat 8 (48 + n) else BitVec.ofNat 8 (87 + n)

/-- The encoding of a byte in sprint_string with strenc 1 and in sprint_blob, Server/dserve_util.c lines 497-504 and 561-568. -/
def urlByte (c : Byte) : Str :=
  if c.toNat < 32 ∨ c = 37#8 ∨ c = 34#8 ∨ c.toNat > 126 then [37#8, hexChar (c.toNat / 16), hexChar (c.toNat % 16)] else [c]

/-- The encoding of a byte in JSON, Server/dserve_util.c lines 511-541. -/
def jsonByte (c : Byte) : Str :=
  if c = 8#8 then asc "\\b" else if c = 10#8 then asc "\\n" else if c = 13#8 then asc "\\r" else if c = 9#8 then asc "\\t" else if c = 12#8 then asc "\\f"
  else if c = 34#8 then asc "\\\"" else if c = 92#8 then asc "\\\\" else if c = 47#8 then asc "\\/"
  else if c.toNat < 32 then asc "\\u00" ++ [hexChar (c.toNat / 16), hexChar (c.toNat % 16)] else [c]

/-- What sprint_string, Server/dserve_util.c lines 452-547, writes between the quotes. -/
def strBody (strenc : Nat) (s : Str) : Str :=
  if strenc = 0 then s
  else if strenc = 3 then s.flatMap fun c => if c = 34#8 then [c, c] else [c]
  else if strenc = 1 then s.flatMap urlByte
  else s.flatMap jsonByte

/-- Text in quotes. -/
def quoted (s : Str) : Str := 34#8 :: s ++ [34#8]

/-- The case WG_STRTYPE, Server/dserve_util.c lines 347-360: the language is written over the text from the position where the quote is if nothing is escaped. -/
def strValue (e : Env ρ) (s : Str) (lang : Option Str) (o : Out) : R :=
  (guarantee e (100 + 6 * (s.length + (lang.getD []).length)) o).bind fun o =>
    (puts (quoted (strBody e.strenc s)) o).bind fun o1 => match lang with
      | none => .ok o1
      | some l =>
        let t := (64#8 :: l ++ [34#8]).take 99
        if o.text.length + s.length + 1 + t.length + 1 ≤ o.size then
          .ok ⟨o.size, o.text ++ (quoted (strBody e.strenc s)).take (s.length + 1) ++ t, true⟩
        else .bad

/-- sprint_value, Server/dserve_util.c lines 305-427; `nest`: sprint_record. wg_strf_iso_datetime has no value for days before 1. -/
def value (e : Env ρ) (nest : ρ → Out → R) (v : SV ρ) (o : Out) : R :=
  match v with
  | .null => (guarantee e 100 o).bind fun o => if e.json then snprintf 100 (asc "[]") o else .ok o
  | .record r => (guarantee e 100 o).bind fun o =>
      if e.json = false ∨ e.depth ≥ e.maxdepth then snprintf 100 (fmtInt (e.id r)) o
      else match nest r o with
        | .ok o => puts [] o
        | .fail o => puts [] o
        | x => x
  | .int v => (guarantee e 100 o).bind (snprintf 100 (fmtInt (Json.toInt32 v)))
  | .double d => (guarantee e 100 o).bind (snprintf 100 (e.fmtG d))
  | .fixpoint d => (guarantee e 100 o).bind (snprintf 100 (e.fmtG d))
  | .str s l => strValue e s l o
  | .uri s p => (guarantee e (100 + 6 * (s.length + (p.getD []).length)) o).bind
      (snprintf (100 + 6 * (s.length + (p.getD []).length)) (match p with | none => quoted s | some p => quoted (p ++ 58#8 :: s)))
  | .xml s t => (guarantee e (100 + 6 * (s.length + t.length)) o).bind (snprintf (100 + 6 * (s.length + t.length)) (quoted (t ++ 58#8 :: s)))
  | .char c => (guarantee e 100 o).bind (snprintf 100 (if c = 0#8 then [34#8] else [34#8, c, 34#8]))
  | .date d => match Iso.strf d 0 with
    | none => .bad
    | some t => (guarantee e 100 o).bind (snprintf 100 (quoted ((bytes t.1).take 10)))
  | .time t => match Iso.strf 1 t with
    | none => .bad
    | some x => (guarantee e 100 o).bind (snprintf 100 (quoted ((bytes x.1).drop 11)))
  | .var v => (guarantee e 100 o).bind (snprintf 100 (quoted (63#8 :: fmtInt v)))
  | .blob s n => (guarantee e (100 + 6 * s.length) o).bind (puts (quoted ((s.take n).flatMap urlByte)))
  | .other => (guarantee e 100 o).bind (snprintf 100 (asc "\"\""))

/-- The loop over the fields, Server/dserve_util.c lines 248-264: `sep` tells whether there is a separator before the first one. -/
def fields (e : Env ρ) (nest : ρ → Out → R) : List (SV ρ) → Bool → Out → R
  | [], _, o => .ok o
  | v :: vs, sep, o => (guarantee e 100 o).bind fun o => (if sep then putc 44#8 o else .ok o).bind fun o => (value e nest v o).bind (fields e nest vs true)

/-- sprint_record, Server/dserve_util.c lines 218-272, with the depth of the stack. -/
def record (e : Env ρ) : Nat → ρ → Out → R
  | 0, _, _ => .deep
  | n + 1, r, o => (guarantee e 100 o).bind fun o => (if e.json then putc 91#8 o else .ok o).bind fun o =>
      (if e.showid then snprintf 99 (fmtInt (e.id r)) o else .ok o).bind fun o => (fields e (record e n) (e.F r) e.showid o).bind fun o =>
        if e.json then (guarantee e 100 o).bind (putc 93#8) else .ok o

/-- op_print_record, Server/dserve.c lines 1110-1128: `first` if `gcount` is 1. -/
def row (e : Env ρ) (n : Nat) (first : Bool) (r : ρ) (o : Out) : R :=
  (guarantee e 100 o).bind fun o => (if !first && e.json then snprintf 100 (asc ",\n") o else .ok o).bind fun o =>
    (record e n r o).bind fun o => if e.json then .ok o else (guarantee e 100 o).bind (snprintf 100 (asc "\r\n"))

/-- The rows, Server/dserve.c lines 683-700 (and 723-729, 775-781). -/
def rows (e : Env ρ) (n : Nat) : Bool → List ρ → Out → R
  | _, [], o => .ok o
  | first, r :: rs, o => (row e n first r o).bind (rows e n false rs)

/-- snprintf whose result, the length without limit, is added to `bufptr`: Server/dserve.c lines 1214-1222 and 1237-1245. -/
def printAdd (s : Str) (o : Out) : R := if s.length < 100 then snprintf 100 s o else .ahead

/-- op_print_data_start, Server/dserve.c lines 1208-1226. -/
def dataStart (e : Env ρ) (list : Bool) (o : Out) : R :=
  (guarantee e 100 o).bind fun o =>
    if e.json then match e.jsonp with
      | some p => if list then printAdd (p ++ asc "([\n") o else printAdd (p ++ asc "(") o
      | none => if list then printAdd (asc "[\n") o else .ok o
    else .ok o

/-- op_print_data_end, Server/dserve.c lines 1231-1250. -/
def dataEnd (e : Env ρ) (list : Bool) (o : Out) : R :=
  (guarantee e 100 o).bind fun o =>
    if e.json then match e.jsonp with
      | some _ => if list then printAdd (asc "\n]);") o else printAdd (asc ");") o
      | none => if list then printAdd (asc "\n]") o else .ok o
    else .ok o

/-- The answer to a search that finds these records: the printing in search, Server/dserve.c lines 663-673, 683-700 and 813-815. INITIAL_MALLOC, Server/dserve.h line 126: only the last
byte of the buffer is set. `n`: the depth of the stack. -/
def searchAnswer (e : Env ρ) (n : Nat) (rs : List ρ) : R :=
  (dataStart e true ⟨1000, [], false⟩).bind fun o => (rows e n true rs o).bind (dataEnd e true)

/-- The answer with a number, to a count or a deletion: Server/dserve.c lines 663-673, 801-806 and 813-815. -/
def countAnswer (e : Env ρ) (k : Nat) : R :=
  (dataStart e false ⟨1000, [], false⟩).bind fun o => (guarantee e 100 o).bind fun o => (snprintf 100 (Json.digits k) o).bind (dataEnd e false)

end WG.Serve
