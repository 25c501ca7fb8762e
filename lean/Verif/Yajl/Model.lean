import Verif.Json.Model
/-!
# The JSON lexer, parser and generator

Model of json/yajl_all.c with the options that Db/dbjson.c sets: comments are allowed, UTF-8 is validated, the output is indented. `Option`: `none` is undefined
behaviour (a read outside of the buffers, a failed assertion). malloc is assumed to succeed. Positions for error messages are left out.
-/
namespace WG.Yajl
open WG.Json (Ev Gen)
open WG.Recs (Byte)

/-! ## Lexer -/

/-- struct yajl_lexer_t, with the text of the call in progress and `*offset` in it. `bufOff` is the position in the buffer. -/
structure Lx where
  text : List Byte
  off : Nat
  buf : List Byte
  inUse : Bool
  bufOff : Nat

/-- yajl_tok. `lcurly` is yajl_tok_left_bracket, `lsquare` yajl_tok_left_brace, and so on. -/
inductive Tok
  | eof | error | string | stringEsc | bool | null | lcurly | rcurly | lsquare | rsquare | integer | double | colon | comma | comment
  deriving DecidableEq

/-- `*offset >= jsonTextLen`. -/
def Lx.eof (x : Lx) : Bool := decide (x.text.length ≤ x.off)

/-- readChar, lines 898-901. -/
def Lx.read (x : Lx) : Option (Byte × Lx) :=
  if x.inUse = true ∧ x.bufOff < x.buf.length then x.buf[x.bufOff]?.map fun c => (c, { x with bufOff := x.bufOff + 1 })
  else x.text[x.off]?.map fun c => (c, { x with off := x.off + 1 })

/-- unreadChar, line 903. -/
def Lx.unread (x : Lx) : Option Lx :=
  if 0 < x.off then some { x with off := x.off - 1 } else if 0 < x.bufOff then some { x with bufOff := x.bufOff - 1 } else none

/-- charLookupTable, lines 934-981: VEC, IJC (NFP only marks bytes that are IJC as well), VHC, NUC. -/
def isVEC (c : Byte) : Bool := c = 0x22#8 ∨ c = 0x2f#8 ∨ c = 0x5c#8 ∨ c = 0x62#8 ∨ c = 0x66#8 ∨ c = 0x6e#8 ∨ c = 0x72#8 ∨ c = 0x74#8
def isIJC (c : Byte) : Bool := c < 0x20#8 ∨ c = 0x22#8 ∨ c = 0x5c#8
def isVHC (c : Byte) : Bool := (0x30#8 ≤ c ∧ c ≤ 0x39#8) ∨ (0x41#8 ≤ c ∧ c ≤ 0x46#8) ∨ (0x61#8 ≤ c ∧ c ≤ 0x66#8)
def isNUC (c : Byte) : Bool := 0x80#8 ≤ c

/-- yajl_string_scan, lines 1056-1067. -/
def scan (l : List Byte) : Nat := (l.takeWhile fun c => !isIJC c && !isNUC c).length

/-- The block at the head of the loop of yajl_lex_string, lines 1081-1099. -/
def Lx.skip (x : Lx) : Lx :=
  if x.inUse = true ∧ x.bufOff < x.buf.length then { x with bufOff := x.bufOff + scan (x.buf.drop x.bufOff) }
  else if x.off < x.text.length then { x with off := x.off + scan (x.text.drop x.off) }
  else x

/-- The continuation bytes in yajl_lex_utf8_char. -/
def utf8Tail : Nat → Lx → Option (Tok × Lx)
  | 0, x => some (.string, x)
  | n + 1, x =>
    if x.eof then some (.eof, x)
    else match x.read with
      | none => none
      | some (c, x) => if c >>> 6 = 2#8 then utf8Tail n x else some (.error, x)

/-- yajl_lex_utf8_char, lines 994-1034. -/
def lexUtf8 (x : Lx) (c : Byte) : Option (Tok × Lx) :=
  if c ≤ 0x7f#8 then some (.string, x)
  else if c >>> 5 = 6#8 then utf8Tail 1 x
  else if c >>> 4 = 0x0e#8 then utf8Tail 2 x
  else if c >>> 3 = 0x1e#8 then utf8Tail 3 x
  else some (.error, x)

/-- The loop over the four digits after \u, lines 1118-1129. -/
def hexTail : Nat → Lx → Option (Tok × Lx)
  | 0, x => some (.string, x)
  | n + 1, x =>
    if x.eof then some (.eof, x)
    else match x.read with
      | none => none
      | some (c, x) => if isVHC c then hexTail n x else x.unread.map fun x => (.error, x)

/-- yajl_lex_string, lines 1069-1168; the first parameter bounds the rounds of the loop. -/
def lexString : Nat → Lx → Bool → Option (Tok × Lx)
  | 0, _, _ => none
  | n + 1, x0, esc =>
    let x := x0.skip
    if x.eof then some (.eof, x)
    else match x.read with
      | none => none
      | some (c, x) =>
        if c = 0x22#8 then some (if esc then .stringEsc else .string, x)
        else if c = 0x5c#8 then
          if x.eof then some (.eof, x)
          else match x.read with
            | none => none
            | some (d, x) =>
              if d = 0x75#8 then match hexTail 4 x with
                | some (.string, x) => lexString n x true
                | y => y
              else if isVEC d then lexString n x true
              else x.unread.map fun x => (.error, x)
        else if isIJC c then x.unread.map fun x => (.error, x)
        else match lexUtf8 x c with
          | some (.string, x) => lexString n x esc
          | y => y

/-- A digit. -/
def isDigit (c : Byte) : Bool := 0x30#8 ≤ c ∧ c ≤ 0x39#8

/-- `do { RETURN_IF_EOF; c = readChar } while (c is a digit)`; the byte that is no digit is returned, `none` at the end of the text. -/
def readDigits : Nat → Lx → Option (Option Byte × Lx)
  | 0, _ => none
  | n + 1, x =>
    if x.eof then some (none, x)
    else match x.read with
      | none => none
      | some (c, x) => if isDigit c then readDigits n x else some (some c, x)

/-- The exponent and the end of yajl_lex_number, lines 1229-1256; `c` is the last byte read. -/
def lexExp (n : Nat) (x : Lx) (c : Byte) (tok : Tok) : Option (Tok × Lx) :=
  if c = 0x65#8 ∨ c = 0x45#8 then
    if x.eof then some (.eof, x)
    else match x.read with
      | none => none
      | some (c, x) =>
        let digits (c : Byte) (x : Lx) : Option (Tok × Lx) :=
          if isDigit c then match readDigits n x with
            | none => none
            | some (none, x) => some (.eof, x)
            | some (some _, x) => x.unread.map fun x => (.double, x)
          else x.unread.map fun x => (.error, x)
        if c = 0x2b#8 ∨ c = 0x2d#8 then
          if x.eof then some (.eof, x)
          else match x.read with
            | none => none
            | some (c, x) => digits c x
        else digits c x
  else x.unread.map fun x => (tok, x)

/-- The fraction, lines 1208-1227. -/
def lexFrac (n : Nat) (x : Lx) (c : Byte) : Option (Tok × Lx) :=
  if c = 0x2e#8 then
    if x.eof then some (.eof, x)
    else match x.read with
      | none => none
      | some (c, x) =>
        if isDigit c then match readDigits n x with
          | none => none
          | some (none, x) => some (.eof, x)
          | some (some c, x) => lexExp n x c .double
        else x.unread.map fun x => (.error, x)
  else lexExp n x c .integer

/-- The integer part, lines 1193-1206. -/
def lexInt (n : Nat) (x : Lx) (c : Byte) : Option (Tok × Lx) :=
  if c = 0x30#8 then
    if x.eof then some (.eof, x)
    else match x.read with
      | none => none
      | some (c, x) => lexFrac n x c
  else if 0x31#8 ≤ c ∧ c ≤ 0x39#8 then match readDigits n x with
    | none => none
    | some (none, x) => some (.eof, x)
    | some (some c, x) => lexFrac n x c
  else x.unread.map fun x => (.error, x)

/-- yajl_lex_number, lines 1172-1257. -/
def lexNumber (n : Nat) (x : Lx) : Option (Tok × Lx) :=
  if x.eof then some (.eof, x)
  else match x.read with
    | none => none
    | some (c, x) =>
      if c = 0x2d#8 then
        if x.eof then some (.eof, x)
        else match x.read with
          | none => none
          | some (c, x) => lexInt n x c
      else lexInt n x c

/-- A comment to the end of the line, lines 1271-1276. -/
def lexLine : Nat → Lx → Option (Tok × Lx)
  | 0, _ => none
  | n + 1, x =>
    if x.eof then some (.eof, x)
    else match x.read with
      | none => none
      | some (c, x) => if c = 0x0a#8 then some (.comment, x) else lexLine n x

/-- A comment in `/* */`, lines 1277-1291. -/
def lexBlock : Nat → Lx → Option (Tok × Lx)
  | 0, _ => none
  | n + 1, x =>
    if x.eof then some (.eof, x)
    else match x.read with
      | none => none
      | some (c, x) =>
        if c = 0x2a#8 then
          if x.eof then some (.eof, x)
          else match x.read with
            | none => none
            | some (c, x) => if c = 0x2f#8 then some (.comment, x) else match x.unread with
              | none => none
              | some x => lexBlock n x
        else lexBlock n x

/-- yajl_lex_comment, lines 1259-1298. -/
def lexComment (n : Nat) (x : Lx) : Option (Tok × Lx) :=
  if x.eof then some (.eof, x)
  else match x.read with
    | none => none
    | some (c, x) => if c = 0x2f#8 then lexLine n x else if c = 0x2a#8 then lexBlock n x else some (.error, x)

/-- The rest of `true`, `false`, `null`, lines 1344-1397. -/
def lexWord (t : Tok) : List Byte → Lx → Option (Tok × Lx)
  | [], x => some (t, x)
  | w :: want, x =>
    if x.eof then some (.eof, x)
    else match x.read with
      | none => none
      | some (c, x) => if c ≠ w then x.unread.map fun x => (.error, x) else lexWord t want x

/-- The end of yajl_lex_lex, from `lexed:`, lines 1448-1473: the token, `*outBuf` of length `*outLen` (for tokens other than eof and error), the lexer. -/
def lexed (start : Nat) (tok : Tok) (x : Lx) : Option (Tok × List Byte × Lx) :=
  let piece := (x.text.drop start).take (x.off - start)
  let y : List Byte × Lx :=
    if tok = .eof ∨ x.inUse = true then
      let b := (if x.inUse then x.buf else []) ++ piece
      if tok = .eof then ([], { x with buf := b, inUse := true, bufOff := 0 }) else (b, { x with buf := b, inUse := false, bufOff := 0 })
    else (if tok = .error then [] else piece, x)
  if tok = .string ∨ tok = .stringEsc then
    if y.1.length < 2 then none else some (tok, (y.1.drop 1).take (y.1.length - 2), y.2)
  else some (tok, y.1, y.2)

/-- yajl_lex_lex, lines 1300-1490; `start` is startOffset. -/
def lexLex : Nat → Nat → Lx → Option (Tok × List Byte × Lx)
  | 0, _, _ => none
  | n + 1, start, x =>
    if x.eof then lexed start .eof x
    else match x.read with
      | none => none
      | some (c, x) =>
        let fin (y : Option (Tok × Lx)) : Option (Tok × List Byte × Lx) := match y with
          | none => none
          | some (t, x) => lexed start t x
        if c = 0x7b#8 then lexed start .lcurly x
        else if c = 0x7d#8 then lexed start .rcurly x
        else if c = 0x5b#8 then lexed start .lsquare x
        else if c = 0x5d#8 then lexed start .rsquare x
        else if c = 0x2c#8 then lexed start .comma x
        else if c = 0x3a#8 then lexed start .colon x
        else if c = 0x09#8 ∨ c = 0x0a#8 ∨ c = 0x0b#8 ∨ c = 0x0c#8 ∨ c = 0x0d#8 ∨ c = 0x20#8 then lexLex n (start + 1) x
        else if c = 0x74#8 then fin (lexWord .bool [0x72#8, 0x75#8, 0x65#8] x)
        else if c = 0x66#8 then fin (lexWord .bool [0x61#8, 0x6c#8, 0x73#8, 0x65#8] x)
        else if c = 0x6e#8 then fin (lexWord .null [0x75#8, 0x6c#8, 0x6c#8] x)
        else if c = 0x22#8 then fin (lexString n x false)
        else if c = 0x2d#8 ∨ isDigit c = true then match x.unread with
          | none => none
          | some x => fin (lexNumber n x)
        else if c = 0x2f#8 then match lexComment n x with
          | none => none
          | some (.comment, x) => lexLex n x.off { x with buf := [], inUse := false }
          | some (t, x) => lexed start t x
        else lexed start .error x

/-- A bound for the rounds of all loops: the bytes that can be read. -/
def Lx.fuel (x : Lx) : Nat := x.buf.length + x.text.length + 2

/-! ## Strings and numbers -/

/-- hexToDigit, lines 400-410, for one digit; `none`: the assertion fails. -/
def hexVal (c : Byte) : Option Nat :=
  let c := (if 0x41#8 ≤ c then (c &&& 0xdf#8) - 7#8 else c) - 0x30#8
  if c &&& 0xf0#8 ≠ 0#8 then none else some c.toNat

/-- hexToDigit. -/
def hexToDigit : List Byte → Nat → Option Nat
  | [], v => some v
  | c :: l, v => match hexVal c with
    | none => none
    | some d => hexToDigit l ((v <<< 4) ||| d)

/-- Utf32toUtf8, lines 412-436. -/
def utf32to8 (cp : Nat) : List Byte :=
  if cp < 0x80 then [BitVec.ofNat 8 cp]
  else if cp < 0x800 then [BitVec.ofNat 8 ((cp >>> 6) ||| 0xc0), BitVec.ofNat 8 ((cp &&& 0x3f) ||| 0x80)]
  else if cp < 0x10000 then [BitVec.ofNat 8 ((cp >>> 12) ||| 0xe0), BitVec.ofNat 8 (((cp >>> 6) &&& 0x3f) ||| 0x80), BitVec.ofNat 8 ((cp &&& 0x3f) ||| 0x80)]
  else if cp < 0x200000 then [BitVec.ofNat 8 ((cp >>> 18) ||| 0xf0), BitVec.ofNat 8 (((cp >>> 12) &&& 0x3f) ||| 0x80),
    BitVec.ofNat 8 (((cp >>> 6) &&& 0x3f) ||| 0x80), BitVec.ofNat 8 ((cp &&& 0x3f) ||| 0x80)]
  else [0x3f#8]

/-- The escaped byte, lines 450-457. -/
def unesc (c : Byte) : Option Byte :=
  if c = 0x72#8 then some 0x0d#8 else if c = 0x6e#8 then some 0x0a#8 else if c = 0x5c#8 then some 0x5c#8 else if c = 0x2f#8 then some 0x2f#8
  else if c = 0x22#8 then some 0x22#8 else if c = 0x66#8 then some 0x0c#8 else if c = 0x62#8 then some 0x08#8 else if c = 0x74#8 then some 0x09#8 else none

/-- yajl_string_decode, lines 438-500: what is appended to the buffer for the rest of the string (between the quotes) from position `end`. Runs of ordinary bytes are
appended one by one here. Behind the string there is a quote, which `str[end]` reads at its end. `none`: the assertion in hexToDigit fails. -/
def decode : List Byte → Option (List Byte)
  | [] => some []
  | c :: l =>
    if c = 0x5c#8 then match l with
      | [] => some [0x22#8]
      | d :: l =>
        if d = 0x75#8 then match l with
          | h1 :: h2 :: h3 :: h4 :: l => match hexToDigit [h1, h2, h3, h4] 0 with
            | none => none
            | some cp =>
              if cp &&& 0xfc00 = 0xd800 then match l with
                | [] => some [0x3f#8]
                | e :: l =>
                  if e = 0x5c#8 then match l with
                    | [] => some [0x3f#8]
                    | f :: l' =>
                      if f = 0x75#8 then match l' with
                        | g1 :: g2 :: g3 :: g4 :: l => match hexToDigit [g1, g2, g3, g4] 0 with
                          | none => none
                          | some sur => (decode l).map fun t => utf32to8 (((cp &&& 0x3f) <<< 10) ||| ((((cp >>> 6) &&& 0xf) + 1) <<< 16) ||| (sur &&& 0x3ff)) ++ t
                        | _ => none
                      else (decode (f :: l')).map fun t => 0x3f#8 :: t
                  else (decode l).map fun t => 0x3f#8 :: t
              else (decode l).map fun t => utf32to8 cp ++ t
          | _ => none
        else match unesc d with
          | none => none
          | some u => (decode l).map fun t => u :: t
    else (decode l).map fun t => c :: t

/-- The loop of yajl_parse_integer, lines 1549-1564; `none`: errno is set to ERANGE. The additions and multiplications wrap as compiled by gcc; for `ret` from
LLONG_MAX/10 + 1 to LLONG_MAX/10 + 7 the multiplication overflows, and the next test then sees it. -/
def parseDigits : List Byte → BitVec 64 → Option (BitVec 64)
  | [], r => some r
  | c :: l, r =>
    if (922337203685477587#64).slt r then none
    else
      let r := r * 10#64
      if (0x7fffffffffffffff#64 - r).slt (c.zeroExtend 64 - 0x30#64) then none
      else if c < 0x30#8 ∨ c > 0x39#8 then none
      else parseDigits l (r + (c.zeroExtend 64 - 0x30#64))

/-- yajl_parse_integer, lines 1539-1567. (The lexer delivers no '+'.) -/
def parseInteger (raw : List Byte) : Option (BitVec 64) :=
  match raw with
  | [] => some 0#64
  | c :: l => if c = 0x2d#8 then (parseDigits l 0#64).map fun r => -r else parseDigits raw 0#64

/-! ## Parser -/

/-- yajl_state. -/
inductive St
  | start | complete | parseError | lexError | mapStart | mapSep | mapNeedVal | mapGotVal | mapNeedKey | arrStart | arrGotVal | arrNeedVal | gotValue
  deriving DecidableEq

/-- What a token causes: the call of a callback, if any; the states on the stack after it (if the callback does not cancel); `ok` is returned at the end of the text. -/
inductive Act
  | ret
  | go (ev : Option Ev) (st : List St)

/-- The state after a value, lines 1884-1894. -/
def gotVal : St → St
  | .start => .complete
  | .gotValue => .complete
  | .mapNeedVal => .mapGotVal
  | _ => .arrGotVal

/-- The cases of the states that expect a value, lines 1743-1900. `strtod` is the function of the C library; `none`: overflow. -/
def onValue (strtod : List Byte → Option (BitVec 64)) (s : St) (rest : List St) (t : Tok) (raw : List Byte) : Option Act :=
  match t with
  | .eof => some .ret
  | .error => some (.go none (.lexError :: rest))
  | .string => some (.go (some (.str raw)) (gotVal s :: rest))
  | .stringEsc => (decode raw).map fun b => .go (some (.str b)) (gotVal s :: rest)
  | .bool => some (.go (some (.bool (raw.head? = some 0x74#8))) (gotVal s :: rest))
  | .null => some (.go (some .null) (gotVal s :: rest))
  | .lcurly => some (.go (some .startMap) (.mapStart :: gotVal s :: rest))
  | .lsquare => some (.go (some .startArr) (.arrStart :: gotVal s :: rest))
  | .integer => match parseInteger raw with
    | none => some (.go none (.parseError :: rest))
    | some v => some (.go (some (.int v)) (gotVal s :: rest))
  | .double => match strtod raw with
    | none => some (.go none (.parseError :: rest))
    | some v => some (.go (some (.dbl v)) (gotVal s :: rest))
  | .rsquare => if s = .arrStart then some (.go (some .endArr) rest) else some (.go none (.parseError :: rest))
  | _ => some (.go none (.parseError :: rest))

/-- The states that expect a key, lines 1901-1945. -/
def onKey (s : St) (rest : List St) (t : Tok) (raw : List Byte) : Option Act :=
  match t with
  | .eof => some .ret
  | .error => some (.go none (.lexError :: rest))
  | .stringEsc => (decode raw).map fun b => .go (some (.key b)) (.mapSep :: rest)
  | .string => some (.go (some (.key raw)) (.mapSep :: rest))
  | .rcurly => if s = .mapStart then some (.go (some .endMap) rest) else some (.go none (.parseError :: rest))
  | _ => some (.go none (.parseError :: rest))

/-- The other states in which a token is read, lines 1946-2017. -/
def onSep (s : St) (rest : List St) (t : Tok) : Option Act :=
  match t with
  | .eof => some .ret
  | .error => some (.go none (.lexError :: rest))
  | .colon => if s = .mapSep then some (.go none (.mapNeedVal :: rest)) else some (.go none (.parseError :: rest))
  | .comma => if s = .mapGotVal then some (.go none (.mapNeedKey :: rest)) else if s = .arrGotVal then some (.go none (.arrNeedVal :: rest))
      else some (.go none (.parseError :: rest))
  | .rcurly => if s = .mapGotVal then some (.go (some .endMap) rest) else some (.go none (.parseError :: rest))
  | .rsquare => if s = .arrGotVal then some (.go (some .endArr) rest) else some (.go none (.parseError :: rest))
  | _ => some (.go none (.parseError :: rest))

/-- The state machine of yajl_do_parse on one token. -/
def onTok (strtod : List Byte → Option (BitVec 64)) (s : St) (rest : List St) (t : Tok) (raw : List Byte) : Option Act :=
  match s with
  | .start | .gotValue | .mapNeedVal | .arrNeedVal | .arrStart => onValue strtod s rest t raw
  | .mapStart | .mapNeedKey => onKey s rest t raw
  | _ => onSep s rest t

/-- yajl_status. -/
inductive Status
  | ok | canceled | error
  deriving DecidableEq

/-- struct yajl_handle_t: the stack of states (top first), the lexer; and the context of the callbacks. -/
structure Hand (σ : Type) where
  stack : List St
  lx : Lx
  ctx : σ

/-- yajl_do_parse, lines 1710-2022; a round is one pass of `around_again`. `cb` is the callback; `false`: it returns 0. -/
def doParse {σ : Type} (strtod : List Byte → Option (BitVec 64)) (cb : σ → Ev → Option (σ × Bool)) : Nat → Hand σ → Option (Hand σ × Status)
  | 0, _ => none
  | n + 1, h => match h.stack with
    | [] => none
    | .complete :: rest =>
      if h.lx.off ≠ h.lx.text.length then match lexLex h.lx.fuel h.lx.off h.lx with
        | none => none
        | some (t, _, x) => doParse strtod cb n { h with lx := x, stack := if t ≠ .eof then .parseError :: rest else .complete :: rest }
      else some (h, .ok)
    | .lexError :: _ => some (h, .error)
    | .parseError :: _ => some (h, .error)
    | s :: rest => match lexLex h.lx.fuel h.lx.off h.lx with
      | none => none
      | some (t, raw, x) => match onTok strtod s rest t raw with
        | none => none
        | some .ret => some ({ h with lx := x }, .ok)
        | some (.go none st) => doParse strtod cb n { h with lx := x, stack := st }
        | some (.go (some ev) st) => match cb h.ctx ev with
          | none => none
          | some (c, false) => some ({ stack := .parseError :: rest, lx := x, ctx := c }, .canceled)
          | some (c, true) => doParse strtod cb n { stack := st, lx := x, ctx := c }

/-- yajl_parse, lines 287-302; `*offset = 0`. -/
def yajlParse {σ : Type} (strtod : List Byte → Option (BitVec 64)) (cb : σ → Ev → Option (σ × Bool)) (h : Hand σ) (text : List Byte) : Option (Hand σ × Status) :=
  doParse strtod cb (h.lx.buf.length + text.length + 3) { h with lx := { h.lx with text := text, off := 0 } }

/-- yajl_complete_parse and yajl_do_finish, lines 305-321, 1683-1708. -/
def yajlComplete {σ : Type} (strtod : List Byte → Option (BitVec 64)) (cb : σ → Ev → Option (σ × Bool)) (h : Hand σ) : Option (Hand σ × Status) :=
  match yajlParse strtod cb h [0x20#8] with
  | some (h, .ok) => match h.stack with
    | .complete :: _ => some (h, .ok)
    | .gotValue :: _ => some (h, .ok)
    | _ => some (h, .error)
  | y => y

/-- yajl_alloc, lines 215-249: the handle before the first call. -/
def yajlAlloc {σ : Type} (ctx : σ) : Hand σ := ⟨[.start], ⟨[], 0, [], false, 0⟩, ctx⟩

/-- The text in the given blocks, until one is not accepted; then yajl_complete_parse. -/
def parseBlocks {σ : Type} (strtod : List Byte → Option (BitVec 64)) (cb : σ → Ev → Option (σ × Bool)) : List (List Byte) → Hand σ → Option (Hand σ × Status)
  | [], h => yajlComplete strtod cb h
  | b :: bs, h => match yajlParse strtod cb h b with
    | some (h, .ok) => parseBlocks strtod cb bs h
    | y => y

/-- The blocks of at most 16384 bytes in the loop of run_json_parser, Db/dbjson.c lines 405-412. -/
def blocks : Nat → List Byte → List (List Byte)
  | 0, _ => []
  | n + 1, l => if l = [] then [] else l.take 16384 :: blocks n (l.drop 16384)

/-! ## Generator -/

/-- yajl_gen_state. -/
inductive GS
  | start | mapStart | mapKey | mapVal | arrStart | inArr | complete
  deriving DecidableEq

/-- yajl_string_encode, lines 353-398, for one byte: what is printed. `/` is not escaped. -/
def escByte (c : Byte) : List Byte :=
  let hex (d : Byte) : Byte := if d < 10#8 then 0x30#8 + d else 0x37#8 + d
  if c = 0x0d#8 then [0x5c#8, 0x72#8] else if c = 0x0a#8 then [0x5c#8, 0x6e#8] else if c = 0x5c#8 then [0x5c#8, 0x5c#8] else if c = 0x22#8 then [0x5c#8, 0x22#8]
  else if c = 0x0c#8 then [0x5c#8, 0x66#8] else if c = 0x08#8 then [0x5c#8, 0x62#8] else if c = 0x09#8 then [0x5c#8, 0x74#8]
  else if c < 0x20#8 then [0x5c#8, 0x75#8, 0x30#8, 0x30#8, hex (c >>> 4), hex (c &&& 0x0f#8)] else [c]

/-- yajl_string_encode. -/
def encode (s : List Byte) : List Byte := s.flatMap escByte

/-- INSERT_SEP, lines 629-637. -/
def insertSep : GS → List Byte
  | .mapKey => [0x2c#8, 0x0a#8]
  | .inArr => [0x2c#8, 0x0a#8]
  | .mapVal => [0x3a#8, 0x20#8]
  | _ => []

/-- INSERT_WHITESPACE, lines 639-648; `d` is `g->depth`. -/
def insertWs (s : GS) (d : Nat) : List Byte := if s = .mapVal then [] else List.replicate (4 * d) 0x20#8

/-- APPENDED_ATOM, lines 672-689. -/
def appended : GS → GS
  | .start => .complete
  | .mapStart => .mapVal
  | .mapKey => .mapVal
  | .arrStart => .inArr
  | .mapVal => .mapKey
  | s => s

/-- FINAL_NEWLINE, lines 691-693. -/
def finalNewline (s : GS) : List Byte := if s = .complete then [0x0a#8] else []

/-- One call of the generator, lines 734-837: the states of the open levels (innermost first; `g->depth` is their number less one) and the text printed; `none`: the call
fails (the text it may have printed is left out). -/
def genStep (st : List GS) (g : Gen) : Option (List GS × List Byte) :=
  match st with
  | [] => none
  | s :: rest =>
    if s = .complete then none
    else match g with
      | .num l => if s = .mapKey ∨ s = .mapStart then none
          else some (appended s :: rest, insertSep s ++ insertWs s rest.length ++ l ++ finalNewline (appended s))
      | .str l => some (appended s :: rest, insertSep s ++ insertWs s rest.length ++ 0x22#8 :: encode l ++ [0x22#8] ++ finalNewline (appended s))
      | .mapOpen => if s = .mapKey ∨ s = .mapStart then none
          else if 128 ≤ rest.length + 1 then none
          else some (.mapStart :: s :: rest, insertSep s ++ insertWs s rest.length ++ [0x7b#8, 0x0a#8])
      | .arrOpen => if s = .mapKey ∨ s = .mapStart then none
          else if 128 ≤ rest.length + 1 then none
          else some (.arrStart :: s :: rest, insertSep s ++ insertWs s rest.length ++ [0x5b#8, 0x0a#8])
      | .mapClose => match rest with
        | [] => none
        | r :: rest => some (appended r :: rest, 0x0a#8 :: insertWs (appended r) rest.length ++ [0x7d#8] ++ finalNewline (appended r))
      | .arrClose => match rest with
        | [] => none
        | r :: rest => some (appended r :: rest, 0x0a#8 :: insertWs (appended r) rest.length ++ [0x5d#8] ++ finalNewline (appended r))

/-- A sequence of calls: the text. -/
def genAll : List Gen → List GS → Option (List GS × List Byte)
  | [], st => some (st, [])
  | g :: l, st => match genStep st g with
    | none => none
    | some (st', t) => (genAll l st').map fun y => (y.1, t ++ y.2)

end WG.Yajl
