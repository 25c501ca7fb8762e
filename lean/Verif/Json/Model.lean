import Verif.JsonQuery.Model
/-!
# Import and printing of JSON documents

Model of Db/dbjson.c on top of the record store (`Verif/Records`). The lexer and parser of json/yajl_all.c are not modelled here: `Ev` is the sequence of calls of the
callbacks that it makes. `Option`: `none` is undefined behaviour. malloc for the parser's own lists and buffers is assumed to succeed.
-/
namespace WG.Json
open WG.Recs

variable {ι : Type}

/-- The callbacks of yajl, `yajl_callbacks`, json/yajl_api.h; `input_cb`, Db/dbjson.c lines 153-165. Integers are `long long`, doubles bit patterns. -/
inductive Ev
  | null | bool (b : Bool) | int (v : Word) | dbl (v : Word) | str (s : List Byte)
  | startMap | key (s : List Byte) | endMap | startArr | endArr

/-- The answers of the allocator of the database: for a record of a given length, a list cell, an integer, a double, a string. `none`: the allocation fails. -/
structure Alloc (ι : Type) where
  rcd : Db ι → Nat → Option Word
  cell : Db ι → Option Word
  int : Db ι → Option Word
  dbl : Db ι → Option Word
  str : Db ι → List Byte → StrAlloc

/-- `stack_entry`, Db/dbjson.c lines 90-96: the list `head`..`tail` (`size` is its length), and the key as a C string; `none`: not initialized. -/
structure Entry where
  arr : Bool
  elems : List Word
  key : Option (List Byte)

/-- `parser_context`, Db/dbjson.c lines 98-106: the stack with its top first (`stack_ptr` is its length minus one), and the flags of the call. -/
structure Ctx (ι : Type) where
  db : Db ι
  stack : List Entry
  doc : Option Word
  param : Bool
  isdoc : Bool

/-- MAX_DEPTH, Db/dbjson.c line 69. -/
def maxDepth : Nat := 7

/-- wg_set_field for consecutive fields until one fails: the loop of pop, Db/dbjson.c lines 490-500. -/
def setAll (A : Alloc ι) (X : Ix ι) (r : Word) : List Word → Nat → Db ι → Option (Db ι × Bool)
  | [], _, s => some (s, true)
  | w :: l, i, s => match setField X s r i w (A.cell s) with
    | none => none
    | some (s', code) => if code ≠ 0 then some (s', false) else setAll A X r l (i + 1) s'

/-- RECORD_META_NOTDATA|RECORD_META_MATCH if `isparam`, Db/dbschema.c lines 74-75, 106-107, 141-142. -/
def paramBits (param : Bool) : Word := if param then 3#64 else 0#64

/-- wg_create_triple, Db/dbschema.c lines 69-88; 0 stands for NULL. The record without fields is created and indexed as by wg_create_record. -/
def createTriple (A : Alloc ι) (X : Ix ι) (s : Db ι) (subj prop ob : Word) (param : Bool) : Option (Db ι × Word) :=
  let y := createRecord X s 3 (paramBits param) (A.rcd s 3)
  if y.2 = 0#64 then some (y.1, 0#64)
  else (setAll A X y.2 [subj, prop, ob] 0 y.1).map fun z => (z.1, if z.2 then y.2 else 0#64)

/-- wg_create_array and wg_create_object, Db/dbschema.c lines 97-158. -/
def createStruct (A : Alloc ι) (X : Ix ι) (s : Db ι) (arr : Bool) (size : Nat) (isdoc param : Bool) : Db ι × Word :=
  createRecord X s size ((if arr then 0x40#64 else 0x20#64) ||| (if isdoc then 0x10#64 else 0#64) ||| paramBits param) (A.rcd s size)

/-- push, Db/dbjson.c lines 443-455. -/
def push (c : Ctx ι) (arr : Bool) : Ctx ι × Bool :=
  if maxDepth ≤ c.stack.length then (c, false) else ({ c with stack := ⟨arr, [], none⟩ :: c.stack }, true)

/-- add_elem, Db/dbjson.c lines 525-548. -/
def addElem (c : Ctx ι) (w : Word) : Ctx ι × Bool :=
  match c.stack with
  | [] => (c, false)
  | e :: rest => ({ c with stack := { e with elems := e.elems ++ [w] } :: rest }, true)

/-- The bytes before the first 0: what `strncpy` into a buffer with a 0 behind it leaves. -/
def cut (s : List Byte) : List Byte := s.takeWhile (· ≠ 0#8)

/-- add_key, Db/dbjson.c lines 553-564; object_key_cb lines 675-694: at most 79 bytes are kept. -/
def addKey (c : Ctx ι) (k : List Byte) : Ctx ι × Bool :=
  match c.stack with
  | [] => (c, false)
  | e :: rest => ({ c with stack := { e with key := some ((cut k).take 79) } :: rest }, true)

/-- add_literal, Db/dbjson.c lines 571-591. -/
def addLiteral (A : Alloc ι) (X : Ix ι) (c : Ctx ι) (w : Word) : Option (Ctx ι × Bool) :=
  match c.stack with
  | [] => some (c, false)
  | e :: _ =>
    if e.arr then some (addElem c w)
    else match e.key with
      | none => none
      | some k => match encUnistr c.db.h k none 5#64 (A.str c.db k) with
        | none => none
        | some (h, key) =>
          let c1 := { c with db := ⟨h, c.db.ix⟩ }
          if key = illegal then some (c1, false)
          else match createTriple A X c1.db 0#64 key w c.param with
            | none => none
            | some (s, r) => if r = 0#64 then some ({ c1 with db := s }, false) else some (addElem { c1 with db := s } r)

/-- pop, Db/dbjson.c lines 462-520. -/
def pop (A : Alloc ι) (X : Ix ι) (c : Ctx ι) : Option (Ctx ι × Bool) :=
  match c.stack with
  | [] => some (c, false)
  | e :: rest =>
    let y := createStruct A X c.db e.arr e.elems.length (rest.isEmpty && c.isdoc) c.param
    if y.2 = 0#64 then some ({ c with db := y.1, stack := rest }, false)
    else match setAll A X y.2 e.elems 0 y.1 with
      | none => none
      | some (s, ok) =>
        if rest.isEmpty then some ({ c with db := s, stack := rest, doc := some y.2 }, ok)
        else if ok then addLiteral A X { c with db := s, stack := rest } y.2
        else some ({ c with db := s, stack := rest }, false)

/-- The callbacks, Db/dbjson.c lines 597-716; null and booleans have none (lines 153-165) and are skipped. -/
def handle (A : Alloc ι) (X : Ix ι) (c : Ctx ι) : Ev → Option (Ctx ι × Bool)
  | .null => some (c, true)
  | .bool _ => some (c, true)
  | .int v =>
    let y := encInt c.db.h v (A.int c.db)
    let c1 := { c with db := ⟨y.1, c.db.ix⟩ }
    if y.2 = illegal then some (c1, false) else addLiteral A X c1 y.2
  | .dbl v =>
    let y := encDouble c.db.h v (A.dbl c.db)
    let c1 := { c with db := ⟨y.1, c.db.ix⟩ }
    if y.2 = illegal then some (c1, false) else addLiteral A X c1 y.2
  | .str s => match encUnistr c.db.h (cut s) none 5#64 (A.str c.db (cut s)) with
    | none => none
    | some (h, w) =>
      let c1 := { c with db := ⟨h, c.db.ix⟩ }
      if w = illegal then some (c1, false) else addLiteral A X c1 w
  | .startMap => some (push c false)
  | .key s => some (addKey c s)
  | .endMap => pop A X c
  | .startArr => some (push c true)
  | .endArr => pop A X c

/-- yajl_parse calls the callbacks until one returns 0. -/
def feed (A : Alloc ι) (X : Ix ι) : List Ev → Ctx ι → Option (Ctx ι × Bool)
  | [], c => some (c, true)
  | e :: l, c => match handle A X c e with
    | none => none
    | some (c', true) => feed A X l c'
    | some (c', false) => some (c', false)

/-- run_json_parser, Db/dbjson.c lines 385-422, on a text for which yajl makes these calls and which it accepts. The result is the database, the code and `*document`
(unchanged, i.e. NULL, if `none`). -/
def runParser (A : Alloc ι) (X : Ix ι) (s : Db ι) (evs : List Ev) (param isdoc : Bool) : Option (Db ι × Int × Option Word) :=
  (feed A X evs ⟨s, [], none, param, isdoc⟩).map fun y => (y.1.db, if y.2 then 0 else -2, y.1.doc)

/-- wg_parse_json_document, wg_parse_json_fragment, Db/dbjson.c lines 329-354. -/
def parseDocument (A : Alloc ι) (X : Ix ι) (s : Db ι) (evs : List Ev) := runParser A X s evs false true
def parseFragment (A : Alloc ι) (X : Ix ι) (s : Db ι) (evs : List Ev) := runParser A X s evs false false
/-- wg_parse_json_param, Db/dbjson.c lines 366-371. -/
def parseParam (A : Alloc ι) (X : Ix ι) (s : Db ι) (evs : List Ev) := runParser A X s evs true true

/-- check_push_cb and check_pop_cb, Db/dbjson.c lines 424-439, with `validate_cb`: the depth starts at -1. `false`: the callback returns 0. -/
def checkEvents : List Ev → Int → Bool × Int
  | [], d => (true, d)
  | .startMap :: l, d => let d := if d = -1 then 0 else d; if maxDepth ≤ d + 1 then (false, d + 1) else checkEvents l (d + 1)
  | .startArr :: l, d => let d := if d = -1 then 0 else d; if maxDepth ≤ d + 1 then (false, d + 1) else checkEvents l (d + 1)
  | .endMap :: l, d => checkEvents l (d - 1)
  | .endArr :: l, d => checkEvents l (d - 1)
  | _ :: l, d => checkEvents l d

/-- wg_check_json, Db/dbjson.c lines 277-315, on a text that yajl accepts. -/
def checkJson (evs : List Ev) : Int :=
  let y := checkEvents evs (-1)
  if y.1 = false then -1 else if y.2 = -1 then -1 else 0

/-! ## Files -/

/-- The loop of wg_parse_json_file, Db/dbjson.c lines 217-246, on a file whose remaining bytes are `rest`; `eof` is `feof(f)`. The result is `none` if the function
is left through `goto done` with result 0 before the document is parsed (line 224), else the bytes read. Read errors, parse errors and failing allocations are left out.
The first parameter counts rounds. -/
def readLoop : Nat → List Byte → Bool → List Byte → Option (List Byte)
  | 0, _, _, _ => none
  | n + 1, rest, eof, buf =>
    if eof then some buf
    else
      let rd := rest.take 16384
      if rd.length = 0 then none
      else readLoop n (rest.drop 16384) (decide (rd.length < 16384)) (buf ++ rd)

/-- What wg_parse_json_file hands to wg_parse_json_document; `none`: it returns 0 without calling it. -/
def fileText (data : List Byte) : Option (List Byte) := readLoop (data.length / 16384 + 2) data false []

/-! ## Printing -/

/-- Calls of the generator (yajl_gen_map_open and so on). Numbers are given by their text. -/
inductive Gen
  | mapOpen | mapClose | arrOpen | arrClose | str (s : List Byte) | num (s : List Byte)
  deriving DecidableEq

/-- Decimal digits, as printed by `%d`. -/
def digits (n : Nat) : List Byte :=
  if n < 10 then [BitVec.ofNat 8 (48 + n)] else digits (n / 10) ++ [BitVec.ofNat 8 (48 + n % 10)]
termination_by n
decreasing_by omega

/-- `%d` of an `int`. -/
def fmtInt (i : Int) : List Byte := if i < 0 then 45#8 :: digits i.natAbs else digits i.natAbs

/-- The `int` that `intdata = wg_decode_int(db, enc)` leaves, Db/dbutil.c line 248: the low 32 bits. -/
def toInt32 (v : Word) : Int := (v.truncate 32).toInt

/-- pretty_print_jsonval, Db/dbjson.c lines 822-860, given the function for records. `fmt` is `%f` of a double, `other` what wg_snprint_value prints for a value of
another type. The buffer of wg_snprint_value holds 77 characters (lines 845-846; Db/dbutil.c line 236). `some none` is the error result. -/
def printVal (fmt : Word → List Byte) (other : Word → List Byte) (h : Heap) (rec : Word → Option (Option (List Gen))) (w : Word) : Option (Option (List Gen)) :=
  match h.reader.typ w with
  | some .record => rec w
  | some .str => (decodeStr h w).map fun s => some [.str s]
  | some .int => some (some [.num ((fmtInt (toInt32 (h.reader.int w))).take 77)])
  | some .double => some (some [.num ((fmt (h.reader.dbl w)).take 77)])
  | some .fixpoint => some (some [.num ((other w).take 77)])
  | _ => some (some [.str ((other w).take 77)])

/-- The loops over the fields: the outputs of `f` one after the other. -/
def printAll (f : Word → Option (Option (List Gen))) : List Word → Option (Option (List Gen))
  | [] => some (some [])
  | w :: l => match f w with
    | none => none
    | some none => some none
    | some (some g) => match printAll f l with
      | none => none
      | some none => some none
      | some (some g') => some (some (g ++ g'))

/-- pretty_print_json, Db/dbjson.c lines 756-816. The output is given only if there is no error; the first parameter bounds the depth of the recursion (a C stack). For
the length passed to yajl_gen_string, wg_decode_str_len, see C20. -/
def printRec (fmt : Word → List Byte) (other : Word → List Byte) (h : Heap) : Nat → Word → Option (Option (List Gen))
  | 0, _ => none
  | n + 1, r => match h.recs r with
    | none => none
    | some rc =>
      if rc.info &&& 0x20#64 ≠ 0#64 then
        match printAll (fun w => if isRecVal w then printRec fmt other h n w else some none) rc.fields with
        | none => none
        | some none => some none
        | some (some g) => some (some (.mapOpen :: g ++ [.mapClose]))
      else if rc.info &&& 0x40#64 ≠ 0#64 then
        match printAll (printVal fmt other h (printRec fmt other h n)) rc.fields with
        | none => none
        | some none => some none
        | some (some g) => some (some (.arrOpen :: g ++ [.arrClose]))
      else
        match rc.fields[1]?, rc.fields[2]? with
        | some k, some v =>
          if h.reader.typ k = some .str then
            match decodeStr h k, printVal fmt other h (printRec fmt other h n) v with
            | some s, some (some g) => some (some (.str s :: g))
            | some _, some none => some none
            | _, _ => none
          else some none
        | _, _ => some none

/-- wg_print_json_document, Db/dbjson.c lines 732-751; nothing is printed for a record that is not a document. -/
def printDocument (fmt : Word → List Byte) (other : Word → List Byte) (h : Heap) (n : Nat) (r : Word) : Option (List Gen) :=
  match h.recs r with
  | none => none
  | some rc => if rc.isDoc then (printRec fmt other h n r).map (·.getD []) else some []

end WG.Json
