import Verif.Yajl.Model
import Verif.Json.Model
/-!
# The functions of the API that read and print JSON texts

The functions take C strings; here `txt` is the string without its 0 byte at the end. `strtod` is the function of the C library, `none` if it reports overflow. The messages of
yajl_get_error are left out.
-/
namespace WG.Yajl
open WG.Json
open WG.Recs

variable {ι : Type}

/-- run_json_parser, Db/dbjson.c lines 385-422: the database, the result and `*document`. -/
def parseText (strtod : List Byte → Option Word) (A : Alloc ι) (X : Ix ι) (s : Db ι) (txt : List Byte) (param isdoc : Bool) : Option (Db ι × Int × Option Word) :=
  (parseBlocks strtod (handle A X) (blocks txt.length txt) (yajlAlloc ⟨s, [], none, param, isdoc⟩)).map fun y =>
    (y.1.ctx.db, if y.2 = .ok then 0 else -2, y.1.ctx.doc)

/-- check_push_cb and check_pop_cb, Db/dbjson.c lines 424-439, and the other callbacks of validate_cb (none), lines 141-152. -/
def checkCb (d : Int) : Ev → Option (Int × Bool)
  | .startMap => let d := if d = -1 then 0 else d; some (d + 1, decide (¬ maxDepth ≤ d + 1))
  | .startArr => let d := if d = -1 then 0 else d; some (d + 1, decide (¬ maxDepth ≤ d + 1))
  | .endMap => some (d - 1, true)
  | .endArr => some (d - 1, true)
  | _ => some (d, true)

/-- wg_check_json, Db/dbjson.c lines 278-315. -/
def checkText (strtod : List Byte → Option Word) (txt : List Byte) : Option Int :=
  (parseBlocks strtod checkCb (blocks txt.length txt) (yajlAlloc (-1))).map fun y => if y.2 = .ok then if y.1.ctx = -1 then -1 else 0 else -1

/-- The loop of wg_parse_json_file, Db/dbjson.c lines 217-246; `eof` is `feof(f)`, `buf` what has been read. Either the function is left with the given result, or the loop
ends. Read errors and failing allocations are left out. The first parameter counts rounds. -/
def fileLoop (strtod : List Byte → Option Word) : Nat → List Byte → Bool → List Byte → Hand Int → Option (Int ⊕ (List Byte × Hand Int))
  | 0, _, _, _, _ => none
  | n + 1, rest, eof, buf, hand =>
    if eof then some (.inr (buf, hand))
    else
      let rd := rest.take 16384
      if rd.length = 0 then some (.inl 0)
      else match yajlParse strtod checkCb hand rd with
        | none => none
        | some (h, .ok) => fileLoop strtod n (rest.drop 16384) (decide (rd.length < 16384)) (buf ++ rd) h
        | some _ => some (.inl (-1))

/-- wg_parse_json_file, Db/dbjson.c lines 181-269, on a file with contents `data`. -/
def parseFile (strtod : List Byte → Option Word) (A : Alloc ι) (X : Ix ι) (s : Db ι) (data : List Byte) : Option (Db ι × Int) :=
  match fileLoop strtod (data.length / 16384 + 2) data false [] (yajlAlloc (-1)) with
  | none => none
  | some (.inl c) => some (s, c)
  | some (.inr (buf, h)) => match yajlComplete strtod checkCb h with
    | none => none
    | some (h, st) =>
      if st ≠ .ok then some (s, -1)
      else if h.ctx = -1 then some (s, -1)
      else (parseText strtod A X s (cut buf) false true).map fun y => (y.1, y.2.1)

/-- wg_print_json_document, Db/dbjson.c lines 732-751: the text printed; `none` if the generator refuses a call (then only a part is printed). -/
def printText (fmt other : Word → List Byte) (h : Heap) (n : Nat) (r : Word) : Option (List Byte) :=
  match printDocument fmt other h n r with
  | none => none
  | some l => (genAll l [.start]).map fun y => y.2

end WG.Yajl
