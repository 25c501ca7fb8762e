import Verif.Serve.Out

/-!
# The server: the text of an answer
-/
namespace WG.Serve.Spec
open WG.Csv (Str Byte asc bytes)
open WG.Json (fmtInt)
open WG.Serve (SV Env strBody urlByte)

variable {ρ : Type}

/-- Text in quotes. -/
def quote (s : Str) : Str := asc "\"" ++ s ++ asc "\""

/-- The text of a value. -/
def valueText (e : Env ρ) : SV ρ → Str
  | .null => if e.json then asc "[]" else []
  | .record r => fmtInt (e.id r)
  | .int v => fmtInt (Json.toInt32 v)
  | .double d => e.fmtG d
  | .fixpoint d => e.fmtG d
  | .str s none => quote (strBody e.strenc s)
  | .str s (some l) => quote (s ++ asc "@" ++ l)
  | .uri s none => quote s
  | .uri s (some p) => quote (p ++ asc ":" ++ s)
  | .xml s t => quote (t ++ asc ":" ++ s)
  | .char c => quote [c]
  | .date d => quote (match Iso.strf d 0 with | none => [] | some t => (bytes t.1).take 10)
  | .time t => quote (match Iso.strf 1 t with | none => [] | some x => (bytes x.1).drop 11)
  | .var v => quote (asc "?" ++ fmtInt v)
  | .blob s _ => quote (s.flatMap urlByte)
  | .other => quote []

/-- The values that are printed as this text: numbers have their sizes, a string with a language needs no encoding and the language is at most 97 bytes long, a string in JSON does
not have many control characters, characters are not 0, days are at least 1, blobs have no 0, records are not nested. -/
def Fits (e : Env ρ) : SV ρ → Prop
  | .record r => (e.id r).natAbs < 2 ^ 63 ∧ (e.json = false ∨ e.depth ≥ e.maxdepth)
  | .double d => (e.fmtG d).length ≤ 99
  | .fixpoint d => (e.fmtG d).length ≤ 99
  | .str s none => (strBody e.strenc s).length ≤ 3 * s.length + 47 ∨ (strBody e.strenc s).length ≤ 997
  | .str s (some l) => strBody e.strenc s = s ∧ l.length ≤ 97
  | .char c => c ≠ 0#8
  | .date d => (Iso.strf d 0).isSome
  | .time t => (Iso.strf 1 t).isSome
  | .var v => v.natAbs < 2 ^ 63
  | .blob s n => s.length ≤ n
  | _ => True

/-- The text of a record. -/
def recordText (e : Env ρ) (r : ρ) : Str :=
  let vs := (if e.showid then [fmtInt (e.id r)] else []) ++ (e.F r).map (valueText e)
  if e.json then asc "[" ++ (asc ",").intercalate vs ++ asc "]" else (asc ",").intercalate vs

/-- The text of the answer. -/
def searchText (e : Env ρ) (rs : List ρ) : Str :=
  if e.json then
    let list := asc "[\n" ++ (asc ",\n").intercalate (rs.map (recordText e)) ++ asc "\n]"
    match e.jsonp with
    | none => list
    | some p => p ++ asc "(" ++ list ++ asc ");"
  else rs.flatMap fun r => recordText e r ++ asc "\r\n"

/-- The answer with a number. -/
def countText (e : Env ρ) (k : Nat) : Str :=
  match e.json, e.jsonp with
  | true, some p => p ++ asc "(" ++ Json.digits k ++ asc ");"
  | _, _ => Json.digits k

end WG.Serve.Spec
