import Verif.Csv.Model
/-!
# Printing values

wg_snprint_value, snprint_record and wg_print_record of Db/dbutil.c, with the buffers they write to. Simplifications: malloc does not fail, buffer lengths are not negative, and records are
given by the values of their fields (USE_CHILD_DB is off).
-/
namespace WG.Print
open WG.Csv (Str Byte asc bytes)
open WG.Json (fmtInt)

/-- A buffer: its bytes, `none` where nothing was written since malloc. -/
abbrev Buf := List (Option Byte)

/-- The outcome of a C function: a result, an access outside of the buffer (or a format for which the model has no value), or a read of a byte that was never written. -/
inductive Res (α : Type)
  | ok (a : α) | bad | uninit

def Res.bind {α β : Type} : Res α → (α → Res β) → Res β
  | .ok a, f => f a
  | .bad, _ => .bad
  | .uninit, _ => .uninit

instance : Monad Res where
  pure := .ok
  bind := Res.bind

/-- `b[i] = c`. -/
def put (b : Buf) (i : Nat) (c : Byte) : Res Buf := if i < b.length then .ok (b.set i (some c)) else .bad

/-- Bytes written one after the other from `i` on. -/
def puts (b : Buf) (i : Nat) : Str → Res Buf
  | [] => .ok b
  | c :: s => (put b i c).bind fun b => puts b (i + 1) s

/-- snprintf of the C library, called in Db/dbutil.c lines 239-301: at most `n - 1` bytes of the text and a 0; nothing if `n` is 0. -/
def snprintf (b : Buf) (off n : Nat) (text : Str) : Res Buf := if n = 0 then .ok b else puts b off (text.take (n - 1) ++ [0#8])

/-- The text before the first 0, for strlen of the C library, called in Db/dbutil.c lines 202 and 244. -/
def cstring : Buf → Res Str
  | [] => .bad
  | none :: _ => .uninit
  | some c :: b => if c = 0#8 then .ok [] else (cstring b).bind fun s => .ok (c :: s)

/-- strncpy of the C library, called in Db/dbutil.c line 213: `n` bytes, zeros after the end of the text. -/
def strncpy (b : Buf) (off : Nat) (text : Str) (n : Nat) : Res Buf := puts b off (text.take n ++ List.replicate (n - text.length) 0#8)

/-- The values that are not records, decoded; Db/dbutil.c lines 238-302. XML literals have a type (wg_encode_xmlliteral refuses NULL). -/
inductive Leaf
  | null | int (v : Word) | double (v : Word) | fixpoint (v : Word) | str (s : Str) | uri (s : Str) (pre : Option Str) | xml (s : Str) (typ : Str) | char (c : Byte) | date (d : Int)
  | time (t : Int) | var (v : Int) | anonconst (s : Str) | other

/-- The formats of wg_snprint_value, Db/dbutil.c lines 238-302. The text ends at a 0 byte: the character 0 prints nothing. `fmtF` is `%f`; `none`: wg_strf_iso_datetime for a day before
day 1. -/
def leafText (fmtF : Word → Str) : Leaf → Option Str
  | .null => some (asc "NULL")
  | .int v => some (fmtInt (Json.toInt32 v))
  | .double d => some (fmtF d)
  | .fixpoint d => some (fmtF d)
  | .str s => some (asc "\"" ++ s ++ asc "\"")
  | .uri s none => some s
  | .uri s (some p) => some (p ++ asc ":" ++ s)
  | .xml s t => some (asc "\"<xsdtype " ++ t ++ asc ">" ++ s ++ asc "\"")
  | .char c => some ([c].takeWhile (· ≠ 0#8))
  | .date d => (Iso.strf d 0).map fun t => asc "<raw date " ++ fmtInt d ++ asc ">" ++ bytes (t.1.take 10)
  | .time t => (Iso.strf 1 t).map fun x => asc "<raw time " ++ fmtInt t ++ asc ">" ++ bytes (x.1.drop 11)
  | .var v => some (asc "?" ++ fmtInt v)
  | .anonconst s => some (asc "!" ++ s)
  | .other => some (asc "<unsupported type>")

/-- A value: not a record, or a record with the hexadecimal digits of its address. -/
inductive PV (ρ : Type)
  | leaf (v : Leaf)
  | record (hex : Str) (r : ρ)

variable {ρ : Type}

/-- The end of snprint_record, Db/dbutil.c lines 221-223. -/
def close (b : Buf) (off buflen : Nat) : Res Buf :=
  if buflen > 1 then (put b off 93#8).bind fun b => put b (off + 1) 0#8 else put b off 0#8

/-- The bytes of the comma before a field, Db/dbutil.c lines 209-212. -/
def commaLen (first : Bool) : Nat := if first then 0 else 1

mutual
/-- wg_snprint_value, Db/dbutil.c lines 229-304; the text goes to `b` from `off` on. `F` gives the fields of a record. -/
def snprintValue (fmtF : Word → Str) (F : ρ → List (PV ρ)) (b : Buf) (off : Nat) (v : PV ρ) (buflen : Nat) : Res Buf :=
  if h : buflen = 0 then .bad
  else match v with
    | .leaf l => match leafText fmtF l with
      | none => .bad
      | some t => snprintf b off (buflen - 1) t
    | .record hex r =>
      (snprintf b off (buflen - 1) (asc "<rec " ++ hex ++ asc ">")).bind fun b =>
      (cstring (b.drop off)).bind fun s =>
      if buflen - 1 - s.length > 1 then snprintRecord fmtF F b (off + s.length) r (buflen - 1 - s.length) else .ok b
termination_by (buflen, 0)
decreasing_by
  exact Prod.Lex.left _ _ (by omega)
/-- snprint_record, Db/dbutil.c lines 166-224. -/
def snprintRecord (fmtF : Word → Str) (F : ρ → List (PV ρ)) (b : Buf) (off : Nat) (r : ρ) (buflen : Nat) : Res Buf :=
  if h : buflen < 2 then .ok b
  else (put b off 91#8).bind fun b => recordLoop fmtF F b (off + 1) (List.replicate (buflen - 1) none) (buflen - 1) (F r) true
termination_by (buflen, 0)
decreasing_by
  exact Prod.Lex.left _ _ (by omega)
/-- The loop over the fields, Db/dbutil.c lines 192-223, with the buffer `strbuf`. -/
def recordLoop (fmtF : Word → Str) (F : ρ → List (PV ρ)) (b : Buf) (off : Nat) (strbuf : Buf) (buflen : Nat) (vs : List (PV ρ)) (first : Bool) : Res Buf :=
  match vs with
  | [] => close b off buflen
  | v :: vs =>
    (snprintValue fmtF F strbuf 0 v buflen).bind fun strbuf =>
    (cstring strbuf).bind fun s =>
    if buflen < s.length + 2 then close b off buflen
    else
      (if first then (.ok b) else put b off 44#8).bind fun b =>
      (strncpy b (off + commaLen first) s (buflen - commaLen first)).bind fun b =>
      if buflen - commaLen first - s.length < 2 then close b (off + commaLen first + s.length) (buflen - commaLen first - s.length)
      else recordLoop fmtF F b (off + commaLen first + s.length) strbuf (buflen - commaLen first - s.length) vs false
termination_by (buflen, vs.length + 1)
decreasing_by
  · exact Prod.Lex.right _ (by omega)
  · rcases Nat.lt_or_ge (buflen - commaLen first - s.length) buflen with h | h
    · exact Prod.Lex.left _ _ h
    · rw [show buflen - commaLen first - s.length = buflen by omega]
      exact Prod.Lex.right _ (by simp)
end

/-- The loop of wg_print_record, Db/dbutil.c lines 150-159: what is printed for the fields. `strbuf` has 256 bytes. -/
def printFields (fmtF : Word → Str) (F : ρ → List (PV ρ)) (strbuf : Buf) : List (PV ρ) → Bool → Res Str
  | [], _ => .ok []
  | v :: vs, first =>
    (snprintValue fmtF F strbuf 0 v 255).bind fun strbuf =>
    (cstring strbuf).bind fun s =>
    (printFields fmtF F strbuf vs false).bind fun t => .ok ((if first then [] else [44#8]) ++ s ++ t)

/-- wg_print_record, Db/dbutil.c lines 130-161, for a record that exists: the text on stdout. -/
def printRecord (fmtF : Word → Str) (F : ρ → List (PV ρ)) (r : ρ) : Res Str :=
  (printFields fmtF F (List.replicate 256 none) (F r) true).bind fun t => .ok (asc "[" ++ t ++ asc "]")

end WG.Print
