import Verif.Csv.Model
/-!
# What a text value and a CSV file say

The decimal texts of integers and of numbers with a decimal point, the rows of a CSV file as in RFC 4180, and what it means to load rows of texts into a database.
-/
namespace WG.Csv.Spec
open WG.Csv

/-- A decimal digit. -/
def Digit (c : Byte) : Prop := 48 ≤ c.toNat ∧ c.toNat ≤ 57

/-- A non-empty text of digits. -/
def Digits (s : Str) : Prop := s ≠ [] ∧ ∀ c ∈ s, Digit c

/-- The number written with these digits. -/
def value : Str → Nat
  | [] => 0
  | c :: r => (c.toNat - 48) * 10 ^ r.length + value r

/-- `s` is the integer `n` in decimal: digits, maybe after a minus sign. -/
def IntText (s : Str) (n : Int) : Prop := ∃ ds, Digits ds ∧ (s = ds ∧ n = value ds ∨ s = 45#8 :: ds ∧ n = -(value ds : Int))

/-- `s` is a number with a decimal point: maybe a minus sign, digits, a point and maybe more digits. -/
def PointText (s : Str) : Prop := ∃ sign a b, s = sign ++ a ++ 46#8 :: b ∧ (sign = [] ∨ sign = [45#8]) ∧ Digits a ∧ ∀ c ∈ b, Digit c

/-- The value that a text stands for: `parseInput` when errno was clear before. -/
def parse (atof : Str → Word × Bool) (s : Str) : Val := (parseInput atof false s).1

/-! ## Files -/

/-- A field: its text as it stands, or in quotes. -/
inductive Field
  | plain (s : Str) | quoted (s : Str)

/-- The content of a field. -/
def Field.content : Field → Str
  | .plain s => s
  | .quoted s => s

/-- A text in quotes, with the quotes inside doubled. -/
def quote (s : Str) : Str := [34#8] ++ s.flatMap (fun c => if c = 34#8 then [34#8, 34#8] else [c]) ++ [34#8]

/-- The field in the file. -/
def Field.text : Field → Str
  | .plain s => s
  | .quoted s => quote s

/-- The fields that can be read: at most 4095 bytes, none of them 0; without quotes there is no comma, CR or LF in it and no quote at its start. -/
def Field.Ok : Field → Prop
  | .plain s => s.length ≤ 4095 ∧ (∀ c ∈ s, c ≠ 0#8 ∧ c ≠ 44#8 ∧ c ≠ 13#8 ∧ c ≠ 10#8) ∧ s.head? ≠ some 34#8
  | .quoted s => s.length ≤ 4095 ∧ ∀ c ∈ s, c ≠ 0#8

/-- Fields with commas between them. -/
def commas : List Str → Str
  | [] => []
  | [s] => s
  | s :: t :: r => s ++ [44#8] ++ commas (t :: r)

/-- A line of the file; it ends with CR LF or with LF. -/
structure Line where
  fields : List Field
  crlf : Bool

def Line.text (l : Line) : Str := commas (l.fields.map Field.text) ++ (if l.crlf then [13#8, 10#8] else [10#8])

/-- A line with nothing in it. -/
def Line.Blank (l : Line) : Prop := commas (l.fields.map Field.text) = []

instance (l : Line) : Decidable l.Blank := by unfold Line.Blank; infer_instance

/-- The rows of a file: the contents of the fields of its lines. Blank lines are no rows. -/
def rows (ls : List Line) : List (List Str) := (ls.filter fun l => ¬l.Blank).map fun l => l.fields.map Field.content

/-- Encoding the values of a row, in order; a value that cannot be encoded gives NULL. -/
def encodeRow {σ : Type} (E : Env σ) : σ → List Val → σ × List Word
  | db, [] => (db, [])
  | db, v :: r => match E.encode db v with
    | (db1, w) => match encodeRow E db1 r with
      | (db2, ws) => (db2, w.getD 0#64 :: ws)

/-- Loading rows: the values of a row are encoded and a record is created with them, row after row. The result is the database and 0, or -2 if there were errors; the first record that
cannot be created ends the load. -/
def load {σ : Type} (E : Env σ) : σ → Int → List (List Val) → σ × Int
  | db, err, [] => (db, err)
  | db, err, r :: rs => match encodeRow E db r with
    | (db1, ws) => match E.create db1 ws with
      | (db2, .ok) => load E db2 err rs
      | (db2, .noRecord) => (db2, -2)
      | (db2, .noField) => load E db2 (-2) rs

/-! ## Export -/

/-- A text that fits the field buffer of the export with its quotes, the quotes inside doubled. -/
def Fits (s : Str) : Prop := (∀ c ∈ s, c ≠ 0#8) ∧ s.length + s.count 34#8 ≤ 4091

/-- The values that an exported file shows: NULL, integers of 32 bits, numbers that `%f` writes with digits and a point in at most 79 characters, texts that fit, days from 0001-01-01 to
9999-12-31, times of day, and characters with no meaning in CSV. -/
def Shown (fmtF : Word → Str) : EVal → Prop
  | .null => True
  | .record _ => False
  | .int v => -2 ^ 31 ≤ v.toInt ∧ v.toInt < 2 ^ 31
  | .double d => PointText (fmtF d) ∧ (fmtF d).length ≤ 79
  | .fixpoint d => PointText (fmtF d) ∧ (fmtF d).length ≤ 79
  | .str s => Fits s
  | .xml s => Fits s
  | .uri _ none => False
  | .uri s (some p) => Fits (p ++ s)
  | .char c => c ≠ 0#8 ∧ c ≠ 44#8 ∧ c ≠ 13#8 ∧ c ≠ 10#8 ∧ c ≠ 34#8
  | .date d => 1 ≤ d ∧ d ≤ 3652059
  | .time t => 0 ≤ t ∧ t < 8640000
  | .other => False

/-- The value that comes back: integers, dates, times and NULL as they were; doubles as `%f` and atof leave them; texts as whatever they look like (`parse`). -/
def back (atof : Str → Word × Bool) (fmtF : Word → Str) : EVal → Val
  | .null => .null
  | .int v => .int v
  | .double d => if (atof (fmtF d)).2 then .str (fmtF d) else .double (atof (fmtF d)).1
  | .fixpoint d => if (atof (fmtF d)).2 then .str (fmtF d) else .double (atof (fmtF d)).1
  | .str s => parse atof s
  | .xml s => parse atof s
  | .uri s p => parse atof (p.getD [] ++ s)
  | .char c => parse atof [c]
  | .date d => .date d
  | .time t => .time t
  | .record _ => .null
  | .other => .null

end WG.Csv.Spec
