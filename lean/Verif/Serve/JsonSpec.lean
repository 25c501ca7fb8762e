import Verif.Serve.OutSpec
import Verif.Calendar.Iso
import Verif.Yajl.Spec

/-!
# The server: what an answer in JSON says
-/
namespace WG.Serve.Spec
open WG.Csv (Str Byte asc bytes)
open WG.Json (J JArr fmtInt)
open WG.Yajl (Val Text Utf8Text)
open WG.Serve (SV Env)

variable {ρ : Type}

/-- UTF-8 without control characters, quotes and backslashes. -/
def Plain (s : Str) : Prop := Utf8Text s ∧ ∀ c ∈ s, 0x20 ≤ c.toNat ∧ c ≠ 0x22#8 ∧ c ≠ 0x5c#8

/-- The value in JSON that stands for a value of a field: `[]` for NULL, the number of a record, a number for numbers (of doubles `%g` shows), strings for the other types. -/
inductive Shown (strtod : Str → Option Word) (e : Env ρ) : SV ρ → J → Prop
  | null : Shown strtod e .null (.arr .nil)
  | record {r : ρ} : Shown strtod e (.record r) (.int (BitVec.ofInt 64 (e.id r)))
  | int {v : Word} : -2 ^ 31 ≤ v.toInt → v.toInt < 2 ^ 31 → Shown strtod e (.int v) (.int v)
  | double {d : Word} {j : J} : Val strtod (e.fmtG d) j → Shown strtod e (.double d) j
  | fixpoint {d : Word} {j : J} : Val strtod (e.fmtG d) j → Shown strtod e (.fixpoint d) j
  | str {s : Str} : Utf8Text s → Shown strtod e (.str s none) (.str s)
  | lang {s l : Str} : Plain s → Plain l → Shown strtod e (.str s (some l)) (.str (s ++ asc "@" ++ l))
  | uri {s : Str} : Plain s → Shown strtod e (.uri s none) (.str s)
  | prefixed {s p : Str} : Plain s → Plain p → Shown strtod e (.uri s (some p)) (.str (p ++ asc ":" ++ s))
  | xml {s t : Str} : Plain s → Plain t → Shown strtod e (.xml s t) (.str (t ++ asc ":" ++ s))
  | char {c : Byte} : Plain [c] → Shown strtod e (.char c) (.str [c])
  | date {y m d : Nat} : WG.Spec.ValidDate y m d → y ≤ 9999 → Shown strtod e (.date (ymdToDate y m d)) (.str (bytes (Iso.dateText y m d)))
  | time {h m s p : Nat} : h < 24 → m < 60 → s < 60 → p < 100 → Shown strtod e (.time (hmsToTime h m s p)) (.str (bytes (Iso.clockText h m s ++ ['.'] ++ Iso.places 2 p)))
  | var {v : Int} : Shown strtod e (.var v) (.str (asc "?" ++ fmtInt v))
  | other : Shown strtod e .other (.str [])

/-- An array of these values. -/
def arrOf : List J → JArr
  | [] => .nil
  | j :: js => .cons j (arrOf js)

/-- The array that stands for a record: its values, after its number if that is asked for. -/
def RowOf (strtod : Str → Option Word) (e : Env ρ) (r : ρ) (j : J) : Prop :=
  ∃ js, List.Forall₂ (Shown strtod e) (e.F r) js ∧ j = .arr (arrOf ((if e.showid then [.int (BitVec.ofInt 64 (e.id r))] else []) ++ js))

/-- The function that a client asked to be called on the answer. -/
def wrap (jsonp : Option Str) (t : Str) : Str :=
  match jsonp with
  | none => t
  | some p => p ++ asc "(" ++ t ++ asc ");"

end WG.Serve.Spec
