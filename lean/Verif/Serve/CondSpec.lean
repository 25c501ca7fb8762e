import Verif.Serve.Cond
import Verif.Serve.SearchSpec

/-!
# The server: what the conditions of a request say

Condition number i of a request consists of the i-th parameters `field`, `compare`, `type` and `value`.
-/
namespace WG.Serve.Spec
open WG.Csv (Str Byte asc)
open WG.Serve (Params PVal)

/-- The i-th value that is given to the parameter, counted from 0. -/
def given (k : String) : Params → Nat → Option Str
  | [], _ => none
  | p :: ps, i => if p.1 = asc k then (if i = 0 then some p.2 else given k ps (i - 1)) else given k ps i

/-- A digit. -/
def Digit (c : Byte) : Prop := 48 ≤ c.toNat ∧ c.toNat ≤ 57

/-- The column is given by its number. -/
def FieldIs (p : Option Str) (col : Nat) : Prop := p = some (Json.digits col) ∧ col < 2 ^ 31

/-- The names of comparisons. Without a name: equal. -/
inductive CompareIs : Option Str → Query.Cond → Prop
  | missing : CompareIs none .equal
  | equal : CompareIs (some (asc "equal")) .equal
  | notEqual : CompareIs (some (asc "not_equal")) .notEqual
  | lessThan : CompareIs (some (asc "lessthan")) .lessThan
  | greater : CompareIs (some (asc "greater")) .greater
  | ltEqual : CompareIs (some (asc "ltequal")) .ltEqual
  | gtEqual : CompareIs (some (asc "gtequal")) .gtEqual

/-- Digits with a point between, before or after them. -/
def Decimal (s : Str) : Prop := ∃ a b, s = a ++ 46#8 :: b ∧ (∀ c ∈ a, Digit c) ∧ (∀ c ∈ b, Digit c) ∧ (a ≠ [] ∨ b ≠ [])

/-- A text that is no number: something else than digits and points, or two points. -/
def NoNumber (s : Str) : Prop := (∃ c ∈ s, ¬ Digit c ∧ c ≠ 46#8) ∨ 2 ≤ s.count 46#8

/-- `ValueIs type value v`: what the parameters `type` and `value` say. Without a type, digits are an integer, digits with a point a double, other texts strings. -/
inductive ValueIs : Option Str → Option Str → PVal → Prop
  | null (s) : ValueIs (some (asc "null")) (some s) .null
  | int (n : Nat) : n < 2 ^ 31 → ValueIs (some (asc "int")) (some (Json.digits n)) (.int n)
  | guessInt (n : Nat) : n < 2 ^ 31 → ValueIs none (some (Json.digits n)) (.int n)
  | record (n : Nat) : n < 2 ^ 31 → ValueIs (some (asc "record")) (some (Json.digits n)) (.record n)
  | dbl (s) : Decimal s → ValueIs (some (asc "double")) (some s) (.dbl s)
  | dblInt (n : Nat) : ValueIs (some (asc "double")) (some (Json.digits n)) (.dbl (Json.digits n))
  | guessDbl (s) : Decimal s → ValueIs none (some s) (.dbl s)
  | str (s) : ValueIs (some (asc "str")) (some s) (.str s)
  | guessStr (s) : NoNumber s → ValueIs none (some s) (.str s)
  | char (c s) : ValueIs (some (asc "char")) (some (c :: s)) (.char c)

/-- The request has exactly these conditions. -/
def Asks (ps : Params) (cs : List (Query.Arg PVal)) : Prop :=
  given "field" ps cs.length = none ∧
    ∀ i a, cs[i]? = some a → FieldIs (given "field" ps i) a.col ∧ CompareIs (given "compare" ps i) a.cond ∧ ValueIs (given "type" ps i) (given "value" ps i) a.value

/-- Names that are understood. -/
def compareNames : List String := ["equal", "not_equal", "lessthan", "greater", "ltequal", "gtequal"]
def typeNames : List String := ["null", "int", "record", "double", "str", "char"]

/-- Conditions that make no sense: a column that is no number, a comparison or type that is not known, no value, or a value that is not of the type. -/
inductive Wrong : Str → Option Str → Option Str → Option Str → Prop
  | field (f c t v) : (∃ b ∈ f, ¬ Digit b) → Wrong f c t v
  | compare (f s t v) : s ∉ compareNames.map asc → Wrong f (some s) t v
  | type (f c s v) : s ∉ typeNames.map asc → Wrong f c (some s) v
  | value (f c t) : Wrong f c t none
  | int (f c v) : (∃ b ∈ v, ¬ Digit b) → Wrong f c (some (asc "int")) (some v)
  | record (f c v) : (∃ b ∈ v, ¬ Digit b) → Wrong f c (some (asc "record")) (some v)
  | double (f c v) : NoNumber v → Wrong f c (some (asc "double")) (some v)

end WG.Serve.Spec
