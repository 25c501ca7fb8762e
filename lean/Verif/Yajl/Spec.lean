import Verif.Json.Spec
/-!
# The grammar of JSON texts

As in RFC 8259; in addition there may be comments, and vertical tab and form feed count as white space. Independent of the model of the lexer and parser.
-/
namespace WG.Yajl
open WG.Json
open WG.Recs (Byte)

/-- White space and comments. -/
inductive Gap : List Byte → Prop
  | nil : Gap []
  | ws {c : Byte} {g : List Byte} : c ∈ [0x09#8, 0x0a#8, 0x0b#8, 0x0c#8, 0x0d#8, 0x20#8] → Gap g → Gap (c :: g)
  | line {l g : List Byte} : 0x0a#8 ∉ l → Gap g → Gap (0x2f#8 :: 0x2f#8 :: l ++ 0x0a#8 :: g)
  | block {l g : List Byte} : ¬ [0x2a#8, 0x2f#8] <:+: l → Gap g → Gap (0x2f#8 :: 0x2a#8 :: l ++ 0x2a#8 :: 0x2f#8 :: g)

/-- A byte as a number between bounds. -/
def Between (a b : Nat) (c : Byte) : Prop := a ≤ c.toNat ∧ c.toNat ≤ b

/-- A character in UTF-8: the first byte tells the number of bytes, the others are 10xxxxxx. (Overlong forms are not excluded.) -/
inductive Utf8 : List Byte → Prop
  | one {c : Byte} : Between 0x00 0x7f c → Utf8 [c]
  | two {c d : Byte} : Between 0xc0 0xdf c → Between 0x80 0xbf d → Utf8 [c, d]
  | three {c d e : Byte} : Between 0xe0 0xef c → Between 0x80 0xbf d → Between 0x80 0xbf e → Utf8 [c, d, e]
  | four {c d e f : Byte} : Between 0xf0 0xf7 c → Between 0x80 0xbf d → Between 0x80 0xbf e → Between 0x80 0xbf f → Utf8 [c, d, e, f]

/-- Text in UTF-8. -/
inductive Utf8Text : List Byte → Prop
  | nil : Utf8Text []
  | cons {u s : List Byte} : Utf8 u → Utf8Text s → Utf8Text (u ++ s)

/-- The value of a hexadecimal digit. -/
inductive Hex : Byte → Nat → Prop
  | digit {c : Byte} : Between 0x30 0x39 c → Hex c (c.toNat - 0x30)
  | upper {c : Byte} : Between 0x41 0x46 c → Hex c (c.toNat - 0x41 + 10)
  | lower {c : Byte} : Between 0x61 0x66 c → Hex c (c.toNat - 0x61 + 10)

/-- Four hexadecimal digits. -/
inductive Hex4 : List Byte → Nat → Prop
  | mk {a b c d : Byte} {i j k l : Nat} : Hex a i → Hex b j → Hex c k → Hex d l → Hex4 [a, b, c, d] (((i * 16 + j) * 16 + k) * 16 + l)

/-- The UTF-8 form of a code point. -/
def utf8 (n : Nat) : List Byte :=
  if n < 0x80 then [BitVec.ofNat 8 n]
  else if n < 0x800 then [BitVec.ofNat 8 (0xc0 + n / 0x40), BitVec.ofNat 8 (0x80 + n % 0x40)]
  else if n < 0x10000 then [BitVec.ofNat 8 (0xe0 + n / 0x1000), BitVec.ofNat 8 (0x80 + n / 0x40 % 0x40), BitVec.ofNat 8 (0x80 + n % 0x40)]
  else [BitVec.ofNat 8 (0xf0 + n / 0x40000), BitVec.ofNat 8 (0x80 + n / 0x1000 % 0x40), BitVec.ofNat 8 (0x80 + n / 0x40 % 0x40), BitVec.ofNat 8 (0x80 + n % 0x40)]

/-- The short escapes: `"`, `\`, `/`, and `b`, `f`, `n`, `r`, `t` for control characters. -/
def shortEsc : List (Byte × Byte) :=
  [(0x22#8, 0x22#8), (0x5c#8, 0x5c#8), (0x2f#8, 0x2f#8), (0x62#8, 0x08#8), (0x66#8, 0x0c#8), (0x6e#8, 0x0a#8), (0x72#8, 0x0d#8), (0x74#8, 0x09#8)]

/-- What is between the quotes of a string, and the bytes it stands for. -/
inductive Body : List Byte → List Byte → Prop
  | nil : Body [] []
  | char {u raw s : List Byte} : Utf8 u → (∀ c ∈ u, 0x20 ≤ c.toNat ∧ c ≠ 0x22#8 ∧ c ≠ 0x5c#8) → Body raw s → Body (u ++ raw) (u ++ s)
  | esc {d v : Byte} {raw s : List Byte} : (d, v) ∈ shortEsc → Body raw s → Body (0x5c#8 :: d :: raw) (v :: s)
  | hex {h raw s : List Byte} {n : Nat} : Hex4 h n → ¬ (0xd800 ≤ n ∧ n < 0xdc00) → Body raw s → Body (0x5c#8 :: 0x75#8 :: h ++ raw) (utf8 n ++ s)
  | pair {h h' raw s : List Byte} {n m : Nat} : Hex4 h n → 0xd800 ≤ n → n < 0xdc00 → Hex4 h' m → 0xdc00 ≤ m → m < 0xe000 → Body raw s →
      Body (0x5c#8 :: 0x75#8 :: h ++ 0x5c#8 :: 0x75#8 :: h' ++ raw) (utf8 (0x10000 + (n - 0xd800) * 0x400 + (m - 0xdc00)) ++ s)

/-- Digits. -/
def Digits (l : List Byte) : Prop := l ≠ [] ∧ ∀ c ∈ l, Between 0x30 0x39 c

/-- Their value. -/
def decVal (l : List Byte) : Nat := l.foldl (fun a c => 10 * a + (c.toNat - 0x30)) 0

/-- Digits without leading zero. -/
def NatText (l : List Byte) : Prop := Digits l ∧ (l.head? = some 0x30#8 → l = [0x30#8])

/-- A number with fraction or exponent. -/
def FloatText (raw : List Byte) : Prop :=
  ∃ sign int frac exp, raw = sign ++ int ++ frac ++ exp ∧ (sign = [] ∨ sign = [0x2d#8]) ∧ NatText int ∧ (frac = [] ∨ ∃ ds, frac = 0x2e#8 :: ds ∧ Digits ds) ∧
    (exp = [] ∨ ∃ e s ds, exp = e :: s ++ ds ∧ (e = 0x65#8 ∨ e = 0x45#8) ∧ (s = [] ∨ s = [0x2b#8] ∨ s = [0x2d#8]) ∧ Digits ds) ∧ (frac ≠ [] ∨ exp ≠ [])

/-! The texts of values. `strtod` is the function of the C library, `none` for numbers that are too large. Integers have absolute values below 2^63. -/
mutual
inductive Val (strtod : List Byte → Option (BitVec 64)) : List Byte → J → Prop
  | null : Val strtod [0x6e#8, 0x75#8, 0x6c#8, 0x6c#8] .null
  | tru : Val strtod [0x74#8, 0x72#8, 0x75#8, 0x65#8] (.bool true)
  | fls : Val strtod [0x66#8, 0x61#8, 0x6c#8, 0x73#8, 0x65#8] (.bool false)
  | nat {l : List Byte} : NatText l → decVal l < 2 ^ 63 → Val strtod l (.int (BitVec.ofInt 64 (decVal l)))
  | neg {l : List Byte} : NatText l → decVal l < 2 ^ 63 → Val strtod (0x2d#8 :: l) (.int (BitVec.ofInt 64 (-decVal l)))
  | dbl {l : List Byte} {v : BitVec 64} : FloatText l → strtod l = some v → Val strtod l (.dbl v)
  | str {raw s : List Byte} : Body raw s → Val strtod (0x22#8 :: raw ++ [0x22#8]) (.str s)
  | arr0 {g : List Byte} : Gap g → Val strtod (0x5b#8 :: g ++ [0x5d#8]) (.arr .nil)
  | arr {t : List Byte} {a : JArr} : Items strtod t a → Val strtod (0x5b#8 :: t ++ [0x5d#8]) (.arr a)
  | obj0 {g : List Byte} : Gap g → Val strtod (0x7b#8 :: g ++ [0x7d#8]) (.obj .nil)
  | obj {t : List Byte} {m : JObj} : Members strtod t m → Val strtod (0x7b#8 :: t ++ [0x7d#8]) (.obj m)
inductive Items (strtod : List Byte → Option (BitVec 64)) : List Byte → JArr → Prop
  | one {g t g' : List Byte} {j : J} : Gap g → Val strtod t j → Gap g' → Items strtod (g ++ t ++ g') (.cons j .nil)
  | more {g t g' r : List Byte} {j : J} {a : JArr} : Gap g → Val strtod t j → Gap g' → Items strtod r a → Items strtod (g ++ t ++ g' ++ 0x2c#8 :: r) (.cons j a)
inductive Members (strtod : List Byte → Option (BitVec 64)) : List Byte → JObj → Prop
  | one {g raw k g1 g2 t g' : List Byte} {j : J} : Gap g → Body raw k → Gap g1 → Gap g2 → Val strtod t j → Gap g' →
      Members strtod (g ++ 0x22#8 :: raw ++ 0x22#8 :: g1 ++ 0x3a#8 :: g2 ++ t ++ g') (.cons k j .nil)
  | more {g raw k g1 g2 t g' r : List Byte} {j : J} {m : JObj} : Gap g → Body raw k → Gap g1 → Gap g2 → Val strtod t j → Gap g' → Members strtod r m →
      Members strtod (g ++ 0x22#8 :: raw ++ 0x22#8 :: g1 ++ 0x3a#8 :: g2 ++ t ++ g' ++ 0x2c#8 :: r) (.cons k j m)
end

/-- A JSON text: a value with white space and comments around it; at the end there may be a comment without end of line. -/
def Text (strtod : List Byte → Option (BitVec 64)) (txt : List Byte) (j : J) : Prop :=
  ∃ g t g' e, txt = g ++ t ++ g' ++ e ∧ Gap g ∧ Val strtod t j ∧ Gap g' ∧ (e = [] ∨ ∃ l, e = 0x2f#8 :: 0x2f#8 :: l ∧ 0x0a#8 ∉ l)

/-- A value followed by a comment without end, or by a string without end. -/
def Cut (strtod : List Byte → Option (BitVec 64)) (txt : List Byte) (j : J) : Prop :=
  ∃ g t g' u, txt = g ++ t ++ g' ++ u ∧ Gap g ∧ Val strtod t j ∧ Gap g' ∧
    ((∃ l, u = 0x2f#8 :: 0x2a#8 :: l ∧ ¬ [0x2a#8, 0x2f#8] <:+: l) ∨ ∃ l, u = 0x22#8 :: l ∧ ∀ b s r, Body b s → l ≠ b ++ 0x22#8 :: r)

/-- Every `\uD800` to `\uDBFF` is followed by one of `\uDC00` to `\uDFFF`. -/
def Paired (txt : List Byte) : Prop :=
  ∀ a h b n, txt = a ++ 0x5c#8 :: 0x75#8 :: h ++ b → Hex4 h n → 0xd800 ≤ n → n < 0xdc00 → ∃ h' m b', b = 0x5c#8 :: 0x75#8 :: h' ++ b' ∧ Hex4 h' m ∧ 0xdc00 ≤ m ∧ m < 0xe000

/-! A value with its doubles changed, for example by printing with six decimals. -/
mutual
def withDbl (f : Word → Word) : J → J
  | .dbl v => .dbl (f v)
  | .arr a => .arr (withDblArr f a)
  | .obj m => .obj (withDblObj f m)
  | .null => .null
  | .bool b => .bool b
  | .int v => .int v
  | .str s => .str s
def withDblArr (f : Word → Word) : JArr → JArr
  | .nil => .nil
  | .cons v a => .cons (withDbl f v) (withDblArr f a)
def withDblObj (f : Word → Word) : JObj → JObj
  | .nil => .nil
  | .cons k v m => .cons k (withDbl f v) (withDblObj f m)
end

/-! What can be printed and read again: strings and keys are UTF-8, no integer is -2^63, doubles are printed as numbers with fraction or exponent (not as `inf` or `nan`) that
strtod reads as `f v`, and there is no null, true or false. -/
mutual
def Printable (strtod : List Byte → Option Word) (fmt : Word → List Byte) (f : Word → Word) : J → Prop
  | .null => False
  | .bool _ => False
  | .int v => v.toInt ≠ -2 ^ 63
  | .dbl v => FloatText (fmt v) ∧ strtod (fmt v) = some (f v)
  | .str s => Utf8Text s
  | .arr a => PrintableArr strtod fmt f a
  | .obj m => PrintableObj strtod fmt f m
def PrintableArr (strtod : List Byte → Option Word) (fmt : Word → List Byte) (f : Word → Word) : JArr → Prop
  | .nil => True
  | .cons v a => Printable strtod fmt f v ∧ PrintableArr strtod fmt f a
def PrintableObj (strtod : List Byte → Option Word) (fmt : Word → List Byte) (f : Word → Word) : JObj → Prop
  | .nil => True
  | .cons k v m => Utf8Text k ∧ Printable strtod fmt f v ∧ PrintableObj strtod fmt f m
end

end WG.Yajl
