import Verif.Csv.Model

/-!
# The server: reading a query, the rules
-/
namespace WG.Serve.Spec
open WG.Csv (Str Byte)

/-- The query `p=v&p=v&...`, before decoding: a parameter has no `=`, a value no `&`; an `&` at the end is allowed, but then not a `=`. -/
inductive Pairs : Str → List (Str × Str) → Prop
  | nil : Pairs [] []
  | last (p v : Str) : 61#8 ∉ p → 38#8 ∉ v → v ≠ [] → Pairs (p ++ 61#8 :: v) [(p, v)]
  | cons (p v q : Str) (ps) : 61#8 ∉ p → 38#8 ∉ v → Pairs q ps → Pairs (p ++ 61#8 :: (v ++ 38#8 :: q)) ((p, v) :: ps)

/-- The value of a hexadecimal digit. -/
inductive Hex : Byte → Byte → Prop
  | digit (n : Nat) : n < 10 → Hex (BitVec.ofNat 8 (48 + n)) (BitVec.ofNat 8 n)
  | upper (n : Nat) : n < 6 → Hex (BitVec.ofNat 8 (65 + n)) (BitVec.ofNat 8 (10 + n))
  | lower (n : Nat) : n < 6 → Hex (BitVec.ofNat 8 (97 + n)) (BitVec.ofNat 8 (10 + n))

/-- Decoding of `%` and two digits, with the given digits; all else stands for itself. -/
inductive Dec (hex : Byte → Byte → Prop) : Str → Str → Prop
  | nil : Dec hex [] []
  | pct (a b x y : Byte) (s d) : hex a x → hex b y → Dec hex s d → Dec hex (37#8 :: a :: b :: s) ((16#8 * x + y) :: d)
  | plain (c : Byte) (s d) : (∀ a b x y r, c = 37#8 → s = a :: b :: r → hex a x → ¬ hex b y) → Dec hex s d → Dec hex (c :: s) (c :: d)

/-- A text as C code reads it: up to the first 0. -/
def Cut (d v : Str) : Prop := ∃ r, (d = v ++ r) ∧ 0#8 ∉ v ∧ (r = [] ∨ r.head? = some 0#8)

/-- Percent encoding with capital letters: any byte may be encoded, and `%`, `&` and `=` must be. -/
inductive Enc : Str → Str → Prop
  | nil : Enc [] []
  | plain (c : Byte) (s t) : c ≠ 37#8 → c ≠ 38#8 → c ≠ 61#8 → Enc s t → Enc (c :: s) (c :: t)
  | pct (c a b x y : Byte) (s t) : Hex a x → Hex b y → a.toNat < 97 → b.toNat < 97 → c = 16#8 * x + y → Enc s t → Enc (c :: s) (37#8 :: a :: b :: t)

/-- The query with these encoded pairs. -/
inductive Query : List (Str × Str) → Str → Prop
  | last (p v p' v') : Enc p p' → Enc v v' → v ≠ [] → Query [(p, v)] (p' ++ 61#8 :: v')
  | cons (p v p' v' ps q) : Enc p p' → Enc v v' → Query ps q → Query ((p, v) :: ps) (p' ++ 61#8 :: (v' ++ 38#8 :: q))

end WG.Serve.Spec
