import Verif.Compare.Model
/-!
# Specification of the value order

Independently of `wg_compare`: every value has a type code and a payload (a list of integers compared
lexicographically); records are compared by length and then field by field, down to a given depth.
-/
namespace WG

/-- Ordering as the C result code (WG_LESSTHAN, WG_EQUAL, WG_GREATER; Db/dbcompare.h lines 41-43). -/
def ordInt : Ordering → Int
  | .lt => -1
  | .eq => 0
  | .gt => 1

def byteInts (l : List (BitVec 8)) : List Int := l.map (fun b => (b.toNat : Int))

/-- The decoded content of a value that is not a record. For URIs and XML literals the prefix or type comes first,
closed by a 0 (a missing one counts as empty). -/
def payload (R : Reader) (w : Word) : List Int :=
  match R.typ w with
  | none | some .null | some .record => []
  | some .int => [(R.int w).toInt]
  | some .double => [dblKey (R.dbl w)]
  | some .str => byteInts (R.str w)
  | some .xmlliteral | some .uri => byteInts ((R.lang w).getD []) ++ 0 :: byteInts (R.str w)
  | some .blob => byteInts (R.blob w)
  | some .char => if decodeChar w = 0#8 then [] else [((decodeChar w).toNat : Int)]
  | some .fixpoint => [((decodeFixpoint w).getD 0#64).toInt]
  | some .date => [((decodeDate w).getD 0#32).toInt]
  | some .time => [((decodeTime w).getD 0#32).toInt]
  | some .anonconst => [w.toInt]
  | some .var => [((decodeVar w).getD (-1#64)).toInt]

def isRec (R : Reader) (w : Word) : Bool := R.typ w == some .record

/-- Address of a record, 0 for other values. -/
def addrKey (R : Reader) (w : Word) : Int := if isRec R w then w.toInt else 0
def lenKey (R : Reader) (w : Word) : Int := if isRec R w then R.len w else 0
def fieldsKey (R : Reader) (w : Word) : List Word := if isRec R w then R.fields w else []

/-- The order at nesting depth `d`. -/
def specCmp (R : Reader) : Nat → Word → Word → Ordering
  | 0 => compareLex (compareOn (typeCode R)) (compareLex (compareOn (payload R)) (compareOn (addrKey R)))
  | d + 1 => compareLex (compareOn (typeCode R)) (compareLex (compareOn (payload R))
      (compareLex (compareOn (lenKey R)) (fun a b => List.compareLex (specCmp R d) (fieldsKey R a) (fieldsKey R b))))

/-- A set of values that can be ordered: values that need no memory are determined by type and payload; no NaN; strings have no 0 byte;
closed under taking fields of records. -/
structure Ordered (R : Reader) (V : Word → Prop) : Prop where
  typ : ∀ w, V w → ∃ t, R.typ w = some t
  imm : ∀ a b t, V a → V b → R.typ a = some t → R.typ b = some t →
    (t = .null ∨ t = .fixpoint ∨ t = .date ∨ t = .time ∨ t = .var) → payload R a = payload R b → a = b
  noNaN : ∀ w, V w → R.typ w = some .double → isNaN (R.dbl w) = false
  lang : ∀ w, V w → 0#8 ∉ (R.lang w).getD []
  blob : ∀ w, V w → R.typ w = some .blob → (R.blob w).length = R.blobLen w
  len : ∀ w, V w → R.typ w = some .record → (R.fields w).length = (R.len w).toNat
  closed : ∀ w, V w → R.typ w = some .record → ∀ f ∈ R.fields w, V f

/-- IEEE 754 binary64: the magnitude of the number with bits `m` (sign bit cleared), in units of 2^-1074: a
subnormal number is its fraction; a normal one is 1.fraction times 2^(exponent-1). The pattern of infinity gives
2^2098, above all finite numbers. -/
def ieeeMag (m : Nat) : Nat :=
  let e := m / 2^52
  let f := m % 2^52
  if e = 0 then f else (2^52 + f) * 2^(e - 1)

/-- The number denoted by a double pattern, in units of 2^-1074. -/
def ieeeValue (d : Word) : Int :=
  if d.toNat ≥ 2^63 then -(ieeeMag (d.toNat - 2^63) : Int) else (ieeeMag d.toNat : Int)

/-- A set of values of the database: well-formed values, no NaN, and closed under taking fields of records.
Records may refer to each other in any way, also cyclically. -/
structure ValueSet (s : Seg) (V : Word → Prop) : Prop where
  valid : ∀ w, V w → ∃ d : Datum, d.Valid s.mem ∧ w = d.encode
  noNaN : ∀ w, V w → ∀ x, decodeDouble s.mem w = some x → isNaN x = false
  closed : ∀ w, V w → isRec s w = true → ∀ f ∈ recFields s w, V f

/-- Same decoded content, by the decoding functions only: same type; equal decoded integers, dates, ...; equal
strings (ignoring the language of plain strings); records with equal length and pairwise same fields. -/
inductive SameContent (s : Seg) : Word → Word → Prop
  | refl (a : Word) : SameContent s a a
  | int (a b : Word) (v : Word) : getEncodedType s.mem a = some .int → getEncodedType s.mem b = some .int →
      decodeInt s.mem a = some v → decodeInt s.mem b = some v → SameContent s a b
  /-- equal as numbers (0.0 and -0.0 are) -/
  | double (a b x y : Word) : getEncodedType s.mem a = some .double → getEncodedType s.mem b = some .double →
      decodeDouble s.mem a = some x → decodeDouble s.mem b = some y → dblEq x y = true → SameContent s a b
  | str (a b : Word) (l : List (BitVec 8)) : getEncodedType s.mem a = some .str → getEncodedType s.mem b = some .str →
      decodeUnistr s a = some l → decodeUnistr s b = some l → SameContent s a b
  | ext (a b : Word) (t : WType) (l : List (BitVec 8)) : t = .uri ∨ t = .xmlliteral →
      getEncodedType s.mem a = some t → getEncodedType s.mem b = some t →
      decodeUnistr s a = some l → decodeUnistr s b = some l →
      (decodeUnistrLang s a).getD [] = (decodeUnistrLang s b).getD [] → SameContent s a b
  | blob (a b : Word) : getEncodedType s.mem a = some .blob → getEncodedType s.mem b = some .blob →
      decodeBlob s a = decodeBlob s b → SameContent s a b
  | record (a b : Word) : getEncodedType s.mem a = some .record → getEncodedType s.mem b = some .record →
      List.Forall₂ (SameContent s) (recFields s a) (recFields s b) → SameContent s a b

end WG
