import Verif.HashIndex.Model
import Verif.Compare.Spec
/-!
# Specification of hash indexes
-/
namespace WG.HashIndex

/-- The values under which a field is indexed: in JSON indexes an array stands for its elements. -/
def valuesOf (E : Env) (expand : Bool) (v : Word) : List Word :=
  match if expand then E.arr v else none with
  | some elems => elems
  | none => [v]

/-- All the lists of values under which a row is indexed: one value for each column. -/
def choices (E : Env) (expand : Bool) : List Word → List (List Word)
  | [] => [[]]
  | v :: vs => (valuesOf E expand v).flatMap fun x => (choices E expand vs).map (x :: ·)

/-- The byte string of a list of values: the bytes of the values with a 0 byte between them. -/
def joined : List Key → Key
  | [] => []
  | [b] => b
  | b :: l => b ++ 0#8 :: joined l

/-- Every value under which the row is indexed has bytes. -/
def Hashable (E : Env) (expand : Bool) (vs : List Word) : Prop := ∀ v ∈ vs, ∀ x ∈ valuesOf E expand v, hashable E x ≠ none

/-- The key of a list of values: their bytes, joined. -/
def keyOf (E : Env) (vs : List Word) : Key := joined (vs.map fun x => (hashable E x).getD [])

/-- The keys of a row, one for every choice of values. -/
def keysOf (E : Env) (expand : Bool) (vs : List Word) : List Key := (choices E expand vs).map (keyOf E)

/-- Histories of a hash index: `Hist ex T L` says that the table `T` results from insertions and removals of rows, and `L` are the rows that
were inserted and not removed, with the keys they had. The database may change between the calls (`E`); a row is removed with the values it was inserted
with. Insertions of rows that cannot be hashed are refused (plain index). -/
inductive Hist (ex : Bool) : Table → List (Word × List Key) → Prop
  | init (n : Nat) : Hist ex (Table.empty n) []
  | add {T L} (E : Env) (r : Word) (vs : List Word) : Hist ex T L → vs ≠ [] → Hashable E ex vs → Hist ex (addRow E ex T r vs).1 ((r, keysOf E ex vs) :: L)
  | refuse {T L} (E : Env) (r : Word) (vs : List Word) : Hist ex T L → ex = false → ¬Hashable E ex vs → Hist ex (addRow E ex T r vs).1 L
  | remove {T L} (E : Env) (r : Word) (vs : List Word) : Hist ex T L → vs ≠ [] → Hashable E ex vs → (r, keysOf E ex vs) ∈ L →
      Hist ex (removeRow E ex T r vs).1 (L.erase (r, keysOf E ex vs))

/-- Values whose key bytes determine them: integers and variable numbers fit in 32 bits, and the string of a URI or XML literal that has a prefix or type
does not begin with a byte from 1 to 14 (these are the type bytes). The other conditions hold for all values of a database. -/
structure Keyed (R : Reader) (V : Word → Prop) : Prop where
  ordered : Ordered R V
  str : ∀ w, V w → 0#8 ∉ R.str w
  fix : ∀ w, V w → R.typ w = some .fixpoint → -8000000 ≤ ((decodeFixpoint w).getD 0#64).toInt ∧ ((decodeFixpoint w).getD 0#64).toInt ≤ 8000000
  int : ∀ w, V w → R.typ w = some .int → -2 ^ 31 ≤ (R.int w).toInt ∧ (R.int w).toInt < 2 ^ 31
  var : ∀ w, V w → R.typ w = some .var → -2 ^ 31 ≤ ((decodeVar w).getD (-1#64)).toInt ∧ ((decodeVar w).getD (-1#64)).toInt < 2 ^ 31
  ext : ∀ w, V w → R.typ w = some .uri ∨ R.typ w = some .xmlliteral → R.lang w ≠ none → ∀ b l, R.str w = b :: l → 14 < b.toNat

/-- Values that have the same key bytes when they are equal: no -0.0, no empty prefix or type, and no records (only their addresses are hashed) -/
structure Canon (R : Reader) (w : Word) : Prop where
  dbl : R.typ w = some .double → R.dbl w ≠ 0x8000000000000000#64
  ext : R.lang w ≠ some []
  rcd : R.typ w ≠ some .record

end WG.HashIndex
