import Verif.Param.Mem
/-!
# Specification of query parameters

The memory of the process is a segment of 2^64 bytes; the database is some part of it.
-/
namespace WG.Param

/-- The memory of the process. -/
abbrev proc (m : Mem) : Seg := ⟨m, 2 ^ 64⟩

/-- The bytes of the block of `n` bytes at `o`. -/
def InBlock (o : Word) (n : Nat) (a : Word) : Prop := o.toNat ≤ a.toNat ∧ a.toNat < o.toNat + n

/-- Two memories have the same bytes at the places `A`. -/
def Agree (A : Word → Prop) (m m' : Mem) : Prop := ∀ a, A a → (proc m').byte a = (proc m).byte a

/-- The value `w` reads the same in `m` and in `m'`, through all decoding functions that apply to it. -/
structure SameRead (m m' : Mem) (w : Word) : Prop where
  typ : getEncodedType m' w = getEncodedType m w
  int : decodeInt m' w = decodeInt m w
  dbl : decodeDouble m' w = decodeDouble m w
  str : decodeUnistr (proc m') w = decodeUnistr (proc m) w
  ext : decodeUnistrLang (proc m') w = decodeUnistrLang (proc m) w
  blob : getEncodedType m w = some .blob → decodeBlobLen (proc m') w = decodeBlobLen (proc m) w ∧ decodeBlob (proc m') w = decodeBlob (proc m) w
  rcd : getEncodedType m w = some .record → recordLen (proc m') w = recordLen (proc m) w ∧ recFields (proc m') w = recFields (proc m) w

/-- Reading the value `w` needs only the bytes at the places `A`. -/
def Within (A : Word → Prop) (m : Mem) (w : Word) : Prop := ∀ m', Agree A m m' → SameRead m m' w

/-- What malloc promises while the places `A` are in use: blocks are aligned, do not pass the end of memory, and contain no place in use. -/
def Allocates (A : Word → Prop) (malloc : Nat → Option Word) : Prop :=
  ∀ n o, malloc n = some o → Aligned o ∧ o.toNat + n ≤ 2 ^ 64 ∧ ∀ a, InBlock o n a → ¬ A a

/-- `w` is a value of type `t` in the block of `n` bytes at `o`: only this block was written and reading `w` needs only this block; it is well-formed; releasing it gives the block
to `free`. -/
structure Encoded (m m' : Mem) (w o : Word) (n : Nat) (t : WType) : Prop where
  writes : Agree (fun a => ¬ InBlock o n a) m m'
  own : Within (InBlock o n) m' w
  typ : getEncodedType m' w = some t
  valid : ∃ d : Datum, d.Valid m' ∧ w = d.encode
  free : freeParam w = some o

end WG.Param
