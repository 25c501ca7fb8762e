import Verif.Encoding.Model

/-!
# Objects of several databases in one process
-/
namespace WG.Ext
open WG

/-- The kinds of objects that encoded values refer to. -/
inductive Kind
  | record | longstr | shortstr | double | int
deriving DecidableEq

/-- The tag in the low bits of a reference, Db/dbdata.h lines 320-345. -/
def Kind.tag : Kind → Word
  | .record => 0#64 | .int => 1#64 | .double => 2#64 | .longstr => 4#64 | .shortstr => 6#64

/-- `v`, used in the database that begins at address `base`, refers to the object of kind `k` at address `a`. -/
def Refers (base v : Word) (k : Kind) (a : Word) : Prop :=
  (a.toNat + 2 ^ 64 - base.toNat) % 8 = 0 ∧ a ≠ base ∧ v = (a - base) ||| k.tag

/-- The memory of a database: where it begins, and its size. -/
structure Region where
  base : Word
  size : Word

/-- The object of 8 bytes or more at address `a` is inside of the region, behind its first byte. -/
def Region.Has (r : Region) (a : Word) : Prop := r.base.toNat < a.toNat ∧ a.toNat + 8 ≤ r.base.toNat + r.size.toNat

/-- The object is outside of the region. -/
def Region.Not (r : Region) (a : Word) : Prop := a.toNat + 8 ≤ r.base.toNat ∨ r.base.toNat + r.size.toNat ≤ a.toNat

/-- Where memory of a process may be. -/
def Region.User (r : Region) : Prop := r.base.toNat + r.size.toNat < 2 ^ 62 ∧ r.base.toNat % 8 = 0

end WG.Ext
