import Verif.Serve.Search

/-!
# The server: which records a request asks for
-/
namespace WG.Serve.Spec
open WG.Csv (Str)
open WG.Recs
open WG.Serve (Opcode)

variable {ι : Type}

/-- At most `c` records of the list, from position `f` on. -/
def page (f c : Nat) (L : List Word) : List Word := (L.drop f).take c

/-- The parameter `from` asks for records from position `f` on. -/
def FromIs (p : Option Str) (f : Nat) : Prop := (p = none ∧ f = 0) ∨ (p = some (Json.digits f) ∧ f < 2 ^ 31)

/-- The parameter `count` asks for at most `c` records. Without it there are at most 100000, and all are counted. -/
def CountIs (op : Opcode) (p : Option Str) (c : Nat) : Prop :=
  (p = none ∧ c = if op = .count then 2 ^ 63 - 1 else 100000) ∨ (p = some (Json.digits c) ∧ c < 2 ^ 31)

/-- Record numbers with commas between them. -/
def idsText (ns : List Nat) : Str := [44#8].intercalate (ns.map Json.digits)

/-- What a deletion of the records `P` may do to the database: `gone` are the records deleted. Every other record keeps its fields, and one of `P` stays only if a record refers to it. -/
structure Deleted (T T' : Table) (P gone : List Word) : Prop where
  among : List.Sublist gone P
  now : ∀ r ∈ gone, T' r = none
  rest : ∀ r, r ∉ gone → T' r = T r
  kept : ∀ r ∈ P, r ∉ gone → T.Refers r

end WG.Serve.Spec
