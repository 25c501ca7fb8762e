import Verif.Print.Model
/-!
# The text of a value

The whole text of a value, records printed with their fields to any depth, without a limit of length; a record that contains itself has none.
-/
namespace WG.Print.Spec
open WG.Print
open WG.Csv (Str Byte asc)

variable {ρ : Type}

mutual
/-- `s` is the text of the value `v`: a value that is not a record has the text of its type; a record is `<rec address>[field,...,field]`. -/
inductive Prints (fmtF : Word → Str) (F : ρ → List (PV ρ)) : PV ρ → Str → Prop
  | leaf {l : Leaf} {s : Str} : leafText fmtF l = some s → Prints fmtF F (.leaf l) s
  | record {hex : Str} {r : ρ} {s : Str} : Fields fmtF F (F r) true s → Prints fmtF F (.record hex r) (asc "<rec " ++ hex ++ asc ">" ++ asc "[" ++ s ++ asc "]")
/-- The texts of values with commas between them; `first` is true if there is none before. -/
inductive Fields (fmtF : Word → Str) (F : ρ → List (PV ρ)) : List (PV ρ) → Bool → Str → Prop
  | nil {first : Bool} : Fields fmtF F [] first []
  | cons {v : PV ρ} {vs : List (PV ρ)} {first : Bool} {s t : Str} : Prints fmtF F v s → Fields fmtF F vs false t → Fields fmtF F (v :: vs) first ((if first then [] else asc ",") ++ s ++ t)
end

/-- The buffer holds these bytes from `off` on. -/
def Holds (b : Buf) (off : Nat) (s : Str) : Prop := ∀ i c, s[i]? = some c → b[off + i]? = some (some c)

/-- No byte is 0. -/
def Clean (s : Str) : Prop := ∀ c ∈ s, c ≠ 0#8

/-- There is a C string with this text in the buffer at `off`. -/
def CString (b : Buf) (off : Nat) (s : Str) : Prop := Holds b off (s ++ [0#8]) ∧ Clean s

/-- Nothing was changed outside of the `n` bytes from `off` on. -/
def Same (b b' : Buf) (off n : Nat) : Prop := b'.length = b.length ∧ ∀ i, (i < off ∨ off + n ≤ i) → b'[i]? = b[i]?

/-- The value has a text of C strings. -/
def Good (fmtF : Word → Str) : PV ρ → Prop
  | .leaf l => ∃ t, leafText fmtF l = some t ∧ Clean t
  | .record hex _ => Clean hex

end WG.Print.Spec
