import Verif.Attach.Spec
import Verif.Csv.Model

/-!
# Requests as a client sends them
-/
namespace WG.Serve.Http
open WG.Csv (Str Byte asc)

/-- A text without spaces, ends of lines and 0 bytes. -/
def Word (w : Str) : Prop := ∀ c ∈ w, c ≠ 32#8 ∧ c ≠ 10#8 ∧ c ≠ 0#8

/-- A line without its end. -/
def OneLine (l : Str) : Prop := 10#8 ∉ l

/-- The first line of a request. -/
def firstLine (method uri version : Str) : Str := method ++ 32#8 :: (uri ++ 32#8 :: (version ++ [10#8]))

/-- A line of the header of a request that is neither empty nor about the length of the data. -/
structure Other (l : Str) : Prop where
  one : OneLine l
  zero : 0#8 ∉ l
  full : l ≠ [] ∧ l.head? ≠ some 13#8
  other : ¬ asc "Content-Length:" <+: l ∧ ¬ asc "content-length:" <+: l

/-- The line with the length of the data. -/
def lengthLine (digits : Str) : Str := asc "Content-Length: " ++ digits ++ asc "\r\n"

/-- Lines with their ends. -/
def lines : List Str → Str
  | [] => []
  | l :: r => l ++ 10#8 :: lines r

end WG.Serve.Http
