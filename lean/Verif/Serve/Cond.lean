import Verif.Serve.Search
import Verif.Serve.Auth
import Verif.Query.Props

/-!
# The server: the conditions of a request

search of Server/dserve.c, from the parameters `field`, `compare`, `type`, `value` to the arguments of the query, with encode_incomp, encode_intype, encode_invalue, isint and isdbl of
Server/dserve_util.c. Parameters that are missing are `none` (NULL).
-/
namespace WG.Serve
open WG.Csv (Str Byte asc)

/-- The values of the parameter, in order: Server/dserve.c lines 615-622. -/
def collect (k : String) (ps : Params) : List Str := (ps.filter fun p => p.1 = asc k).map (·.2)

/-- The ways to search, Server/dserve.c lines 648-659. -/
inductive Kind
  | scan | ids | fields
deriving DecidableEq

/-- Server/dserve.c lines 648-659: `none` for an error. -/
def searchKind (ps : Params) : Option Kind :=
  if collect "recids" ps ≠ [] then
    if collect "field" ps ≠ [] then none else some .ids
  else if collect "field" ps = [] then
    if collect "value" ps ≠ [] ∨ collect "compare" ps ≠ [] ∨ collect "type" ps ≠ [] then none else some .scan
  else some .fields

/-- encode_incomp, Server/dserve_util.c lines 45-54: `none` for BAD_WG_VALUE. The test for an empty text in line 46 compares the pointer, so it never holds. -/
def encodeIncomp : Option Str → Option Query.Cond
  | none => some .equal
  | some s =>
    if s = asc "equal" then some .equal
    else if s = asc "not_equal" then some .notEqual
    else if s = asc "lessthan" then some .lessThan
    else if s = asc "greater" then some .greater
    else if s = asc "ltequal" then some .ltEqual
    else if s = asc "gtequal" then some .gtEqual
    else none

/-- The types that a request can name; `guess` is 0. -/
inductive InType
  | guess | null | int | record | double | str | char
deriving DecidableEq

/-- encode_intype, Server/dserve_util.c lines 56-65: `none` for BAD_WG_VALUE. -/
def encodeIntype : Option Str → Option InType
  | none => some .guess
  | some s =>
    if s = asc "null" then some .null
    else if s = asc "int" then some .int
    else if s = asc "record" then some .record
    else if s = asc "double" then some .double
    else if s = asc "str" then some .str
    else if s = asc "char" then some .char
    else none

/-- isint, Server/dserve_util.c lines 163-170. -/
def isint (s : Str) : Bool := s.all Attach.isDigit

/-- isdbl, Server/dserve_util.c lines 176-188: `c` periods were met. -/
def isdblFrom (c : Nat) : Str → Bool
  | [] => true
  | b :: s => if Attach.isDigit b then isdblFrom c s else if b = 46#8 then (if 1 < c + 1 then false else isdblFrom (c + 1) s) else false

def isdbl (s : Str) : Bool := isdblFrom 0 s

/-- What is given to wg_encode_query_param_*: for a double the text that `strtod` reads; for a record the encoded value itself. -/
inductive PVal
  | null | int (i : Int) | record (i : Int) | dbl (s : Str) | str (s : Str) | char (c : Byte)
deriving DecidableEq

/-- encode_invalue, Server/dserve_util.c lines 67-94: `none` for WG_ILLEGAL. -/
def encodeInvalue (value : Option Str) (t : InType) : Option PVal := value.bind fun s =>
  if t = .null then some .null
  else if t = .int then if isint s then some (.int (atoi s)) else none
  else if t = .record then if isint s then some (.record (atoi s)) else none
  else if t = .double then if isdbl s then some (.dbl s) else none
  else if t = .str then some (.str s)
  else if t = .char then some (.char (s.headD 0#8))
  else if isint s then some (.int (atoi s))
  else if isdbl s then some (.dbl s)
  else some (.str s)

/-- One turn of the loop in Server/dserve.c lines 750-766: the column, the condition and the value, `none` for an error. -/
def condArg (field : Str) (compare type value : Option Str) : Option (Query.Arg PVal) :=
  if isint field = true ∧ 0 ≤ atoi field then
    (encodeIncomp compare).bind fun c => (encodeIntype type).bind fun t => (encodeInvalue value t).map fun v => ⟨(atoi field).toNat, c, v⟩
  else none

/-- The loop in Server/dserve.c lines 750-766, from condition `i` on. -/
def condArgs (compares types values : List Str) : Nat → List Str → Option (List (Query.Arg PVal))
  | _, [] => some []
  | i, f :: fs => (condArg f compares[i]? types[i]? values[i]?).bind fun a => (condArgs compares types values (i + 1) fs).map (a :: ·)

/-- The arguments of the query for the parameters of a request. -/
def queryArgs (ps : Params) : Option (List (Query.Arg PVal)) :=
  condArgs (collect "compare" ps) (collect "type" ps) (collect "value" ps) 0 (collect "field" ps)

/-- Server/dserve.c lines 750-770: the query, where `enc` is wg_encode_query_param_*. -/
def condQuery {κ : Type} [DecidableEq κ] (db : Query.DB κ) (enc : PVal → κ) (k : Nat) (ps : Params) : Option (Query.Query κ) :=
  (queryArgs ps).bind fun al => Query.makeQuery db k none (some (al.map fun a => ⟨a.col, a.cond, enc a.value⟩)) 0

end WG.Serve
