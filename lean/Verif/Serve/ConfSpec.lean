import Verif.Serve.Conf

/-!
# The server: what a configuration file says
-/
namespace WG.Serve.Spec
open WG.Csv (Str Byte asc)
open WG.Serve (Lists Conf)

/-- The lines of a configuration file. -/
inductive Line
  /-- `# text` -/
  | comment (t : Str)
  /-- `[ text` -/
  | heading (t : Str)
  /-- nothing, or carriage returns -/
  | empty (t : Str)
  /-- spaces, maybe a comment -/
  | spaces (w t : Str)
  /-- `key = value`; the value may be missing; `w1`, `w2` are spaces, `t` is what follows the value -/
  | define (key w1 w2 value t : Str)
  /-- a line that starts with spaces and has one more value for the last key -/
  | more (w value t : Str)

/-- The text of a line. -/
def Line.text : Line → Str
  | .comment t => asc "#" ++ t
  | .heading t => asc "[" ++ t
  | .empty t => t
  | .spaces w t => w ++ t
  | .define key w1 w2 value t => key ++ w1 ++ asc "=" ++ w2 ++ value ++ t
  | .more w value t => w ++ value ++ t

/-- Space, tab or carriage return. -/
def Space (c : Byte) : Prop := c = 32#8 ∨ c = 9#8 ∨ c = 13#8

/-- A byte of a value: no white space, no `#`, no 0. -/
def ValueByte (c : Byte) : Prop := ¬ (9 ≤ c.toNat ∧ c.toNat ≤ 13) ∧ c ≠ 32#8 ∧ c ≠ 35#8 ∧ c ≠ 0#8

/-- A byte of a key: no space, no `=`, no 0. -/
def KeyByte (c : Byte) : Prop := ¬ (9 ≤ c.toNat ∧ c.toNat ≤ 13) ∧ c ≠ 32#8 ∧ c ≠ 61#8 ∧ c ≠ 0#8

/-- What may follow a value: nothing, or a space or `#` and any text. -/
def Tail (t : Str) : Prop := 10#8 ∉ t ∧ ∀ c r, t = c :: r → c = 35#8 ∨ Space c

/-- Lines as they should be. -/
def Line.Ok : Line → Prop
  | .comment t => 10#8 ∉ t
  | .heading t => 10#8 ∉ t
  | .empty t => ∀ c ∈ t, c = 13#8
  | .spaces w t => (∃ c r, w = c :: r ∧ c ≠ 13#8) ∧ (∀ c ∈ w, Space c) ∧ 10#8 ∉ t ∧ (t = [] ∨ ∃ r, t = 35#8 :: r)
  | .define key w1 w2 value t => (∃ c r, key = c :: r ∧ c ≠ 35#8 ∧ c ≠ 91#8) ∧ (∀ c ∈ key, KeyByte c) ∧ (∀ c ∈ w1, Space c) ∧ (∀ c ∈ w2, Space c) ∧ (∀ c ∈ value, ValueByte c) ∧
      Tail t ∧ (value = [] → t = [] ∨ ∃ r, t = 35#8 :: r)
  | .more w value t => (∃ c r, w = c :: r ∧ c ≠ 13#8) ∧ (∀ c ∈ w, Space c) ∧ value ≠ [] ∧ (∀ c ∈ value, ValueByte c) ∧ Tail t

/-- The text of a file. -/
def fileText (ls : List Line) : Str := ls.flatMap fun l => l.text ++ [10#8]

/-- The values that the lines give to keys, in order; `key` is the last key defined before. Values before the first key belong to none. -/
def pairs : Option Str → List Line → List (Str × Str)
  | _, [] => []
  | _, .define k _ _ v _ :: ls => if v = [] then pairs (some k) ls else (k, v) :: pairs (some k) ls
  | some k, .more _ v _ :: ls => (k, v) :: pairs (some k) ls
  | key, _ :: ls => pairs key ls

/-- The values of a key. -/
def valuesOf (ps : List (Str × Str)) (k : Str) : List Str := (ps.filter fun p => p.1 = k).map (·.2)

/-- The keys that a file may give values to, as in Server/conf_example.txt lines 28-87. -/
def knownKeys : List String :=
  ["default_dbase", "default_dbase_size", "max_dbase_size", "dbases", "admin_ips", "write_ips", "read_ips", "admin_tokens", "write_tokens", "read_tokens", "key_file", "cert_file"]

/-- The key is known. -/
def Known (k : Str) : Prop := ∃ n ∈ knownKeys, k = asc n

/-- The limits that the values say. -/
def said (ps : List (Str × Str)) : Conf :=
  let v := fun n => valuesOf ps (asc n)
  { defaultDb := v "default_dbase", defaultSize := v "default_dbase_size", maxSize := v "max_dbase_size", dbases := v "dbases",
    adminIps := v "admin_ips", writeIps := v "write_ips", readIps := v "read_ips",
    adminTokens := v "admin_tokens", writeTokens := v "write_tokens", readTokens := v "read_tokens" }

end WG.Serve.Spec
