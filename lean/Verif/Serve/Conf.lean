import Verif.Serve.Auth
import Verif.Attach.Model

/-!
# The server: the configuration file

load_configuration, add_conf_key_val, add_slval and empty_str of Server/dserve_util.c. The text between `bp` and the end of the file is a list of bytes; `junk` is the byte of the buffer behind
the file, which was never written, and `room` the number of bytes of the buffer from there on. Zeros are written into the buffer only before the place from which the rest of the file is
read, so keys and values are copied here when they are found. Simplifications: malloc and realloc succeed; a list may have any length (a file that is read has fewer than 512000 bytes, a list
takes 524288 values, lines 792-793).
-/
namespace WG.Serve
open WG.Csv (Str Byte asc)

/-- The keys, Server/dserve.h lines 278-289. -/
def confKeys : List Str :=
  [asc "default_dbase", asc "default_dbase_size", asc "max_dbase_size", asc "dbases", asc "admin_ips", asc "write_ips", asc "read_ips", asc "admin_tokens", asc "write_tokens",
    asc "read_tokens", asc "key_file", asc "cert_file"]

/-- The lists of values: one for each key. -/
abbrev Lists := Str → List Str

/-- The lists that the server reads, as in `Auth`. -/
def toConf (c : Lists) : Conf where
  defaultDb := c (asc "default_dbase")
  defaultSize := c (asc "default_dbase_size")
  maxSize := c (asc "max_dbase_size")
  dbases := c (asc "dbases")
  adminIps := c (asc "admin_ips")
  writeIps := c (asc "write_ips")
  readIps := c (asc "read_ips")
  adminTokens := c (asc "admin_tokens")
  writeTokens := c (asc "write_tokens")
  readTokens := c (asc "read_tokens")

/-- empty_str, Server/dserve_util.c lines 751-758. -/
def emptyStr (s : Str) : Bool := s.all Attach.isSpace

/-- add_conf_key_val, Server/dserve_util.c lines 760-775, with add_slval, lines 777-802: `none` for an unknown key. -/
def addKeyVal (c : Lists) (key val : Str) : Option Lists :=
  if emptyStr val = true then some c
  else if key ∈ confKeys then some fun k => if k = key then c k ++ [val] else c k
  else none

/-- The C string in these bytes: up to a 0. -/
def upTo0 (s : Str) : Str := s.takeWhile (· ≠ 0#8)

/-- Space, tab, carriage return: Server/dserve_util.c lines 699, 723, 727. -/
def blank (c : Byte) : Bool := c = 32#8 || c = 9#8 || c = 13#8

/-- The end of a value: Server/dserve_util.c lines 704, 729. -/
def stops (c : Byte) : Bool := c = 10#8 || c = 35#8 || blank c

/-- `*p`, which is behind the file if nothing is left. -/
def peek (junk : Byte) (s : Str) : Byte := s.headD junk

/-- The rest of the file from the end of the line on. -/
def toNl (s : Str) : Str := s.dropWhile (· ≠ 10#8)

/-- Lines 705-706 and 730-731, Server/dserve_util.c: where to go on after a value; `s` is the text from `bp3` on. -/
def afterVal (junk : Byte) (s : Str) : Str := if peek junk s = 10#8 then s.drop 1 else toNl s

/-- What a row does: the new key, a value for a key, the rest of the file. -/
structure Row where
  key : Option Str
  add : Option (Str × Str)
  rest : Str

/-- A row that starts with a space or a tab, Server/dserve_util.c lines 696-713. `none`: an access behind the buffer. -/
def spaceRow (junk : Byte) (room : Nat) (key : Option Str) (s : Str) : Option Row :=
  let s2 := s.dropWhile blank
  let add := fun v => key.bind fun k => if emptyStr k = true then none else some (k, v)
  if peek junk s2 = 35#8 then some ⟨key, none, toNl s2⟩
  else if peek junk s2 = 10#8 then some ⟨key, none, s2⟩
  else match s2 with
    | [] => if room ≤ 1 then none else some ⟨key, add (upTo0 [junk]), []⟩
    | c :: t => some ⟨key, add (upTo0 (c :: t.takeWhile fun b => !stops b)), afterVal junk (t.dropWhile fun b => !stops b)⟩

/-- Server/dserve_util.c line 723: spaces at the end of the key are removed, but not its first byte. -/
def trimKey : Str → Str
  | [] => []
  | c :: t => c :: (t.reverse.dropWhile blank).reverse

/-- A row that starts otherwise, Server/dserve_util.c lines 717-739. -/
def keyRow (junk : Byte) (room : Nat) (key : Option Str) (s : Str) : Option Row :=
  let s2 := s.dropWhile fun b => b ≠ 10#8 && b ≠ 61#8
  if peek junk s2 = 61#8 then
    let k := upTo0 (trimKey (s.takeWhile fun b => b ≠ 10#8 && b ≠ 61#8))
    match s2 with
    | [] => if room ≤ 1 then none else some ⟨some k, some (k, []), []⟩
    | _ :: t =>
      let v := t.dropWhile blank
      some ⟨some k, some (k, upTo0 (v.takeWhile fun b => !stops b)), afterVal junk (v.dropWhile fun b => !stops b)⟩
  else some ⟨key, none, s2⟩

/-- One row, Server/dserve_util.c lines 696-743. -/
def confRow (junk : Byte) (room : Nat) (key : Option Str) (s : Str) : Option Row :=
  if peek junk s = 32#8 ∨ peek junk s = 9#8 then spaceRow junk room key s
  else if peek junk s = 91#8 then some ⟨key, none, toNl s⟩
  else if peek junk s ≠ 35#8 then keyRow junk room key s
  else some ⟨key, none, toNl s⟩

/-- What load_configuration does: an access outside of the buffer or to one that was freed, an exit of the program, a return code. -/
inductive Load
  | bad | exit | code (n : Nat) (c : Lists)

/-- The loop over the rows, Server/dserve_util.c lines 693-747. -/
def confLoop (junk : Byte) (room : Nat) : Nat → Option Str → Lists → Str → Load
  | 0, _, _, _ => .bad
  | n + 1, key, c, s =>
    if s = [] then .code 0 c
    else match confRow junk room key s with
      | none => .bad
      | some r => match (match r.add with | none => some c | some kv => addKeyVal c kv.1 kv.2) with
        | none => .exit
        | some c => confLoop junk room n r.key c (r.rest.dropWhile fun b => b = 13#8 || b = 10#8)

/-- The size of the buffer, Server/dserve_util.c lines 660 and 672-688: `k` tries are left. `none`: the tries are used up and the buffer was freed (MAX_CONF_BUF_SIZE is never
reached). -/
def confSize : Nat → Nat → Nat → Option Nat
  | 0, _, _ => none
  | k + 1, size, n => if size ≤ n then confSize k (size * 2) n else some size

/-- load_configuration, Server/dserve_util.c lines 657-749, for a file that can be opened and read. -/
def loadConf (junk : Byte) (c : Lists) (file : Str) : Load :=
  if file = [] then .code 3 c
  else match confSize 10 1000 file.length with
    | none => .bad
    | some size => confLoop junk (size - file.length) (file.length + 1) none c file

end WG.Serve
