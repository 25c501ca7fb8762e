import Verif.Json.Model
import Verif.Schema.Spec
import Verif.Records.Hist
/-! # JSON texts, and what it means that a value of the database is a JSON value -/
namespace WG.Json
open WG.Recs

/-! A JSON value; integers are 64 bit words, doubles bit patterns, strings bytes. -/
mutual
inductive J
  | null | bool (b : Bool) | int (v : Word) | dbl (v : Word) | str (s : List Byte) | arr (l : JArr) | obj (m : JObj)
inductive JArr
  | nil | cons (v : J) (l : JArr)
inductive JObj
  | nil | cons (k : List Byte) (v : J) (m : JObj)
end

/-! The calls a JSON parser makes for a text. -/
mutual
def J.events : J → List Ev
  | .null => [.null]
  | .bool b => [.bool b]
  | .int v => [.int v]
  | .dbl v => [.dbl v]
  | .str s => [.str s]
  | .arr l => .startArr :: l.events ++ [.endArr]
  | .obj m => .startMap :: m.events ++ [.endMap]
def JArr.events : JArr → List Ev
  | .nil => []
  | .cons v l => v.events ++ l.events
def JObj.events : JObj → List Ev
  | .nil => []
  | .cons k v m => .key k :: v.events ++ m.events
end

/-! Levels of nesting: `[]` and `{}` have one. -/
mutual
def J.depth : J → Nat
  | .arr l => l.depth + 1
  | .obj m => m.depth + 1
  | _ => 0
def JArr.depth : JArr → Nat
  | .nil => 0
  | .cons v l => max v.depth l.depth
def JObj.depth : JObj → Nat
  | .nil => 0
  | .cons _ v m => max v.depth m.depth
end

/-! Levels of records in the database: an object takes two. -/
mutual
def J.levels : J → Nat
  | .arr l => l.levels + 1
  | .obj m => m.levels + 1
  | _ => 0
def JArr.levels : JArr → Nat
  | .nil => 0
  | .cons v l => max v.levels l.levels
def JObj.levels : JObj → Nat
  | .nil => 0
  | .cons _ v m => max (v.levels + 1) m.levels
end

/-! What is not represented faithfully: null, true, false; strings with a 0 byte; keys with a 0 byte or of 80 bytes or more. -/
mutual
def J.plain : J → Prop
  | .null => False
  | .bool _ => False
  | .int _ => True
  | .dbl _ => True
  | .str s => 0#8 ∉ s
  | .arr l => l.plain
  | .obj m => m.plain
def JArr.plain : JArr → Prop
  | .nil => True
  | .cons v l => v.plain ∧ l.plain
def JObj.plain : JObj → Prop
  | .nil => True
  | .cons k v m => 0#8 ∉ k ∧ k.length < 80 ∧ v.plain ∧ m.plain
end

/-- What is left of a string or key after its first 0 byte is dropped. -/
def upToNul (s : List Byte) : List Byte := s.takeWhile (· ≠ 0#8)

/-- null, true and false. -/
def J.dropped : J → Bool
  | .null => true
  | .bool _ => true
  | _ => false

/-! What the import keeps of a value: elements and members that are null, true or false disappear; strings and keys end at the first 0 byte, keys after 79 bytes. -/
mutual
def J.kept : J → J
  | .str s => .str (upToNul s)
  | .arr l => .arr l.kept
  | .obj m => .obj m.kept
  | .null => .null
  | .bool b => .bool b
  | .int v => .int v
  | .dbl v => .dbl v
def JArr.kept : JArr → JArr
  | .nil => .nil
  | .cons v l => if v.dropped then l.kept else .cons v.kept l.kept
def JObj.kept : JObj → JObj
  | .nil => .nil
  | .cons k v m => if v.dropped then m.kept else .cons ((upToNul k).take 79) v.kept m.kept
end

/-- The record bits of arrays and objects. -/
def IsArr (rc : Rec) : Prop := rc.info &&& 0x60#64 = 0x40#64
def IsObj (rc : Rec) : Prop := rc.info &&& 0x60#64 = 0x20#64
def IsPlain (rc : Rec) : Prop := rc.info &&& 0x60#64 = 0#64

/-- The value is a string of type WG_STRTYPE without language. -/
def IsStr (h : Heap) (w : Word) (s : List Byte) : Prop := h.reader.typ w = some .str ∧ decodeStr h w = some s ∧ decodeLang h w 5#64 = some none

/-! `Denotes h w j`: the value `w` of the database `h` represents `j`: an array is a record marked as array whose fields represent the elements in order; an object is
a record marked as object whose fields are records of three fields, the second being the key and the third the value. -/
mutual
def Denotes (h : Heap) (w : Word) : J → Prop
  | .null => False
  | .bool _ => False
  | .int v => h.reader.typ w = some .int ∧ h.reader.int w = v
  | .dbl v => h.reader.typ w = some .double ∧ h.reader.dbl w = v
  | .str s => IsStr h w s
  | .arr l => isRecVal w = true ∧ ∃ rc, h.recs w = some rc ∧ IsArr rc ∧ DenotesArr h rc.fields l
  | .obj m => isRecVal w = true ∧ ∃ rc, h.recs w = some rc ∧ IsObj rc ∧ DenotesObj h rc.fields m
def DenotesArr (h : Heap) (ws : List Word) : JArr → Prop
  | .nil => ws = []
  | .cons v l => ∃ w ws', ws = w :: ws' ∧ Denotes h w v ∧ DenotesArr h ws' l
def DenotesObj (h : Heap) (ws : List Word) : JObj → Prop
  | .nil => ws = []
  | .cons k v m => ∃ r ws' rc kw vw, ws = r :: ws' ∧ isRecVal r = true ∧ h.recs r = some rc ∧ IsPlain rc ∧ rc.fields = [0#64, kw, vw] ∧ IsStr h kw k ∧
      Denotes h vw v ∧ DenotesObj h ws' m
end

/-- What an import must leave alone: every record keeps its fields and marks, and every value its meaning. -/
structure Untouched (h h' : Heap) : Prop where
  recs : ∀ r rc, h.recs r = some rc → ∃ rc', h'.recs r = some rc' ∧ rc'.fields = rc.fields ∧ rc'.info = rc.info
  vals : ∀ w, LiveS h w → LiveS h' w ∧ SameValue h h' w

/-- A correct allocator: what it returns was free (C08, C11). -/
structure Alloc.Ok {ι : Type} (A : Alloc ι) : Prop where
  rcd : ∀ s n o, A.rcd s n = some o → s.h.recs o = none ∧ isRecVal o = true
  cell : ∀ s q, A.cell s = some q → s.h.cells q = none ∧ q ≠ 0#64
  int : ∀ s o, A.int s = some o → s.h.ints o = none ∧ Aligned o
  dbl : ∀ s o, A.dbl s = some o → s.h.dbls o = none ∧ Aligned o
  str : ∀ s k, AllocOK s.h (A.str s k)

/-- The calls an import makes: creation of records and values, and setting a field that holds NULL. -/
def Adds {ι : Type} (s : Db ι) : Op → Prop
  | .create _ _ _ => True
  | .int _ _ => True
  | .double _ _ => True
  | .str _ lang type _ => lang = none ∧ type = 5#64
  | .set r i _ _ => 0 ≤ i ∧ ∃ rc, s.h.recs r = some rc ∧ rc.fields[i.toNat]? = some 0#64
  | _ => False

/-- `Steps C X s0 k s`: `k` correct calls of this kind lead from `s0` to `s`. -/
inductive Steps {ι : Type} (C : Prop) (X : Ix ι) (s0 : Db ι) : Nat → Db ι → Prop
  | refl : Steps C X s0 0 s0
  | step {k : Nat} {s s' : Db ι} {op : Op} {out : Out} : Steps C X s0 k s → Adds s op → Pre C X s op → run X s op = some (s', out) → Steps C X s0 (k + 1) s'

/-- In state `s` the allocation of a record, integer, double or string that the import of a text with the calls `evs` may need fails: of a record with as many fields as
there are calls, and three more; of a string that starts one in the text. -/
def Alloc.Fails {ι : Type} (A : Alloc ι) (evs : List Ev) (s : Db ι) : Prop :=
  (∃ n ≤ evs.length + 3, A.rcd s n = none) ∨ A.int s = none ∨ A.dbl s = none ∨
    ∃ k k', (Ev.str k' ∈ evs ∨ Ev.key k' ∈ evs) ∧ k <+: k' ∧ ((A.str s k).short = none ∨ (A.str s k).long = none)

/-! The calls of the generator for a value: integers of at most 32 bits in decimal. -/
mutual
def J.gens (fmt : Word → List Byte) : J → List Gen
  | .null => []
  | .bool _ => []
  | .int v => [.num (fmtInt v.toInt)]
  | .dbl v => [.num (fmt v)]
  | .str s => [.str s]
  | .arr l => .arrOpen :: l.gens fmt ++ [.arrClose]
  | .obj m => .mapOpen :: m.gens fmt ++ [.mapClose]
def JArr.gens (fmt : Word → List Byte) : JArr → List Gen
  | .nil => []
  | .cons v l => v.gens fmt ++ l.gens fmt
def JObj.gens (fmt : Word → List Byte) : JObj → List Gen
  | .nil => []
  | .cons k v m => .str k :: v.gens fmt ++ m.gens fmt
end

/-! All integers fit into 32 bits, all doubles into 77 characters. -/
mutual
def J.fits (fmt : Word → List Byte) : J → Prop
  | .int v => -2147483648 ≤ v.toInt ∧ v.toInt < 2147483648
  | .dbl v => (fmt v).length ≤ 77
  | .arr l => l.fits fmt
  | .obj m => m.fits fmt
  | _ => True
def JArr.fits (fmt : Word → List Byte) : JArr → Prop
  | .nil => True
  | .cons v l => v.fits fmt ∧ l.fits fmt
def JObj.fits (fmt : Word → List Byte) : JObj → Prop
  | .nil => True
  | .cons _ v m => v.fits fmt ∧ m.fits fmt
end

end WG.Json
