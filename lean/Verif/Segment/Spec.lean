import Verif.Segment.Model
/-!
# What users of a segment see

`Live i a = some n`: there is an object of `n` words at offset `a` in area `i`. `Reach hdr db L`: a segment with a header of `hdr` bytes
may be in state `db` with objects `L` after some sequence of allocations and frees in all areas, writes of the owners into their objects
and into the arrays, and creations of hash indexes.
-/
namespace WG.Segment
open WG.Varlen (upd)

abbrev Live := Nat → Nat → Option Nat

def Live.put (L : Live) (i a n : Nat) : Live := fun j b => if j = i ∧ b = a then some n else L j b
def Live.del (L : Live) (i a : Nat) : Live := fun j b => if j = i ∧ b = a then none else L j b

/-- Words of an object allocated in area `i` by a request for `n` words: fixed-length areas have one object length. -/
def words (db : DB) (i n : Nat) : Nat :=
  match db.areas[i]? with
  | some (.fix obj _ _) => obj / 8
  | _ => n

/-- Bytes at the beginning of an object that belong to the allocator: the size word in variable-length areas. -/
def reserved (db : DB) (i : Nat) : Nat :=
  match db.areas[i]? with
  | some (.fix ..) => 0
  | _ => 8

/-- Bytes set aside for an object of `n` words: at least 32 in variable-length areas. -/
def room (db : DB) (i n : Nat) : Nat :=
  match db.areas[i]? with
  | some (.fix ..) => 8 * n
  | _ => max 32 (8 * n)

/-- Two ranges of bytes do not meet. -/
def Apart (a n b m : Nat) : Prop := a + n ≤ b ∨ b + m ≤ a

/-- `x` is a word that belongs to the owner of the object of `n` words at `a` in area `i`. -/
def Own (db : DB) (i a n x : Nat) : Prop := x % 8 = 0 ∧ a + reserved db i ≤ x ∧ x < a + 8 * n

inductive Reach (hdr : Nat) : DB → Live → Prop
  | init {mem : Nat → Nat} {size len : Nat} {queued : Bool} {db : DB} : 0 < hdr → size ≤ 2^40 → initDb mem hdr size len queued = some db →
      Reach hdr db (fun _ _ => none)
  | alloc {db db' : DB} {L : Live} {i n a : Nat} : Reach hdr db L → n < 2^37 → alloc db i n = (db', some a) →
      Reach hdr db' (L.put i a (words db i n))
  | allocFail {db db' : DB} {L : Live} {i n : Nat} : Reach hdr db L → n < 2^37 → alloc db i n = (db', none) → Reach hdr db' L
  | free {db : DB} {L : Live} {i a n : Nat} : Reach hdr db L → L i a = some n → Reach hdr (free db i a) (L.del i a)
  | write {db : DB} {L : Live} {i a n x v : Nat} : Reach hdr db L → L i a = some n → Own db i a n x →
      Reach hdr { db with mem := upd db.mem x v } L
  | hash {db db' : DB} {L : Live} {len : Int} : Reach hdr db L → createHash db len = some db' → Reach hdr db' L
  | poke {db : DB} {L : Live} {s len k v : Nat} : Reach hdr db L → (s, len) ∈ db.arrays → k < len →
      Reach hdr { db with mem := upd db.mem (s + 8 * k) v } L

end WG.Segment
