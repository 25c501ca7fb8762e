import Verif.Encoding.Model
/-!
# Atomic field updates without a write lock

Model of `wg_update_atomic_field` (Db/dbdata.c lines 1008-1042), `wg_set_atomic_field` (1055-1090) and `wg_add_int_atomic_field`
(1107-1146) run by any number of processes on one field of one record, as a transition system with one step per access of the field
(`old=*fieldadr` and the compare-and-swap, Db/dblock.c lines 422-457).

The functions require a read lock, so that nobody creates indexes, deletes the record or writes the field in another way meanwhile:
what the functions read besides the field (`Cfg`) is constant. Sleeping (lines 1078-1087) has no effect on the state.
-/
namespace WG.Atomic

/-- What the calls read besides the field: the number of fields of the record, the field number, the meta bits that make a record
special (`is_special_record`, Db/dbdata.h line 270), whether `index_table[fieldnr]` or `index_template_table[fieldnr]` is nonzero, and
`logging.active`. -/
structure Cfg where
  len : Int
  fieldnr : Int
  special : Bool
  indexed : Bool
  logging : Bool

/-- `isimmediatedata`, Db/dbdata.h line 435. -/
def isImmediate (i : Word) : Bool := i == 0#64 || (!isPtr i && !isFullint i)

/-- `recordcheck`, Db/dbdata.h lines 634-643; `true` is no error. -/
def recordCheck (c : Cfg) : Bool := !(decide (c.fieldnr < 0) || decide (c.len + 3 ≤ c.fieldnr + 3))

/-- The tests of `wg_update_atomic_field` before the compare-and-swap, Db/dbdata.c lines 1014-1036; 0 if all pass. -/
def updCheck (c : Cfg) (data old : Word) : Int :=
  if ¬ recordCheck c then -2
  else if ¬ isImmediate data then -10
  else if ¬ isImmediate old then -11
  else if ¬ c.special ∧ c.fieldnr ≤ 127 ∧ c.indexed then -13
  else if c.logging then -14
  else 0

/-- `sum=wg_decode_int(db,(gint)old)+data`, Db/dbdata.c line 1127: a 64-bit sum assigned to an `int`. -/
def sum32 (old : Word) (d : BitVec 32) : BitVec 32 := (decodeSmallint old + d.signExtend 64).setWidth 32

/-- `fits_smallint(sum)` for an `int` (Db/dbdata.h line 311). -/
def fits32 (s : BitVec 32) : Bool := (s <<< 3).sshiftRight 3 == s

/-- `nxt=encode_smallint(sum)` (Db/dbdata.h line 312), an `int` assigned to a `gint`. -/
def encode32 (s : BitVec 32) : Word := ((s <<< 3) ||| 3#32).signExtend 64

/-- A call. -/
inductive Op where
  /-- `wg_add_int_atomic_field(db, record, fieldnr, d)` -/
  | add (d : BitVec 32)
  /-- `wg_set_atomic_field(db, record, fieldnr, data)` -/
  | set (data : Word)
  /-- `wg_update_atomic_field(db, record, fieldnr, data, old)` -/
  | upd (data old : Word)
  deriving DecidableEq

/-- Where a process is: outside, before reading the field in round `i` of the loop, or before the compare-and-swap of `old` by `nxt`. -/
inductive Pc where
  | idle
  | load (op : Op) (i : Nat)
  | cas (op : Op) (i : Nat) (old nxt : Word)
  deriving DecidableEq

/-- Result of one step of a process: it goes on, or it returns a code. -/
inductive Out where
  | go (pc : Pc)
  | ret (op : Op) (code : Int)

/-- From the call to the first access of the field: `recordcheck` (lines 1067, 1119); `wg_update_atomic_field` goes to its
compare-and-swap directly. -/
def call (c : Cfg) (op : Op) : Out :=
  match op with
  | .add _ | .set _ => if recordCheck c then .go (.load op 0) else .ret op (-2)
  | .upd data old => if updCheck c data old = 0 then .go (.cas op 0 old data) else .ret op (updCheck c data old)

/-- `old=*fieldadr` and what follows up to the compare-and-swap: lines 1073-1074 with 1014-1036; lines 1125-1130 with 1014-1036. -/
def load (c : Cfg) (op : Op) (i : Nat) (v : Word) : Out :=
  match op with
  | .set data => if updCheck c data v = 0 then .go (.cas op i v data) else .ret op (updCheck c data v)
  | .add d =>
    if ¬ isSmallint v then .ret op (-11)
    else if ¬ fits32 (sum32 v d) then .ret op (-16)
    else if updCheck c (encode32 (sum32 v d)) v = 0 then .go (.cas op i v (encode32 (sum32 v d)))
    else .ret op (updCheck c (encode32 (sum32 v d)) v)
  | .upd _ _ => .ret op (-15)

/-- A failed compare-and-swap: -15 from `wg_update_atomic_field` itself (line 1041); the loops try again or give up (lines 1076-1078,
1132-1134). -/
def casFail (op : Op) (i : Nat) : Out :=
  match op with
  | .upd _ _ => .ret op (-15)
  | _ => if i > 1000 then .ret op (-17) else .go (.load op (i + 1))

/-- The field, the processes, and the history of finished calls with their results, oldest first. -/
structure State where
  v : Word
  pcs : List Pc
  hist : List (Op × Int)

/-- The state after a process has made a step that leaves the field with value `v`. -/
def State.upd (s : State) (i : Nat) (v : Word) : Out → State
  | .go pc => ⟨v, s.pcs.set i pc, s.hist⟩
  | .ret op code => ⟨v, s.pcs.set i .idle, s.hist ++ [(op, code)]⟩

/-- Some process makes a step; only calls in `A` are made. -/
inductive Step (c : Cfg) (A : Op → Prop) : State → State → Prop
  | call (s i op) : s.pcs[i]? = some .idle → A op → Step c A s (s.upd i s.v (call c op))
  | load (s i op k) : s.pcs[i]? = some (.load op k) → Step c A s (s.upd i s.v (load c op k s.v))
  | casOk (s i op k nxt) : s.pcs[i]? = some (.cas op k s.v nxt) → Step c A s (s.upd i nxt (.ret op 0))
  | casFail (s i op k old nxt) : s.pcs[i]? = some (.cas op k old nxt) → s.v ≠ old → Step c A s (s.upd i s.v (casFail op k))

/-- States reachable with `n` processes from a field holding `v0`. -/
inductive Reach (c : Cfg) (A : Op → Prop) (n : Nat) (v0 : Word) : State → Prop
  | init : Reach c A n v0 ⟨v0, List.replicate n .idle, []⟩
  | step {s s'} : Reach c A n v0 s → Step c A s s' → Reach c A n v0 s'

end WG.Atomic
