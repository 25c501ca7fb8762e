/-!
# Attaching, detaching and deleting databases (Db/dbmem.c)

Part one: from names to keys. Part two: the calls as small steps of processes that share the System V segments of one machine. A step is
a system call or a piece of code between two of them; every system call may fail, and a process may die anywhere.
-/
namespace WG.Attach

/-! ## Names -/

abbrev Str := List (BitVec 8)

/-- `isspace` of the C library in the C locale. -/
def isSpace (c : BitVec 8) : Bool := c = 32#8 || (9 ≤ c.toNat && c.toNat ≤ 13)
/-- `isdigit`. -/
def isDigit (c : BitVec 8) : Bool := 48 ≤ c.toNat && c.toNat ≤ 57

/-- The number with these decimal digits. -/
def value (ds : Str) : Nat := ds.foldl (fun n c => 10 * n + (c.toNat - 48)) 0

/-- Sign of a number for `strtol`, and the text behind it. -/
def sign : Str → Bool × Str
  | [] => (false, [])
  | c :: r => if c = 45#8 then (true, r) else if c = 43#8 then (false, r) else (false, c :: r)

/-- `strtol(s, NULL, 10)` of the C library with 64-bit `long`. -/
def strtol (s : Str) : Int :=
  let n := sign (s.dropWhile isSpace)
  let v : Int := value (n.2.takeWhile isDigit)
  let v := if n.1 then -v else v
  if v > 2^63 - 1 then 2^63 - 1 else if v < -2^63 then -2^63 else v

/-- Conversion of a `long` to `int` (32 bits; the C compilers in question keep the low bits). -/
def toInt (v : Int) : Int := (BitVec.ofInt 32 v).toInt

/-- Db/dbmem.c lines 202, 215 (and the same in 360-363): `none` is NULL. -/
def rawKey : Option Str → Int
  | none => 0
  | some s => toInt (strtol s)

/-- Db/dbmem.c line 216 (and 364): the key of the segment for a database name. -/
def keyOf (name : Option Str) : Int :=
  let key := rawKey name
  if key ≤ 0 ∨ key = -2^31 ∨ key = 2^31 - 1 then 1000 else key

/-! ## Segments and processes -/

/-- The `mark` field of a segment header: zero, as in new memory; MEMSEGMENT_MAGIC_INIT; MEMSEGMENT_MAGIC_MARK; anything else. -/
inductive Mark
  | raw | init | ready | other
deriving DecidableEq

/-- What attaching looks at. `compat`: version and features are those of this program. `key`, `size`: as in the header. `logging`: a
journal is active. `data`: everything else, 0 in a new database. -/
structure Seg where
  mark : Mark
  compat : Bool
  size : Int
  key : Int
  logging : Bool
  data : Nat
deriving DecidableEq

/-- Memory fresh from the system. -/
def Seg.new : Seg := ⟨.raw, false, 0, 0, false, 0⟩

/-- Arguments of `wg_attach_memsegment` after lines 214-218. -/
structure Args where
  key : Int
  minsize : Int
  size : Int
  create : Bool
  logging : Bool
deriving DecidableEq

/-- Lines 214-218, Db/dbmem.c. -/
def args (name : Option Str) (minsize size : Int) (create logging : Bool) : Args :=
  let minsize := if minsize < 0 then 0 else minsize
  ⟨keyOf name, minsize, if size < minsize then minsize else size, create, logging⟩

/-- `wg_attach_database`, `wg_attach_existing_database`, `wg_attach_logged_database` (and the variants with permissions), Db/dbmem.c
lines 120-166. -/
def attachArgs (name : Option Str) (size : Int) : Args := args name size size true false
def existingArgs (name : Option Str) : Args := args name 0 0 false false
def loggedArgs (name : Option Str) (size : Int) : Args := args name size size true true

/-- Where a process is in `wg_attach_memsegment` and `CHECK_SEGMENT`. -/
inductive Pc
  | idle
  | start (a : Args)                 -- line 220
  | linked (a : Args) (id : Nat)     -- line 222
  | checked (a : Args) (id : Nat)    -- line 266
  | noLink (a : Args)                -- line 295
  | made (a : Args) (id : Nat) (size : Int)     -- line 310
  | initing (a : Args) (id : Nat) (size : Int)  -- inside line 312
  | inited (a : Args) (id : Nat)     -- line 313
  | cleanup (a : Args)               -- line 324
  | final (a : Args) (id : Nat)      -- CHECK_SEGMENT, lines 92-104
  | done (a : Args) (id : Nat)       -- the handle has been returned
deriving DecidableEq

/-- The machine: which segment has a key, the segments, the next free segment number, the processes. Segments without a key may still be
used by those attached to them. -/
structure State where
  tbl : Int → Option Nat
  segs : Nat → Seg
  next : Nat
  procs : Nat → Pc

def set {α β : Type} [DecidableEq α] (f : α → β) (x : α) (v : β) : α → β := fun y => if y = x then v else f y

def State.at (s : State) (p : Nat) (c : Pc) : State := { s with procs := set s.procs p c }

/-- The checks of lines 226-264. -/
def acceptable (a : Args) (g : Seg) : Bool :=
  g.mark = .ready && (a.minsize = 0 || g.size ≥ a.minsize) && (!a.logging || g.logging)

/-- Sizes tried in lines 295-301. -/
def sizes (a : Args) : List Int :=
  let size := if a.size = 0 then 10000000 else a.size
  if a.minsize ≠ 0 ∧ a.minsize < size then [size, a.minsize] else [size]

/-- `wg_memmode` as used in lines 266-273, by lines 583-626: a database whose header has key 0 needs no system call, otherwise there must
be a segment with the key in the header. -/
def statable (s : State) (g : Seg) : Bool := g.key = 0 || (s.tbl g.key).isSome

/-- What a step does to the keys: removes one, or not. -/
inductive Ev
  | remove (p : Nat) (k : Int)
  | other

inductive Step : State → Ev → State → Prop
  /-- A call of one of the attaching functions. -/
  | call {s : State} {p : Nat} (name : Option Str) (minsize size : Int) (create logging : Bool) : s.procs p = .idle →
      Step s .other (s.at p (.start (args name minsize size create logging)))
  /-- `link_shared_memory` (lines 665-719), successful. -/
  | link {s : State} {p : Nat} {a : Args} {id : Nat} : s.procs p = .start a → s.tbl a.key = some id → Step s .other (s.at p (.linked a id))
  /-- `link_shared_memory` fails: no segment, or any failure of `shmget` and `shmat` but EACCES of the latter. Lines 275-284. -/
  | linkFail {s : State} {p : Nat} {a : Args} : s.procs p = .start a → Step s .other (s.at p (if a.create then .noLink a else .idle))
  /-- No permission: NULL. -/
  | linkDenied {s : State} {p : Nat} {a : Args} {id : Nat} : s.procs p = .start a → s.tbl a.key = some id → Step s .other (s.at p .idle)
  /-- Lines 226-264. The segment stays mapped if a check fails. -/
  | check {s : State} {p : Nat} {a : Args} {id : Nat} : s.procs p = .linked a id →
      Step s .other (s.at p (if acceptable a (s.segs id) then .checked a id else .idle))
  /-- Lines 266-273. -/
  | stat {s : State} {p : Nat} {a : Args} {id : Nat} : s.procs p = .checked a id →
      Step s .other (s.at p (if statable s (s.segs id) then .final a id else .idle))
  | statFail {s : State} {p : Nat} {a : Args} {id : Nat} : s.procs p = .checked a id → Step s .other (s.at p .idle)
  /-- `create_shared_memory` (lines 723-797): with IPC_EXCL, so only if there is no segment with the key. -/
  | create {s : State} {p : Nat} {a : Args} {size : Int} : s.procs p = .noLink a → s.tbl a.key = none → size ∈ sizes a →
      Step s .other { s.at p (.made a s.next size) with tbl := set s.tbl a.key (some s.next), segs := set s.segs s.next Seg.new, next := s.next + 1 }
  /-- The segment is created but cannot be mapped (lines 789-794): NULL. -/
  | createLost {s : State} {p : Nat} {a : Args} : s.procs p = .noLink a → s.tbl a.key = none →
      Step s .other { s.at p .idle with tbl := set s.tbl a.key (some s.next), segs := set s.segs s.next Seg.new, next := s.next + 1 }
  | createFail {s : State} {p : Nat} {a : Args} : s.procs p = .noLink a → Step s .other (s.at p .idle)
  /-- `wg_init_db_memsegment`, Db/dballoc.c lines 106-113. -/
  | initBegin {s : State} {p : Nat} {a : Args} {id : Nat} {size : Int} : s.procs p = .made a id size →
      Step s .other { s.at p (.initing a id size) with segs := set s.segs id { s.segs id with mark := .init, compat := true, size := size, key := a.key } }
  /-- ... to its end: Db/dballoc.c line 255, with `init_logging` (lines 404-410) before. -/
  | initEnd {s : State} {p : Nat} {a : Args} {id : Nat} {size : Int} : s.procs p = .initing a id size →
      Step s .other { s.at p (.inited a id) with segs := set s.segs id { s.segs id with mark := .ready, logging := false, data := 0 } }
  /-- ... failing because the segment is too small: some of the segment may have been written. -/
  | initFail {s : State} {p : Nat} {a : Args} {id : Nat} {size : Int} {d : Nat} : s.procs p = .initing a id size →
      Step s .other { s.at p (.cleanup a) with segs := set s.segs id { s.segs id with data := d } }
  /-- Lines 315-317: `wg_start_logging` if a journal is wanted. -/
  | log {s : State} {p : Nat} {a : Args} {id : Nat} : s.procs p = .inited a id →
      Step s .other { s.at p (.final a id) with segs := set s.segs id { s.segs id with logging := a.logging || (s.segs id).logging } }
  | logFail {s : State} {p : Nat} {a : Args} {id : Nat} : s.procs p = .inited a id → a.logging = true → Step s .other (s.at p (.cleanup a))
  /-- `free_shared_memory` (lines 801-845) in line 324, which may fail. -/
  | cleanup {s : State} {p : Nat} {a : Args} : s.procs p = .cleanup a → Step s (.remove p a.key) { s.at p .idle with tbl := set s.tbl a.key none }
  | cleanupFail {s : State} {p : Nat} {a : Args} : s.procs p = .cleanup a → Step s .other (s.at p .idle)
  /-- CHECK_SEGMENT, lines 92-104, with `wg_check_header_compat` (lines 472-499). -/
  | finish {s : State} {p : Nat} {a : Args} {id : Nat} : s.procs p = .final a id →
      Step s .other (s.at p (if (s.segs id).mark = .ready ∧ (s.segs id).compat = true then .done a id else .idle))
  /-- `wg_delete_database` (lines 359-366) by a process that is not attaching; it may be attached. -/
  | delete {s : State} {p : Nat} {k : Int} : (s.procs p = .idle ∨ ∃ a id, s.procs p = .done a id) →
      Step s (.remove p k) { s with tbl := set s.tbl k none }
  /-- `wg_detach_database` (lines 344-352). -/
  | detach {s : State} {p : Nat} {a : Args} {id : Nat} : s.procs p = .done a id → Step s .other (s.at p .idle)
  /-- A process with a handle works on the database: it changes data, starts or stops logging, or imports a dump, which also replaces the
  key in the header (Db/dbdump.c lines 323-337). Failed imports that leave a broken header are left out. -/
  | use {s : State} {p : Nat} {a : Args} {id : Nat} {key : Int} {logging : Bool} {data : Nat} : s.procs p = .done a id →
      Step s .other { s with segs := set s.segs id { s.segs id with key := key, logging := logging, data := data } }
  /-- A process dies: its mappings go away, nothing else. -/
  | crash {s : State} {p : Nat} : Step s .other (s.at p .idle)

end WG.Attach
