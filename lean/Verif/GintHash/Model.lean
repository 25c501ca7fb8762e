/-!
# The extendible hash table for offsets (Db/dbhash.c)

Tables live in local memory. Buckets are named by numbers (the order in which the pool handed them out, C41 shows that pool blocks are
disjoint); a bucket's slots `0 .. fill-1` are a list of key/value pairs; slots from `fill` on are never read. The directory is a function of
the index. All allocations of one call are decided by an oracle `mem`, which answers the `t`-th allocation of the table's lifetime.
The hash function is a parameter of the model; `rehash` is the one the code uses.
-/

namespace WG.GintHash

abbrev Word := BitVec 64

/-- GINTHASH_BUCKETCAP (Db/dbhash.c:59). -/
def cap : Nat := 7

/-- GINTHASH_MAXLEVEL (Db/dbhash.c:67). -/
def maxLevel : Nat := 23

/-- rehash_gint (Db/dbhash.c:672-681): FNV-1a over the eight bytes, lowest first (little-endian). -/
def rehash (v : Word) : Nat :=
  ((List.range 8).foldl (fun (h : Word) i => (h ^^^ ((v >>> (8 * i)) &&& 0xff#64)) * 1099511628211#64) 14695981039346656037#64).toNat

/-- ginthash_bucket (Db/dbhash.c:73-78): local level and the filled slots in order. -/
structure Bucket where
  level : Nat
  items : List (Word × Word)
  deriving DecidableEq

/-- ext_ginthash (Db/dbhash.c:84-88), with the buckets allocated from its pool. `tick` counts the allocations made. -/
structure Table where
  level : Nat
  dir : Nat → Option Nat
  bucket : Nat → Bucket
  next : Nat
  tick : Nat

/-- Replace one bucket's contents. -/
def Table.setBucket (t : Table) (b : Nat) (x : Bucket) : Table := { t with bucket := fun c => if c = b then x else t.bucket c }

/-- add_to_bucket (Db/dbhash.c:804-817, CHECK defined): a bucket that already uses its overflow slot is left alone. -/
def addTo (x : Bucket) (k v : Word) : Bucket :=
  if x.items.length > cap then x else { x with items := x.items ++ [(k, v)] }

/-- remove_from_bucket (Db/dbhash.c:822-835): the later slots move down by one. -/
def removeFrom (x : Bucket) (i : Nat) : Bucket := { x with items := x.items.eraseIdx i }

/-- grow_ginthash (Db/dbhash.c:686-717). The first growth (level 0) also creates the pool: two more allocations that may fail. -/
def grow (mem : Nat → Bool) (t : Table) : Table × Bool :=
  if t.level + 1 ≥ maxLevel then (t, false)
  else if mem t.tick then
    if t.level ≠ 0 then
      ({ t with level := t.level + 1, dir := fun i => if i < 2 ^ t.level then t.dir i else t.dir (i - 2 ^ t.level), tick := t.tick + 1 }, true)
    else if mem (t.tick + 1) then ({ t with level := t.level + 1, dir := fun _ => none, tick := t.tick + 2 }, true)
    else ({ t with tick := t.tick + 2 }, false)
  else ({ t with tick := t.tick + 1 }, false)

/-- wg_ginthash_init (Db/dbhash.c:581-594). -/
def init (mem : Nat → Bool) : Option Table :=
  if mem 0 then
    match grow mem ⟨0, fun _ => none, fun _ => ⟨0, []⟩, 0, 1⟩ with
    | (t, true) => some t
    | (_, false) => none
  else none

/-- ginthash_newbucket (Db/dbhash.c:722-731): the level is assigned by the caller. -/
def newBucket (mem : Nat → Bool) (t : Table) : Table × Option Nat :=
  if mem t.tick then ({ t.setBucket t.next ⟨0, []⟩ with next := t.next + 1, tick := t.tick + 1 }, some t.next)
  else ({ t with tick := t.tick + 1 }, none)

/-- The loop moving entries (Db/dbhash.c:763-770): `i` counts down from `fill - 1`; entries whose hash has the bit `mask` move to the new
bucket, in the order they are met. -/
def moveLoop (hash : Word → Nat) (mask : Nat) : Nat → Bucket → Bucket → Bucket × Bucket
  | 0, old, new => (old, new)
  | i + 1, old, new =>
    let kv := old.items.getD i (0, 0)
    if hash kv.1 &&& mask ≠ 0 then moveLoop hash mask i (removeFrom old i) (addTo new kv.1 kv.2)
    else moveLoop hash mask i old new

/-- The loop updating several directory entries (Db/dbhash.c:789-795), with its check that each entry still points to the old bucket. -/
def relink (b nb level mask low : Nat) : Nat → (Nat → Option Nat) → Nat → Option (Nat → Option Nat)
  | 0, dir, _ => some dir
  | n + 1, dir, j =>
    let k := (j <<< level) ||| mask ||| low
    if dir k ≠ some b then none
    else relink b nb level mask low n (fun i => if i = k then some nb else dir i) (j + 1)

/-- The rest of ginthash_splitbucket (Db/dbhash.c:750-798), once the directory is deep enough. When the new bucket cannot be allocated the
old one's level has been incremented already. -/
def splitTail (mem : Nat → Bool) (hash : Word → Nat) (t : Table) (b : Nat) : Table × Option Nat :=
  let mask := 1 <<< (t.bucket b).level
  let t := t.setBucket b { t.bucket b with level := (t.bucket b).level + 1 }
  let low := hash ((t.bucket b).items.getD 0 (0, 0)).1 &&& (mask - 1)
  match newBucket mem t with
  | (t, none) => (t, none)
  | (t, some nb) =>
    let l := (t.bucket b).level
    let (x, y) := moveLoop hash mask (t.bucket b).items.length (t.bucket b) ⟨l, []⟩
    let t := (t.setBucket b x).setBucket nb y
    if l = t.level then ({ t with dir := fun i => if i = mask ||| low then some nb else t.dir i }, some nb)
    else
      match relink b nb l mask low (1 <<< (t.level - l)) t.dir 0 with
      | none => (t, none)
      | some d => ({ t with dir := d }, some nb)

/-- ginthash_splitbucket (Db/dbhash.c:736-799): grow the directory if the bucket is as deep as it, then split. Result: the table and the new
bucket, or `none` on failure. -/
def split (mem : Nat → Bool) (hash : Word → Nat) (t : Table) (b : Nat) : Table × Option Nat :=
  let g := if (t.bucket b).level = t.level then grow mem t else (t, true)
  if g.2 then splitTail mem hash g.1 b else (g.1, none)

/-- The loop of wg_ginthash_addkey (Db/dbhash.c:618-627): split while the current bucket overflows. `none` in the second component means
that the steps ran out (it never happens, `C30_terminates`); otherwise success or failure. -/
def splitLoop (mem : Nat → Bool) (hash : Word → Nat) : Nat → Table → Nat → Table × Option Bool
  | 0, t, _ => (t, none)
  | n + 1, t, b =>
    if (t.bucket b).items.length > cap then
      match split mem hash t b with
      | (t, none) => (t, some false)
      | (t, some nb) => splitLoop mem hash n t (if (t.bucket nb).items.length > cap then nb else b)
    else (t, some true)

/-- wg_ginthash_addkey (Db/dbhash.c:601-630). `some true`: returns 0, `some false`: returns −1. -/
def addkey (mem : Nat → Bool) (hash : Word → Nat) (t : Table) (key val : Word) : Table × Option Bool :=
  let h := hash key &&& (1 <<< t.level - 1)
  match t.dir h with
  | none =>
    match newBucket mem t with
    | (t, none) => (t, some false)
    | (t, some nb) =>
      let t := t.setBucket nb (addTo { t.bucket nb with level := t.level } key val)
      ({ t with dir := fun i => if i = h then some nb else t.dir i }, some true)
  | some b => splitLoop mem hash 64 (t.setBucket b (addTo (t.bucket b) key val)) b

/-- wg_ginthash_getkey (Db/dbhash.c:637-651): `none` means −1 (absent). -/
def getkey (hash : Word → Nat) (t : Table) (key : Word) : Option Word :=
  let h := hash key &&& (1 <<< t.level - 1)
  match t.dir h with
  | none => none
  | some b => ((t.bucket b).items.find? (fun kv => kv.1 == key)).map (·.2)

end WG.GintHash
