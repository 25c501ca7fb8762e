import Verif.Encoding.Model
/-!
# Memory pools

Model of `wg_create_mpool`, `extend_mpool`, `wg_alloc_mpool` (Db/dbmpool.c lines 114-251) and of the pairs and atoms stored in pools
(lines 301-391). Addresses are natural numbers, memory is a function from addresses to bytes. A C `int` is an integer that is wrapped
to 32 bits after every arithmetic operation (`int32`). The result of `malloc` is a parameter of each operation (`none` is NULL); the
size it is asked for is a `size_t`, so a negative `int` can never be satisfied. The pool header is a Lean structure, but the bytes it takes
up are accounted for.
-/
namespace WG.MPool

/-- The value of a C `int` after an operation with result `x` (gcc wraps around). -/
def int32 (x : Int) : Int := x.bmod (2 ^ 32)

/-- `sizeof(mpool_header)`, Db/dbmpool.c lines 75-91: 16 + 100 * 24. -/
def hdrSize : Nat := 2416
/-- MIN_FIRST_SUBAREA_SIZE, line 60. -/
def minFirst : Int := 1024
/-- ALIGNMENT_BYTES, line 61. -/
def alignment : Nat := 4

/-- `mpool_subarea_header`, lines 75-79. -/
structure Area where
  size : Int
  start : Nat
  stop : Nat
  deriving DecidableEq

/-- `mpool_header`, lines 86-91. The rows of the subarea table that are in use, the current one first; the limit of 100 rows is not
modelled: sizes at least double each time. -/
structure Pool where
  free : Nat
  cur : Area
  older : List Area
  deriving DecidableEq

def Pool.areas (p : Pool) : List Area := p.cur :: p.older

/-- The alignment of `nextptr`, lines 134-135, 181-182, 245-246. -/
def align (x : Nat) : Nat := if x % alignment ≠ 0 then x + (alignment - x % alignment) else x

/-- Number of bytes `wg_create_mpool` asks for, lines 122-125. -/
def createBytes (orig : Int) : Int :=
  if orig < minFirst + alignment then int32 (hdrSize + minFirst + alignment) else int32 (hdrSize + orig + alignment)

/-- `wg_create_mpool`, lines 114-145; `a` is what `malloc` returned. The result is the pool; its address is `a`. -/
def create (a : Nat) (orig : Int) : Pool :=
  let bytes := createBytes orig
  { free := align (a + hdrSize), cur := { size := int32 (bytes - hdrSize), start := a, stop := a + bytes.toNat }, older := [] }

/-- The loop of `extend_mpool`, lines 167-170, with `n` rounds left. -/
def grow : Nat → Int → Int → Int
  | 0, bytes, _ => bytes
  | n + 1, bytes, lim =>
    let bytes := int32 (bytes * 2)
    if bytes ≥ lim then bytes else grow n bytes lim

/-- Number of bytes `extend_mpool` asks for. -/
def extendBytes (p : Pool) (minbytes : Int) : Int := grow 100 p.cur.size (int32 (minbytes + alignment))

/-- `extend_mpool`, lines 156-189; `r` is what `malloc` returned. -/
def extend (p : Pool) (minbytes : Int) (r : Option Nat) : Option Pool :=
  match r with
  | none => none
  | some a =>
    let bytes := extendBytes p minbytes
    some { free := align a, cur := { size := bytes, start := a, stop := a + bytes.toNat }, older := p.cur :: p.older }

/-- `wg_alloc_mpool`, lines 216-251; `r` is what `malloc` returns if it is called. The result is 0 for NULL. -/
def alloc (p : Pool) (bytes : Int) (r : Option Nat) : Pool × Nat :=
  if bytes ≤ 0 then (p, 0)
  else if p.free + bytes.toNat > p.cur.stop then
    match extend p bytes r with
    | none => (p, 0)
    | some p => ({ p with free := align (p.free + bytes.toNat) }, p.free)
  else ({ p with free := align (p.free + bytes.toNat) }, p.free)

/-- `malloc` is called by `wg_alloc_mpool`. -/
def extends? (p : Pool) (bytes : Int) : Bool := decide (0 < bytes ∧ p.free + bytes.toNat > p.cur.stop)

/-! ## Pairs and atoms -/

/-- Byte memory. -/
abbrev Bytes := Nat → BitVec 8

/-- Store a list of bytes. -/
def storeList (m : Bytes) (a : Nat) : List (BitVec 8) → Bytes
  | [] => m
  | b :: t => storeList (fun x => if x = a then b else m x) (a + 1) t

/-- The bytes of a `gint` (little-endian). -/
def gintBytes (w : Word) : List (BitVec 8) := (List.range 8).map (fun i => (w >>> (8 * i)).setWidth 8)

/-- Read a `gint`. -/
def loadGint (m : Bytes) (a : Nat) : Word :=
  BitVec.ofNat 64 ((m a).toNat * 1 + (m (a + 1)).toNat * 256 + (m (a + 2)).toNat * 65536 + (m (a + 3)).toNat * 16777216 +
    (m (a + 4)).toNat * 4294967296 + (m (a + 5)).toNat * 1099511627776 + (m (a + 6)).toNat * 281474976710656 +
    (m (a + 7)).toNat * 72057594037927936)

/-- `wg_mkpair`, lines 301-312. -/
def mkpair (p : Pool) (m : Bytes) (r : Option Nat) (x y : Word) : Pool × Bytes × Nat :=
  let q := alloc p 16 r
  if q.2 = 0 then (q.1, m, 0)
  else (q.1, storeList (storeList m q.2 (gintBytes x)) (q.2 + 8) (gintBytes y), q.2)

/-- `wg_first`, `wg_rest`, lines 314-320. -/
def first (m : Bytes) (ptr : Nat) : Word := loadGint m ptr
def rest (m : Bytes) (ptr : Nat) : Word := loadGint m (ptr + 8)

/-- The size `wg_mkatom` asks for, lines 344-349. The strings (`none` is NULL) are given without their terminating 0. -/
def atomSize (s1 s2 : Option (List (BitVec 8))) : Int :=
  int32 (int32 (int32 (int32 (2 + (s1.getD []).length) + 1) + (s2.getD []).length) + 1)

/-- The bytes `wg_mkatom` writes from `ptr+1` on, lines 355-370. -/
def atomBytes (type : Int) (s1 s2 : Option (List (BitVec 8))) : List (BitVec 8) :=
  BitVec.ofInt 8 type :: ((s1.getD []) ++ [0#8]) ++ ((s2.getD []) ++ [0#8])

/-- `wg_mkatom`, lines 341-372. -/
def mkatom (p : Pool) (m : Bytes) (r : Option Nat) (type : Int) (s1 s2 : Option (List (BitVec 8))) : Pool × Bytes × Nat :=
  let q := alloc p (atomSize s1 s2) r
  if q.2 = 0 then (q.1, m, 0)
  else (q.1, storeList m (q.2 + 1) (atomBytes type s1 s2), q.2 + 1)

/-- `wg_atomtype`, lines 374-377: `char` is signed. -/
def atomtype (m : Bytes) (ptr : Nat) : Int := if ptr = 0 then 0 else (m ptr).toInt

/-- The C string at an address, if it ends within `n` bytes. -/
def cstr (m : Bytes) : Nat → Nat → Option (List (BitVec 8))
  | 0, _ => none
  | n + 1, a => if m a = 0#8 then some [] else (cstr m n (a + 1)).map (m a :: ·)

/-- `wg_atomstr1`, lines 380-384: the address returned, 0 for NULL. -/
def atomstr1 (m : Bytes) (ptr : Nat) : Nat :=
  if ptr = 0 then 0 else if m (ptr + 1) = 0#8 then 0 else ptr + 1

/-- `wg_atomstr2`, lines 386-391; `n` bounds the length of the string that `strlen` measures (`none`: it is not that short). -/
def atomstr2 (m : Bytes) (n : Nat) (ptr : Nat) : Option Nat :=
  if ptr = 0 then some 0
  else (cstr m n ptr).map (fun s =>
    let p := ptr + s.length + 1
    if m (p + 1) = 0#8 then 0 else p)

end WG.MPool
