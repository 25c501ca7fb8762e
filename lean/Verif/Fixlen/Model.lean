import Verif.Varlen.Model
/-!
# Fixed-length object areas and segment chunks (Db/dballoc.c)

One fixed-length area: list cells, short strings, words, doublewords, index nodes, index headers or index templates. Memory as in
the model of variable-length areas. The chunk allocator of the segment is `Varlen.allocChunk`.
-/
namespace WG.Fixlen
open WG.Varlen (Sub upd allocChunk MINSUB MAXSUBS MINSZ)

/-- One area: memory, `objlength`, `freelist`, `subarea_array[0..last]`, and the shared `free` and `size` of the segment header. -/
structure St where
  mem : Nat → Nat
  obj : Nat
  freelist : Nat
  subs : List Sub
  segFree : Nat
  segSize : Nat

/-- `init_db_subarea`, Db/dballoc.c lines 269-294, for the next slot of `subarea_array`. -/
def initSubarea (st : St) (size : Nat) : Option St :=
  if size < MINSUB then none
  else match allocChunk st.segFree st.segSize size with
    | none => none
    | some (chunk, free) =>
      let i := 8 - chunk % 8
      let i := if i = 8 then 0 else i
      let asize := size - i
      some { st with segFree := free, subs := st.subs ++ [⟨size, chunk, asize - asize % MINSZ, chunk + i⟩], freelist := 0 }

/-- The loop of `make_subarea_freelist`, Db/dballoc.c lines 585-589: `max` is `e - 2*obj`. `k` bounds the number of rounds. -/
def link (obj e : Nat) : Nat → (Nat → Nat) → Nat → (Nat → Nat)
  | 0, mem, _ => mem
  | k + 1, mem, i => if i + 2 * obj ≤ e then link obj e k (upd mem i (i + obj)) (i + obj) else upd mem i 0

/-- `make_subarea_freelist`, Db/dballoc.c lines 569-593, for the last subarea. -/
def makeFreelist (st : St) : St :=
  match st.subs.getLast? with
  | none => st
  | some s => { st with mem := link st.obj (s.aoff + s.asize) (s.asize + 1) st.mem s.aoff, freelist := s.aoff }

/-- The loop of `extend_fixedlen_area`, lines 775-782. -/
def trySizes (st : St) : Nat → Nat → Option St
  | 0, _ => none
  | k + 1, n => if n ≥ MINSUB then
      match initSubarea st n with
      | some st' => some st'
      | none => trySizes st k (n / 2)
    else none

/-- `extend_fixedlen_area`, Db/dballoc.c lines 757-790; `none` is result 0. -/
def extend (st : St) : Option St :=
  match st.subs.getLast? with
  | none => none
  | some s =>
    if st.subs.length ≥ MAXSUBS then none
    else match trySizes st 64 (s.size * 2) with
      | none => none
      | some st => some (makeFreelist st)

/-- `wg_alloc_fixlen_object`, Db/dballoc.c lines 725-748. -/
def alloc (st : St) : St × Option Nat :=
  if st.freelist = 0 then
    match extend st with
    | none => (st, none)
    | some st =>
      if st.freelist = 0 then (st, none)
      else ({ st with freelist := st.mem st.freelist }, some st.freelist)
  else ({ st with freelist := st.mem st.freelist }, some st.freelist)

/-- `wg_free_fixlen_object` and the identical `wg_free_listcell`, `wg_free_shortstr`, `wg_free_word`, `wg_free_doubleword`,
`wg_free_tnode`: Db/dballoc.c lines 800-870. -/
def free (st : St) (x : Nat) : St := { st with mem := upd st.mem x st.freelist, freelist := x }

/-- A new area: `init_db_subarea` and `make_subarea_freelist` for subarea 0 (Db/dballoc.c lines 148-155 and following). -/
def newArea (mem : Nat → Nat) (obj segFree segSize size : Nat) : Option St :=
  match initSubarea ⟨mem, obj, 0, [], segFree, segSize⟩ size with
  | none => none
  | some st => some (makeFreelist st)

end WG.Fixlen
