import Verif.Records.Model
import Verif.TTree.Props
/-!
# Maintenance of T-tree indexes

Model of wg_index_add_field, wg_index_del_field, wg_index_add_rec, wg_index_del_rec (Db/dbindex.c lines 2616-2983), wg_match_template, the
creation of T-tree indexes and of their templates. Together with `Verif/Records/Model.lean` this is what wg_create_record, wg_set_field and
wg_delete_record do to the indexes, on the T-trees of `Verif/TTree/Model.lean`, with the comparison of `Verif/Compare/Model.lean`.

Simplifications: only T-tree indexes; a new node of a tree is always available, at an offset that was never used before (what happens when
it is not is C22); the catalogue is one list of indexes, and the chain of a column in `index_table` or `index_template_table` is the
part of the list with that column (in the code a chain is also sorted by the number of fixed columns, and the order of a template chain is
that of creation; it matters only for which indexes come before a failing one).
-/
namespace WG.Recs
open WG.TTree

/-- The words that `wg_get_encoded_type` reads: the meta words of long strings. -/
def Heap.mem (h : Heap) : Mem := fun o => ((h.lstrs (o - 8#64)).map (·.info)).getD 0#64

/-- What the decoding functions return on a heap, as read by `wg_compare`. -/
def Heap.reader (h : Heap) : Reader where
  typ := getEncodedType h.mem
  int w := (decodeInt (fun o => (h.ints o).getD 0#64) w).getD 0#64
  dbl w := (decodeDouble (fun o => (h.dbls o).getD 0#64) w).getD 0#64
  str w := (decodeStr h w).getD []
  lang w := (decodeLang h w 7#64).getD none
  blob w := ((h.lstrs (decodeLongstr w)).map fun s => s.data.take s.len).getD []
  blobLen w := ((h.lstrs (decodeLongstr w)).map (·.len)).getD 0
  len w := ((h.recs w).map fun r => (r.fields.length : Int)).getD 0
  fields w := ((h.recs w).map (·.fields)).getD []

/-- One index: `wg_index_header` (Db/dbindex.h) of type WG_INDEX_TYPE_TTREE with column `rec_field_index[0]`, match record of its template
(0: none), the columns in whose `index_template_table` chain it is, its tree, and the next free node offset. -/
structure Idx where
  col : Nat
  mrec : Word
  fixed : List Nat
  st : St Word
  next : Nat

/-- The environment of an index on column `c`: a row is the offset of a record, its key the value of the column. -/
def idxEnv (h : Heap) (c : Nat) : Env Word := wgEnv h.reader fun n => (getField h (BitVec.ofNat 64 n) c).getD illegal

/-- Loop bound for the tree functions: rows are different offsets. -/
def treeFuel : Nat := fuel (2 ^ 64)

/-- The value at a position of a match record is not a variable: `wg_get_encoded_type(...) != WG_VARTYPE`. -/
def isFixedVal (h : Heap) (w : Word) : Bool := h.reader.typ w != some .var

/-- The loop of wg_match_template, Db/dbindex.c lines 1983-1989. -/
def matchFields (h : Heap) : List Word → List Word → Bool
  | e :: es, w :: ws => if isFixedVal h e && WG_COMPARE h.reader e w != 0 then false else matchFields h es ws
  | _, _ => true

/-- MATCH_TEMPLATE (Db/dbindex.h) and wg_match_template (Db/dbindex.c lines 1950-1991). -/
def matchTemplate (h : Heap) (m r : Word) : Bool :=
  if m = 0#64 then true
  else match h.recs m, h.recs r with
    | some mr, some rr => if mr.fields.length > rr.fields.length then false else matchFields h mr.fields rr.fields
    | _, _ => false

/-- INDEX_ADD_ROW, Db/dbindex.c lines 2616-2641, for a T-tree. -/
def addRowIx (h : Heap) (r : Word) (e : Idx) : Idx × Int :=
  let y := addRow (idxEnv h e.col) treeFuel e.st (some e.next) r.toNat
  ({ e with st := y.1, next := e.next + 1 }, if y.2 ≠ 0 then -2 else 0)

/-- INDEX_REMOVE_ROW, Db/dbindex.c lines 2643-2668, for a T-tree. -/
def delRowIx (h : Heap) (r : Word) (e : Idx) : Idx × Int :=
  let y := removeRow (idxEnv h e.col) treeFuel e.st r.toNat
  ({ e with st := y.1 }, if y.2.2 < -2 then -2 else 0)

/-- A loop over a chain of indexes; stops at the first error. -/
def eachIx (sel : Idx → Bool) (f : Idx → Idx × Int) : List Idx → List Idx × Int
  | [] => ([], 0)
  | e :: t =>
    if sel e then
      let y := f e
      if y.2 < 0 then (y.1 :: t, -2)
      else let z := eachIx sel f t; (y.1 :: z.1, z.2)
    else let z := eachIx sel f t; (e :: z.1, z.2)

/-- wg_index_add_field (Db/dbindex.c lines 2677-2734) and wg_index_del_field (lines 2840-2897), which differ in the operation `f` on one
index. -/
def fieldIx (f : Heap → Word → Idx → Idx × Int) (h : Heap) (x : List Idx) (r : Word) (c : Nat) : List Idx × Int :=
  match h.recs r with
  | none => (x, -1)
  | some rc =>
    if c > 127 ∨ rc.fields.length ≤ c then (x, -1)
    else if rc.special then (x, -1)
    else
      let ok := fun e : Idx => decide (e.col < rc.fields.length) && matchTemplate h e.mrec r
      let y := eachIx (fun e => decide (e.col = c) && ok e) (f h r) x
      if y.2 < 0 then (y.1, -2)
      else eachIx (fun e => decide (c ∈ e.fixed) && ok e) (f h r) y.1

/-- The loop over columns of wg_index_add_rec and wg_index_del_rec, `n` columns from `i`. -/
def recLoop (f : Heap → Word → Idx → Idx × Int) (h : Heap) (r : Word) : Nat → Nat → List Idx → List Idx × Int
  | 0, _, x => (x, 0)
  | n + 1, i, x =>
    let y := eachIx (fun e => decide (e.col = i) && matchTemplate h e.mrec r) (f h r) x
    if y.2 < 0 then (y.1, -2) else recLoop f h r n (i + 1) y.1

/-- wg_index_add_rec (Db/dbindex.c lines 2742-2831) and wg_index_del_rec (lines 2904-2983). -/
def recIx (f : Heap → Word → Idx → Idx × Int) (h : Heap) (x : List Idx) (r : Word) : List Idx × Int :=
  match h.recs r with
  | none => (x, -1)
  | some rc => if rc.special then (x, -1) else recLoop f h r (min rc.fields.length 128) 0 x

/-- The index functions as called by the record functions. -/
def wgIx : Ix (List Idx) where
  addRec := recIx addRowIx
  delRec := recIx delRowIx
  addField := fieldIx addRowIx
  delField := fieldIx delRowIx
  byCol x c := x.any fun e => e.col == c
  byTmpl x c := x.any fun e => decide (c ∈ e.fixed)

/-! ## The catalogue -/

/-- The fixed columns of a match record. -/
def fixedCols (h : Heap) (m : Word) : List Nat :=
  match h.recs m with
  | none => []
  | some mr => (List.range mr.fields.length).filter fun c => isFixedVal h (mr.fields.getD c 0#64)

/-- The scan of create_ttree_index, Db/dbindex.c lines 1398-1418; `rs` are the records met by wg_get_first_record and wg_get_next_record
(C15). The result of ttree_add_row is ignored. -/
def fillIx (h : Heap) : List Word → Idx → Idx
  | [], e => e
  | r :: t, e =>
    match h.recs r with
    | none => fillIx h t e
    | some rc => fillIx h t (if rc.fields.length ≤ e.col then e else if matchTemplate h e.mrec r then (addRowIx h r e).1 else e)

/-- wg_create_index for a T-tree (Db/dbindex.c lines 2021-2265, 1371-1425), with `m` the match record of the template (0 if there is none;
the template list is not modelled), `rs` the records of the database and `root` the first node. -/
def createIndex (h : Heap) (x : List Idx) (c : Nat) (m : Word) (rs : List Word) (root : Nat) : List Idx × Int :=
  if c > 127 then (x, -1)
  else if m ≠ 0#64 ∧ c ∈ fixedCols h m then (x, -1)
  else if x.any (fun e => e.col == c && e.mrec == m) then (x, -1)
  else
    let e : Idx := { col := c, mrec := m, fixed := if m = 0#64 then [] else fixedCols h m
                     st := create (idxEnv h c) (fun _ => ⟨0, 0, 0, 0, 0, illegal, illegal, [], 0, 0⟩) root, next := root + 1 }
    (fillIx h rs e :: x, 0)

/-- Set field `i`, `i + 1`, ... of a new record: the loop at lines 1820-1823 of Db/dbindex.c. -/
def setNewAll (X : Ix (List Idx)) : Db (List Idx) → Word → Nat → List Word → Option (Db (List Idx) × Int)
  | s, _, _, [] => some (s, 0)
  | s, r, i, v :: t =>
    match setNewField X s r i v none with
    | none => none
    | some (s', c) => if c < 0 then some (s', c) else setNewAll X s' r (i + 1) t

/-- The part of add_index_template that creates a match record, Db/dbindex.c lines 1764-1784 and 1816-1825: `vals` is the template given by
the user; records are not allowed in it, and it is cut after its last fixed column. 0 is failure. The limit of 128 columns is checked by
wg_create_multi_index (lines 2116-2120). The bits that mark the record as not
being data are set after its fields. -/
def addTemplate (s : Db (List Idx)) (vals : List Word) (al : Option Word) : Option (Db (List Idx) × Word) :=
  if vals.length > 128 then some (s, 0#64)
  else if vals.any isRecVal then some (s, 0#64)
  else
    let vs := (vals.reverse.dropWhile fun w => !isFixedVal s.h w).reverse
    if vs = [] then some (s, 0#64)
    else
      let (h, o) := createRaw s.h vs.length 0#64 al
      if o = 0#64 then some (s, 0#64)
      else
        match setNewAll wgIx ⟨h, s.ix⟩ o 0 vs with
        | none => none
        | some (s', c) =>
          if c < 0 then some (s', 0#64)
          else some (⟨{ s'.h with recs := upd s'.h.recs o ((s'.h.recs o).map fun r => { r with info := r.info ||| 3#64 }) }, s'.ix⟩, o)

/-- The part of wg_drop_index (Db/dbindex.c lines 2274-2372) that concerns the other indexes: index number `k` of the catalogue is gone. The
removal of its template, when it was the last user, is a deletion of the match record. -/
def dropIndex (x : List Idx) (k : Nat) : List Idx := x.eraseIdx k

end WG.Recs
