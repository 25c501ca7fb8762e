/-!
# The index catalogue (Db/dbindex.c lines 1715-2614)

Creation, dropping and lookup of indexes and of their templates, as far as the lists in `db_index_area_header` go. The contents of the
indexes are in `Verif/TTree`, `Verif/IndexMaint` and `Verif/HashIndex`.

Offsets of index headers and templates are numbers, 0 is NULL; headers and templates are memory that can be read at any time. List cells and match records can always
be allocated. What happens to the match record as a record is in `Verif/IndexMaint` (`addTemplate`).
-/
namespace WG.IndexCat

/-- What the catalogue asks about encoded values: `wg_get_encoded_type(v) == WG_VARTYPE`, `== WG_RECORDTYPE`, and `WG_COMPARE(a, b) ==
WG_EQUAL`. -/
structure Vt (κ : Type) where
  isVar : κ → Bool
  isRec : κ → Bool
  same : κ → κ → Bool

variable {κ : Type}

/-- `wg_index_header`, Db/dballoc.h lines 380-389; `cols` are the first `fields` elements of `rec_field_index`. -/
structure Hdr where
  type : Int
  cols : List Int
  tmpl : Nat

/-- `wg_index_template`, Db/dballoc.h lines 393-400, with the fields of its match record. -/
structure Tm (κ : Type) where
  fields : List κ
  fixed : Nat
  refs : Int

/-- `db_index_area_header`, Db/dballoc.h: `table` is `index_table`, `list` is `index_list`, `tlist` is `index_template_list`, `ttable` is
`index_template_table`, `count` is `number_of_indexes`. -/
structure Cat (κ : Type) where
  table : Int → List Nat
  hdr : Nat → Hdr
  list : List Nat
  tlist : List Nat
  tm : Nat → Tm κ
  ttable : Nat → List Nat
  count : Int

/-- MAX_INDEXED_FIELDNR, Db/dballoc.h. -/
def maxCol : Int := 127
/-- MAX_INDEX_FIELDS, Db/dballoc.h. -/
def maxFields : Nat := 10

/-- Index types, Db/dbindex.h lines 46-49. -/
def TTREE : Int := 50
def TTREE_JSON : Int := 51
def HASH : Int := 60
def HASH_JSON : Int := 61

/-! ## Columns -/

/-- The inner loop of sort_columns, Db/dbindex.c lines 2009-2012. -/
def lowest (prev : Int) (cols : List Int) : Int := cols.foldl (fun lo c => if c < lo ∧ prev < c then c else lo) (maxCol + 1)

/-- sort_columns, Db/dbindex.c lines 2002-2019, with `n` rounds of the outer loop left. -/
def sortFrom (cols : List Int) : Nat → Int → List Int
  | 0, _ => []
  | n + 1, prev => if lowest prev cols = maxCol + 1 then [] else lowest prev cols :: sortFrom cols n (lowest prev cols)

/-- sort_columns. -/
def sortColumns (cols : List Int) : List Int := sortFrom cols cols.length (-1)

/-! ## Templates -/

/-- The number of fixed columns, counted at Db/dbindex.c lines 1766-1781 and 1867-1878. -/
def fixedCount (V : Vt κ) (m : List κ) : Nat := m.countP fun v => !V.isVar v

/-- Trailing variables are cut off, lines 1786 and 1883. -/
def trim (V : Vt κ) (m : List κ) : List κ := (m.reverse.dropWhile V.isVar).reverse

/-- The comparison of a match record with a template, lines 1802-1815 and 1894-1907: `m` is already cut. -/
def tmplEq (V : Vt κ) (m fields : List κ) : Bool :=
  decide (m.length = fields.length) && (m.zip fields).all fun y => V.isVar y.1 || V.same y.1 y.2

/-- The loop over the template list in find_index_template, lines 1885-1917. 0: not found. -/
def findT (V : Vt κ) (tm : Nat → Tm κ) (m : List κ) (n : Nat) : List Nat → Nat
  | [] => 0
  | x :: t =>
    if (tm x).fixed = n then if tmplEq V m (tm x).fields then x else findT V tm m n t
    else if (tm x).fixed < n then 0
    else findT V tm m n t

/-- The place of a new template in the list: the same loop in add_index_template (lines 1794-1823) and the insertion at line 1843. -/
def placeT (tm : Nat → Tm κ) (n : Nat) (new : Nat) : List Nat → List Nat
  | [] => [new]
  | x :: t => if (tm x).fixed < n then new :: x :: t else x :: placeT tm n new t

/-- find_index_template, Db/dbindex.c lines 1859-1918. -/
def findTemplate (V : Vt κ) (c : Cat κ) (m : List κ) : Nat :=
  if m.any V.isRec then 0
  else if fixedCount V m = 0 then 0
  else findT V c.tm (trim V m) (fixedCount V m) c.tlist

/-- The last part of add_index_template, Db/dbindex.c lines 1825-1843: a new template in the memory `new`. Its `refcount` is not written. -/
def newTemplate (V : Vt κ) (c : Cat κ) (m : List κ) (new : Nat) : Cat κ :=
  { c with tm := fun k => if k = new then { fields := trim V m, fixed := fixedCount V m, refs := (c.tm new).refs } else c.tm k
           tlist := placeT c.tm (fixedCount V m) new c.tlist }

/-- add_index_template, Db/dbindex.c lines 1758-1847; `new` is the memory for the template. -/
def addTemplate (V : Vt κ) (c : Cat κ) (m : List κ) (new : Nat) : Cat κ × Nat :=
  if m.any V.isRec then (c, 0)
  else if fixedCount V m = 0 then (c, 0)
  else if findT V c.tm (trim V m) (fixedCount V m) c.tlist ≠ 0 then (c, findT V c.tm (trim V m) (fixedCount V m) c.tlist)
  else (newTemplate V c m new, new)

/-! ## Indexes -/

/-- The test for the end of the loop at Db/dbindex.c lines 2176-2189: the index `x` comes after a new index with `n` fixed columns. -/
def stops (c : Cat κ) (n : Nat) (x : Nat) : Bool := if (c.hdr x).tmpl ≠ 0 then decide ((c.tm (c.hdr x).tmpl).fixed < n) else decide (n ≠ 0)

/-- The loop over the chain of the first column as a search for an identical index, Db/dbindex.c lines 2145-2192. -/
def seen (c : Cat κ) (n : Nat) (new : Hdr) : List Nat → Bool
  | [] => false
  | x :: t => if (c.hdr x).type = new.type ∧ (c.hdr x).tmpl = new.tmpl ∧ (c.hdr x).cols = new.cols then true
    else if stops c n x then false else seen c n new t

/-- The same loop as a search for the place of the new index in the chain of a column (`ilist[i]`), and the insertion, lines 2197-2206. -/
def place (c : Cat κ) (n : Nat) (new : Nat) : List Nat → List Nat
  | [] => [new]
  | x :: t => if stops c n x then new :: x :: t else x :: place c n new t

/-- The match record has a fixed value at position `k`. -/
def fixedAt (V : Vt κ) (m : List κ) (k : Nat) : Bool := (m[k]?).any fun v => !V.isVar v

/-- What is allocated during a call: the header, a template; whether the hash table can be created (wg_create_hash). -/
structure Al where
  hdr : Nat
  tmpl : Nat
  hash : Bool

/-- Db/dbindex.c lines 2194-2215: the header `id` is put into the chains of its columns and filled in. -/
def chain (c : Cat κ) (new : Hdr) (n : Nat) (id : Nat) : Cat κ :=
  { c with table := fun k => if k ∈ new.cols then place c n id (c.table k) else c.table k
           hdr := fun x => if x = id then new else c.hdr x }

/-- Db/dbindex.c lines 2234-2262: the index is added to the master list, to the lists of the fixed columns of the match record `m`, and counted. -/
def finish (V : Vt κ) (c : Cat κ) (off : Nat) (m : List κ) (id : Nat) : Cat κ :=
  { c with list := id :: c.list
           ttable := fun k => if off ≠ 0 ∧ fixedAt V m k = true then id :: c.ttable k else c.ttable k
           count := c.count + 1
           tm := fun k => if off ≠ 0 ∧ k = off then { c.tm k with refs := (c.tm k).refs + 1 } else c.tm k }

/-- The second part of wg_create_multi_index, Db/dbindex.c lines 2141-2265: `off` is the template, `m` the match record. -/
def link (V : Vt κ) (c : Cat κ) (sorted : List Int) (type : Int) (off : Nat) (m : List κ) (al : Al) : Cat κ × Int :=
  let n := if off = 0 then 0 else (c.tm off).fixed
  let new : Hdr := ⟨type, sorted, off⟩
  if seen c n new (c.table (sorted.headD 0)) then (c, -1)
  else if type = TTREE ∨ (type = HASH ∨ type = HASH_JSON) ∧ al.hash = true then (finish V (chain c new n al.hdr) off m al.hdr, 0)
  else (chain c new n al.hdr, -1)

/-- wg_create_multi_index, Db/dbindex.c lines 2048-2265. The check of `sorted_cols[i] > MAX_INDEXED_FIELDNR` (lines 2100-2106) is never
true: such columns are left out by sort_columns. -/
def create (V : Vt κ) (c : Cat κ) (cols : List Int) (type : Int) (m : Option (List κ)) (al : Al) : Cat κ × Int :=
  if cols.length < 1 then (c, -1)
  else if cols.length > maxFields then (c, -1)
  else if cols.length > 1 ∧ (type = TTREE ∨ type = TTREE_JSON) then (c, -1)
  else if (sortColumns cols).length < cols.length then (c, -1)
  else match m with
    | none => link V c (sortColumns cols) type 0 [] al
    | some m =>
      if m.length = 0 then (c, -1)
      else if m.length > 128 then (c, -1)
      else if (sortColumns cols).any fun i => fixedAt V m i.toNat then (c, -1)
      else
        let y := addTemplate V c m al.tmpl
        if y.2 = 0 then (y.1, -1) else link V y.1 (sortColumns cols) type y.2 m al

/-- remove_index_template, Db/dbindex.c lines 1925-1952. -/
def removeTemplate (c : Cat κ) (t : Nat) : Cat κ := { c with tlist := c.tlist.erase t }

/-- The first part of wg_drop_index, Db/dbindex.c lines 2281-2337: the index is taken off the lists. `delete_from_list` removes the first
cell with the value. -/
def unlink (V : Vt κ) (c : Cat κ) (id : Nat) : Cat κ :=
  { c with list := c.list.erase id
           table := fun k => if k ∈ (c.hdr id).cols then (c.table k).erase id else c.table k
           ttable := fun k => if (c.hdr id).tmpl ≠ 0 ∧ fixedAt V (c.tm (c.hdr id).tmpl).fields k = true then (c.ttable k).erase id else c.ttable k }

/-- The last part of wg_drop_index, Db/dbindex.c lines 2356-2369; `t` is the template of the index. -/
def release (c : Cat κ) (t : Nat) : Cat κ :=
  let c2 := { c with tm := fun k => if t ≠ 0 ∧ k = t then { c.tm k with refs := (c.tm k).refs - 1 } else c.tm k
                     count := c.count - 1 }
  if t ≠ 0 ∧ (c2.tm t).refs = 0 then removeTemplate c2 t else c2

/-- wg_drop_index, Db/dbindex.c lines 2274-2372. Dropping a hash index fails (drop_hash_index, lines 1678-1682). -/
def drop (V : Vt κ) (c : Cat κ) (id : Nat) : Cat κ × Int :=
  if id ∉ c.list then (c, -1)
  else if (c.hdr id).type = TTREE ∨ (c.hdr id).type = TTREE_JSON then (release (unlink V c id) (c.hdr id).tmpl, 0)
  else (unlink V c id, -1)

/-- The loop at Db/dbindex.c lines 2456-2482. -/
def findIn (c : Cat κ) (sorted : List Int) (type : Int) (t : Nat) : List Nat → Int
  | [] => -1
  | x :: l => if (type = 0 ∨ type = (c.hdr x).type) ∧ (c.hdr x).tmpl = t ∧ (c.hdr x).cols = sorted then x else findIn c sorted type t l

/-- wg_multi_column_to_index_id, Db/dbindex.c lines 2397-2483. `none`: reads outside of `index_table`. -/
def find (V : Vt κ) (c : Cat κ) (cols : List Int) (type : Int) (m : Option (List κ)) : Option Int :=
  let go := fun t =>
    if cols.length < 1 then some (-1)
    else if cols.length > maxFields then some (-1)
    else if cols.length > 1 ∧ (sortColumns cols).length < cols.length then some (-1)
    else
      let sorted := if cols.length > 1 then sortColumns cols else cols
      if sorted.any (fun i => decide (i > maxCol)) then some (-1)
      else if sorted.headD 0 < 0 then none
      else some (findIn c sorted type t (c.table (sorted.headD 0)))
  match m with
  | none => go 0
  | some m =>
    if m.length = 0 then some (-1)
    else if m.length > 128 then some (-1)
    else if findTemplate V c m = 0 then some (-1)
    else go (findTemplate V c m)

/-- wg_get_index_type, Db/dbindex.c lines 2491-2514. -/
def indexType (c : Cat κ) (id : Nat) : Int := if id ∈ c.list then (c.hdr id).type else -1

/-- wg_get_index_template, Db/dbindex.c lines 2525-2569; `none` is NULL. -/
def indexTemplate (c : Cat κ) (id : Nat) : Option (List κ) :=
  if id ∉ c.list then none else if (c.hdr id).tmpl = 0 then none else some (c.tm (c.hdr id).tmpl).fields

/-- Results of wg_get_all_indexes: writes after the end of the array, NULL, or the array. -/
inductive All
  | overflow
  | null
  | ids (l : List Nat)
  deriving DecidableEq

/-- wg_get_all_indexes, Db/dbindex.c lines 2578-2614. -/
def allIndexes (c : Cat κ) : All :=
  if c.count = 0 then .null
  else
    let l := (List.range 128).flatMap fun (k : Nat) => c.table (k : Int)
    if (l.length : Int) > c.count then .overflow
    else if (l.length : Int) ≠ c.count then .null
    else .ids l

/-- A new database; `tm` is the contents of unused memory. -/
def Cat.empty (tm : Nat → Tm κ) : Cat κ := ⟨fun _ => [], fun _ => ⟨0, [], 0⟩, [], [], tm, fun _ => [], 0⟩

end WG.IndexCat
