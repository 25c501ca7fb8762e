import Verif.TTree.Model
/-!
# Queries (Db/dbquery.c)

The database is seen through what the query code reads: the data records in scan order, their lengths and fields, the comparison of
values and the list of indexes of each column. Records are offsets; 0 is NULL. `malloc` and memory pools do not fail.
Loops take a bound `k` on their number of rounds; the theorems hold for every sufficiently large bound.
-/
namespace WG.Query
open WG.TTree

variable {κ : Type}

/-- An index header as far as queries read it (Db/dballoc.h lines 380-389): is it a T-tree (type 50), its tree, its template's match record.
A T-tree has exactly one column (Db/dbindex.c lines 2089-2093). -/
structure Idx (κ : Type) where
  ttree : Bool
  st : St κ
  tmpl : Option (List κ)

/-- What the query code reads of the database. `recs` is the order of `wg_get_first_record`/`wg_get_next_record` (C15); `fld r c` is
`wg_get_field(db, r, c)` for `c` below the length of the record; `cmp` is `WG_COMPARE`; `isVar` tells values of type `WG_VARTYPE`; `ill` is
`WG_ILLEGAL` and `null` the encoded NULL (0); `idx c` is the list at `index_table[c]`. -/
structure DB (κ : Type) where
  recs : List Nat
  len : Nat → Nat
  fld : Nat → Nat → κ
  cmp : κ → κ → Ordering
  isVar : κ → Bool
  ill : κ
  null : κ
  idx : Nat → List (Idx κ)

/-- Values as the T-tree index on column `c` sees them. -/
def DB.env (db : DB κ) (c : Nat) : Env κ := { key := fun r => db.fld r c, cmp := db.cmp, ill := db.ill }

/-- Conditions, Db/dbquery.h lines 41-46; `other` is any other number. -/
inductive Cond | equal | notEqual | lessThan | greater | ltEqual | gtEqual | other
  deriving DecidableEq

/-- `wg_query_arg`, Db/dbquery.h lines 56-60. Columns are not negative. -/
structure Arg (κ : Type) where
  col : Nat
  cond : Cond
  value : κ
  deriving DecidableEq

/-- MAX_INDEXED_FIELDNR, Db/dballoc.h. -/
def maxIndexed : Nat := 127

/-! ## Choosing an index -/

/-- TTREE_SCORE_EQUAL, TTREE_SCORE_BOUND, TTREE_SCORE_NULL, TTREE_SCORE_MASK, Db/dbquery.c lines 48-52. -/
def scoreEqual : Int := 5
def scoreBound : Int := 2
def scoreNull : Int := -1
def scoreMask : Int := 5

/-- The score of one argument, Db/dbquery.c lines 175-195. -/
def argScore [DecidableEq κ] (db : DB κ) (a : Arg κ) : Int :=
  match a.cond with
  | .equal => scoreEqual + if a.value = db.null then scoreNull else 0
  | .lessThan | .greater | .ltEqual | .gtEqual => scoreBound
  | _ => 0

/-- Add a score to the slot of a column, or open a slot after the used ones (lines 164-173). -/
def addScore (c : Nat) (x : Int) : List (Nat × Int) → List (Nat × Int)
  | [] => [(c, x)]
  | (d, y) :: t => if d = c then (d, y + x) :: t else (d, y) :: addScore c x t

/-- The used slots of the array `sc` after the loop of lines 156-196 of Db/dbquery.c. -/
def scores [DecidableEq κ] (db : DB κ) (args : List (Arg κ)) : List (Nat × Int) :=
  args.foldl (fun sc a => addScore a.col (argScore db a) sc) []

/-- The innermost loop, Db/dbquery.c lines 231-240: `none` is `goto nextindex`, otherwise the value of `match`. -/
def argsMatch (db : DB κ) (enc : κ) (j : Nat) : List (Arg κ) → Bool → Option Bool
  | [], m => some m
  | a :: t, m =>
    if a.col = j then
      if a.cond = .equal ∧ db.cmp enc a.value = .eq then argsMatch db enc j t true else none
    else argsMatch db enc j t m

/-- The loop over the columns of a template, Db/dbquery.c lines 222-252, from column `j`: the score so far, and whether the index is
usable. -/
def tmplMatch [DecidableEq κ] (db : DB κ) (args : List (Arg κ)) : List κ → Nat → Int → Int × Bool
  | [], _, sc => (sc, true)
  | enc :: t, j, sc =>
    if db.isVar enc then tmplMatch db args t (j + 1) sc
    else match argsMatch db enc j args false with
      | some true => tmplMatch db args t (j + 1) (sc + scoreMask + if enc = db.null then scoreNull else 0)
      | _ => (sc, false)

/-- The loop over the indexes of a column, Db/dbquery.c lines 203-262: first usable T-tree, and the score. -/
def findIndex [DecidableEq κ] (db : DB κ) (args : List (Arg κ)) : List (Idx κ) → Int → Option (St κ) × Int
  | [], sc => (none, sc)
  | ix :: t, sc =>
    if ix.ttree then
      match ix.tmpl with
      | none => (some ix.st, sc)
      | some m =>
        match tmplMatch db args m 0 sc with
        | (sc, true) => (some ix.st, sc)
        | (sc, false) => findIndex db args t sc
    else findIndex db args t sc

/-- The loop over the scores, Db/dbquery.c lines 199-271. The accumulator holds `mrc_score` and the column and index found so far; no
index is `index_id` 0. The code keeps the offset of the index in an `int` (line 143): the model assumes it fits (segments below 2 GB). -/
def bestLoop [DecidableEq κ] (db : DB κ) (args : List (Arg κ)) : List (Nat × Int) → Int × Option (Nat × St κ) → Option (Nat × St κ)
  | [], acc => acc.2
  | (c, sc) :: t, acc =>
    let (ix, sc) := findIndex db args (if c ≤ maxIndexed then db.idx c else []) sc
    let sc := if ix.isNone then 0 else sc
    bestLoop db args t (if sc > acc.1 then (sc, ix.map (fun st => (c, st))) else acc)

/-- `most_restricting_column`, Db/dbquery.c lines 137-279: column and index, or `none` if a full scan is to be made. -/
def mostRestricting [DecidableEq κ] (db : DB κ) (args : List (Arg κ)) : Option (Nat × St κ) :=
  bestLoop db args (scores db args) (-1, none)

/-! ## Checking rows -/

/-- The conditions of `check_arglist`, Db/dbquery.c lines 302-329. -/
def checkCond (db : DB κ) (enc : κ) (a : Arg κ) : Bool :=
  match a.cond with
  | .equal => db.cmp enc a.value == .eq
  | .lessThan => db.cmp enc a.value == .lt
  | .greater => db.cmp enc a.value == .gt
  | .ltEqual => db.cmp enc a.value != .gt
  | .gtEqual => db.cmp enc a.value != .lt
  | .notEqual => db.cmp enc a.value != .eq
  | .other => true

/-- `check_arglist`, Db/dbquery.c lines 285-333. -/
def checkArglist (db : DB κ) (r : Nat) : List (Arg κ) → Bool
  | [] => true
  | a :: t => if a.col < db.len r then (if checkCond db (db.fld r a.col) a then checkArglist db r t else false) else false

/-- Conditions made from a match record, Db/dbquery.c lines 418-427, from column `i`. -/
def matchArgs (db : DB κ) : List κ → Nat → List (Arg κ)
  | [], _ => []
  | v :: t, i => if db.isVar v then matchArgs db t (i + 1) else ⟨i, .equal, v⟩ :: matchArgs db t (i + 1)

/-- `prepare_params`, Db/dbquery.c lines 350-436. A missing (NULL) match record or argument list is `none`; the result `none` is an
error. (A NULL argument list with a count other than 0 is also an error.) -/
def prepareParams (db : DB κ) (matchrec : Option (List κ)) (arglist : Option (List (Arg κ))) : Option (List (Arg κ)) :=
  if matchrec.map List.isEmpty = some true then none
  else if arglist.map List.isEmpty = some true then none
  else some (arglist.getD [] ++ matchArgs db (matchrec.getD []) 0)

/-! ## Bounds from the conditions -/

/-- The variables of the loop over the conditions, Db/dbquery.c lines 709-711; `all` is `query->column = -1`. -/
structure Bnds (κ : Type) where
  sb : κ
  si : Bool
  eb : κ
  ei : Bool
  all : Bool

/-- One round of the loop, Db/dbquery.c lines 751-813. -/
def boundStep [DecidableEq κ] (db : DB κ) (col : Nat) (b : Bnds κ) (a : Arg κ) : Bnds κ :=
  if a.col ≠ col then b
  else match a.cond with
  | .equal =>
    let b := if b.sb = db.ill ∨ db.cmp b.sb a.value = .lt then { b with sb := a.value, si := true } else b
    if b.eb = db.ill ∨ db.cmp b.eb a.value = .gt then { b with eb := a.value, ei := true } else b
  | .lessThan => if b.eb = db.ill ∨ db.cmp b.eb a.value ≠ .lt then { b with eb := a.value, ei := false } else b
  | .greater => if b.sb = db.ill ∨ db.cmp b.sb a.value ≠ .gt then { b with sb := a.value, si := false } else b
  | .ltEqual => if b.eb = db.ill ∨ db.cmp b.eb a.value = .gt then { b with eb := a.value, ei := true } else b
  | .gtEqual => if b.sb = db.ill ∨ db.cmp b.sb a.value = .lt then { b with sb := a.value, si := true } else b
  | .notEqual => { b with all := true }
  | .other => b

def bounds [DecidableEq κ] (db : DB κ) (col : Nat) (args : List (Arg κ)) : Bnds κ :=
  args.foldl (boundStep db col) ⟨db.ill, false, db.ill, false, false⟩

/-! ## Query objects -/

/-- WG_QTYPE_TTREE, WG_QTYPE_SCAN, WG_QTYPE_PREFETCH, Db/dbquery.h lines 48-51. -/
inductive QType | ttree | scan | prefetch
  deriving DecidableEq

/-- `wg_query`, Db/dbquery.h lines 68-88. `st` is the index the T-tree offsets point into; `pages` are the page `curr_page` and the pages
linked after it; `resCount` is `none` while the field has not been assigned. -/
structure Query (κ : Type) where
  qtype : QType
  args : List (Arg κ)
  st : St κ
  rng : Rng
  curr : Nat
  pages : List (List Nat)
  pidx : Nat
  resCount : Option Nat

/-- QUERY_RESULTSET_PAGESIZE, Db/dbquery.c line 57. -/
def pageSize : Nat := 63

/-- `wg_get_first_record`, `wg_get_next_record` (Db/dbdata.c lines 296, 306). -/
def firstRec (db : DB κ) : Nat := db.recs.headD 0
def nextRec (db : DB κ) (r : Nat) : Nat := (db.recs.dropWhile (· ≠ r)).tail.headD 0

/-- Scan part of `wg_fetch`, Db/dbquery.c lines 994-1019: record (0 is NULL) and new `curr_record`. -/
def scanFetch (db : DB κ) (args : List (Arg κ)) : Nat → Nat → Nat × Nat
  | 0, cur => (0, cur)
  | k + 1, cur =>
    if cur = 0 then (0, cur)
    else if checkArglist db cur args then (cur, nextRec db cur)
    else scanFetch db args k (nextRec db cur)

/-- T-tree part of `wg_fetch`, Db/dbquery.c lines 1020-1081. -/
def ttreeFetch (db : DB κ) (st : St κ) (args : List (Arg κ)) : Nat → Rng → Nat × Rng
  | 0, r => (0, r)
  | k + 1, r =>
    if r.co = 0 then (0, r)
    else if checkArglist db (rowAt st r) args then (rowAt st r, nextPos st r)
    else ttreeFetch db st args k (nextPos st r)

/-- Prefetch part of `wg_fetch`, Db/dbquery.c lines 1082-1098. -/
def prefetchFetch (q : Query κ) : Nat × Query κ :=
  match q.pages with
  | [] => (0, q)
  | p :: ps =>
    let offset := p.getD q.pidx 0
    if offset = 0 then (0, { q with pages := [], pidx := q.pidx + 1 })
    else if q.pidx + 1 ≥ pageSize then (offset, { q with pages := ps, pidx := 0 })
    else (offset, { q with pidx := q.pidx + 1 })

/-- `wg_fetch`, Db/dbquery.c lines 976-1104. -/
def fetch (db : DB κ) (k : Nat) (q : Query κ) : Nat × Query κ :=
  match q.qtype with
  | .scan => let x := scanFetch db q.args k q.curr; (x.1, { q with curr := x.2 })
  | .ttree => let x := ttreeFetch db q.st q.args k q.rng; (x.1, { q with rng := x.2 })
  | .prefetch => prefetchFetch q

/-- The loop that fills the pages, Db/dbquery.c lines 916-936: query, pages, number of rows. The outer bound `n` is on the rows. -/
def prefetchLoop (db : DB κ) (k limit : Nat) : Nat → Query κ → List (List Nat) → Nat → Nat → Query κ × List (List Nat) × Nat
  | 0, q, pages, _, cnt => (q, pages, cnt)
  | n + 1, q, pages, i, cnt =>
    let x := fetch db k q
    if x.1 = 0 then (x.2, pages, cnt)
    else
      let (pages, i) := if i ≥ pageSize then (pages ++ [List.replicate pageSize 0], 0) else (pages, i)
      let pages := pages.dropLast ++ [(pages.getLastD []).set i x.1]
      if limit ≠ 0 ∧ cnt + 1 ≥ limit then (x.2, pages, cnt + 1)
      else prefetchLoop db k limit n x.2 pages (i + 1) (cnt + 1)

/-- The nodes and cursors of a query that has none. -/
def noTree (ill : κ) : St κ :=
  { h := fun _ => { parent := 0, left := 0, right := 0, lh := 0, rh := 0, mn := ill, mx := ill, vals := [], succ := 0, pred := 0 }, root := 0, minN := 0, maxN := 0 }

/-- `internal_build_query`, Db/dbquery.c lines 668-893, that is before the post-processing: the query object, and whether the function
has returned early (lines 816-823). `none` is NULL. -/
def buildPlain [DecidableEq κ] (db : DB κ) (k : Nat) (matchrec : Option (List κ)) (arglist : Option (List (Arg κ))) : Option (Query κ × Bool) :=
  match prepareParams db matchrec arglist with
  | none => none
  | some args =>
    match mostRestricting db args with
    | some (col, st) =>
      let b := bounds db col args
      if b.sb ≠ db.ill ∧ b.eb ≠ db.ill ∧ db.cmp b.sb b.eb = .gt then
        some (⟨.ttree, [], st, ⟨0, -1, 0, -1⟩, 0, [], 0, none⟩, true)
      else
        match findBounds (db.env col) k st b.sb b.eb b.si b.ei with
        | none => none
        | some r => some (⟨.ttree, if b.all then args else args.filter (fun a => a.col ≠ col), st, r, 0, [], 0, none⟩, false)
    | none => some (⟨.scan, args, noTree db.ill, ⟨0, -1, 0, -1⟩, firstRec db, [], 0, none⟩, false)

/-- `internal_build_query` with QUERY_FLAGS_PREFETCH, as called by `wg_make_query` (with limit 0) and `wg_make_query_rc`,
Db/dbquery.c lines 668-971. -/
def makeQuery [DecidableEq κ] (db : DB κ) (k : Nat) (matchrec : Option (List κ)) (arglist : Option (List (Arg κ))) (limit : Nat) : Option (Query κ) :=
  match buildPlain db k matchrec arglist with
  | none => none
  | some (q, true) => some q
  | some (q, false) =>
    let x := prefetchLoop db k limit k q [] pageSize 0
    some { x.1 with qtype := .prefetch, pages := x.2.1, pidx := 0, resCount := some x.2.2 }

/-! ## wg_find_record -/

/-- Scan part of `wg_find_record`, Db/dbquery.c lines 2134-2139. -/
def findScan (db : DB κ) (a : Arg κ) : Nat → Nat → Nat
  | 0, _ => 0
  | k + 1, r => if r = 0 then 0 else if checkArglist db r [a] then r else findScan db a k (nextRec db r)

/-- The loop over index rows in `wg_find_record`, Db/dbquery.c lines 2085-2118. -/
def findTree (st : St κ) (last : Nat) : Nat → Nat → Rng → Nat
  | 0, _, _ => 0
  | k + 1, prev, r =>
    if r.co = 0 then 0
    else if prev = last then rowAt st r
    else findTree st last k (rowAt st r) (nextPos st r)

/-- The bounds of `wg_find_record`, Db/dbquery.c lines 2055-2077: start, end, and whether they are inclusive. -/
def findArgs (db : DB κ) (c : Cond) (data : κ) : Option (κ × κ × Bool × Bool) :=
  match c with
  | .equal => some (data, data, true, true)
  | .lessThan => some (db.ill, data, true, false)
  | .greater => some (data, db.ill, false, true)
  | .ltEqual => some (db.ill, data, true, true)
  | .gtEqual => some (data, db.ill, true, true)
  | _ => none

/-- `wg_multi_column_to_index_id` for one column, T-trees, no match record (Db/dbindex.c lines 2397-2483). -/
def columnIndex (db : DB κ) (col : Nat) : Option (Idx κ) :=
  if col ≤ maxIndexed then (db.idx col).find? (fun ix => ix.ttree && ix.tmpl.isNone) else none

/-- `wg_find_record`, Db/dbquery.c lines 2043-2152; 0 is NULL. -/
def findRecord [DecidableEq κ] (db : DB κ) (k : Nat) (col : Nat) (c : Cond) (data : κ) (last : Nat) : Nat :=
  match if c = .notEqual then none else columnIndex db col with
  | some ix =>
    match findArgs db c data with
    | none => 0
    | some (sb, eb, si, ei) =>
      match findBounds (db.env col) k ix.st sb eb si ei with
      | none => 0
      | some r => findTree ix.st last k 0 r
  | none => findScan db ⟨col, c, data⟩ k (if last ≠ 0 then nextRec db last else firstRec db)

end WG.Query
