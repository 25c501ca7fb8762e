/-!
# The T-tree index (Db/dbindex.c), on the level of nodes and offsets

Nodes are addressed by offset; 0 is the null offset. The slots `array_of_values[0 .. number_of_elements-1]` of a node are a list; the
loops that shift slots are the corresponding list operations. A row is its offset; `key` gives the value of the indexed column of
a row (`wg_get_field(db, rec, column)`), which does not change while the row is in the index. `cmp` is `WG_COMPARE`.
Configuration: TTREE_CHAINED_NODES, TTREE_SINGLE_COMPARE, WG_TNODE_ARRAY_SIZE 8.
Loops and recursions take a bound `k` on their number of rounds; the theorems hold for every sufficiently large bound.
-/
namespace WG.TTree

/-- `struct wg_tnode`, Db/dbindex.h lines 87-101. Heights are `unsigned char` and the number of elements is `short` in the code;
see `C23_height_bound` for why they do not overflow. -/
structure Nd (κ : Type) where
  parent : Nat
  left : Nat
  right : Nat
  lh : Nat
  rh : Nat
  mn : κ
  mx : κ
  vals : List Nat
  succ : Nat
  pred : Nat

/-- The nodes, and root, minimum and maximum node from the index header (Db/dbindex.h lines 73-76). -/
structure St (κ : Type) where
  h : Nat → Nd κ
  root : Nat
  minN : Nat
  maxN : Nat

/-- Values of the indexed column, their comparison, and `WG_ILLEGAL`. -/
structure Env (κ : Type) where
  key : Nat → κ
  cmp : κ → κ → Ordering
  ill : κ

/-- WG_TNODE_ARRAY_SIZE, Db/dballoc.h. -/
def CAP : Nat := 8

variable {κ : Type}

/-- Assignment to fields of the node at `i`. -/
def St.mod (s : St κ) (i : Nat) (f : Nd κ → Nd κ) : St κ := { s with h := fun j => if j = i then f (s.h i) else s.h j }

/-- `*result` of a search (Db/dbindex.h: REALLY_BOUNDING_NODE, DEAD_END_LEFT_NOT_BOUNDING, DEAD_END_RIGHT_NOT_BOUNDING). -/
inductive Bound | really | deadLeft | deadRight
  deriving DecidableEq

/-! ## Searching -/

/-- `wg_search_ttree_rightmost`, Db/dbindex.c lines 1181-1228; also `db_find_bounding_tnode` (line 187). `rb` 0 is NULL. -/
def searchRight (E : Env κ) (s : St κ) (key : κ) : Nat → Nat → Nat → Nat × Bound
  | 0, node, _ => (node, .deadLeft)
  | k + 1, node, rb =>
    if E.cmp key (s.h node).mn = .lt then
      if (s.h node).left ≠ 0 then searchRight E s key k (s.h node).left rb
      else if rb ≠ 0 ∧ E.cmp key (s.h rb).mx ≠ .gt then (rb, .really)
      else (node, .deadLeft)
    else if (s.h node).right ≠ 0 then searchRight E s key k (s.h node).right node
    else if E.cmp key (s.h node).mx ≠ .gt then (node, .really)
    else (node, .deadRight)

/-- `wg_search_ttree_leftmost`, Db/dbindex.c lines 1258-1294. -/
def searchLeft (E : Env κ) (s : St κ) (key : κ) : Nat → Nat → Nat → Nat × Bound
  | 0, node, _ => (node, .deadLeft)
  | k + 1, node, lb =>
    if E.cmp key (s.h node).mx = .gt then
      if (s.h node).right ≠ 0 then searchLeft E s key k (s.h node).right lb
      else if lb ≠ 0 ∧ E.cmp key (s.h lb).mn ≠ .lt then (lb, .really)
      else (node, .deadRight)
    else if (s.h node).left ≠ 0 then searchLeft E s key k (s.h node).left node
    else if E.cmp key (s.h node).mn ≠ .lt then (node, .really)
    else (node, .deadLeft)

/-! ## Rotations -/

inductive Case | LL | LR | RL | RR
  deriving DecidableEq

/-- `db_which_branch_causes_overweight`, Db/dbindex.c lines 196-207. -/
def overweight (s : St κ) (root : Nat) : Case :=
  if (s.h root).lh > (s.h root).rh then
    let child := (s.h root).left
    if (s.h child).lh ≥ (s.h child).rh then .LL else .LR
  else
    let child := (s.h root).right
    if (s.h child).lh > (s.h child).rh then .RL else .RR

/-- `if(c != 0) node(c)->parent_offset = p`. -/
def St.reparent (s : St κ) (c p : Nat) : St κ := if c ≠ 0 then s.mod c (fun n => { n with parent := p }) else s

/-- `db_rotate_ttree`, case LL, Db/dbindex.c lines 217-242: new state and `r`. -/
def rotLL (s : St κ) (root : Nat) : St κ × Nat :=
  let lc := (s.h root).left
  let rgc := (s.h lc).right
  let rgh := (s.h lc).rh
  let s := s.mod root (fun n => { n with left := rgc, lh := rgh })
  let s := s.reparent rgc root
  let s := s.mod lc (fun n => { n with right := root, rh := max (s.h root).lh (s.h root).rh + 1 })
  let s := s.mod root (fun n => { n with parent := lc })
  (s, lc)

/-- Case RR, Db/dbindex.c lines 244-267. -/
def rotRR (s : St κ) (root : Nat) : St κ × Nat :=
  let rc := (s.h root).right
  let lgc := (s.h rc).left
  let lgh := (s.h rc).lh
  let s := s.mod root (fun n => { n with right := lgc, rh := lgh })
  let s := s.reparent lgc root
  let s := s.mod rc (fun n => { n with left := root, lh := max (s.h root).rh (s.h root).lh + 1 })
  let s := s.mod root (fun n => { n with parent := rc })
  (s, rc)

/-- Case LR, Db/dbindex.c lines 269-330. -/
def rotLR (E : Env κ) (s : St κ) (root : Nat) : St κ × Nat :=
  let bb := (s.h root).left
  let ee := (s.h bb).right
  let s := s.mod root (fun n => { n with left := (s.h ee).right, lh := (s.h ee).rh })
  let s := s.reparent (s.h ee).right root
  let s := s.mod bb (fun n => { n with right := (s.h ee).left, rh := (s.h ee).lh })
  let s := s.reparent (s.h ee).left bb
  let s :=
    if (s.h ee).vals.length = 1 ∧ (s.h ee).right = 0 ∧ (s.h ee).left = 0 ∧ (s.h bb).vals.length = CAP then
      let v := (s.h bb).vals.drop 1 ++ (s.h ee).vals
      let s := s.mod ee (fun n => { n with vals := v, mn := E.key (v.headD 0) })
      s.mod bb (fun n => { n with vals := n.vals.take 1, mx := n.mn })
    else s
  let s := s.mod ee (fun n => { n with left := bb, lh := max (s.h bb).rh (s.h bb).lh + 1 })
  let s := s.mod bb (fun n => { n with parent := ee })
  let s := s.mod ee (fun n => { n with right := root, rh := max (s.h root).rh (s.h root).lh + 1 })
  let s := s.mod root (fun n => { n with parent := ee })
  (s, ee)

/-- Case RL, Db/dbindex.c lines 332-392. -/
def rotRL (E : Env κ) (s : St κ) (root : Nat) : St κ × Nat :=
  let bb := (s.h root).right
  let ee := (s.h bb).left
  let s := s.mod root (fun n => { n with right := (s.h ee).left, rh := (s.h ee).lh })
  let s := s.reparent (s.h ee).left root
  let s := s.mod bb (fun n => { n with left := (s.h ee).right, lh := (s.h ee).rh })
  let s := s.reparent (s.h ee).right bb
  let s :=
    if (s.h ee).vals.length = 1 ∧ (s.h ee).right = 0 ∧ (s.h ee).left = 0 ∧ (s.h bb).vals.length = CAP then
      let v := (s.h ee).vals ++ (s.h bb).vals.dropLast
      let s := s.mod ee (fun n => { n with vals := v, mx := E.key (v.getLastD 0) })
      s.mod bb (fun n => { n with vals := [n.vals.getLastD 0], mn := n.mx })
    else s
  let s := s.mod ee (fun n => { n with right := bb, rh := max (s.h bb).rh (s.h bb).lh + 1 })
  let s := s.mod bb (fun n => { n with parent := ee })
  let s := s.mod ee (fun n => { n with left := root, lh := max (s.h root).rh (s.h root).lh + 1 })
  let s := s.mod root (fun n => { n with parent := ee })
  (s, ee)

/-- The fix of the grandparent in `db_rotate_ttree`, Db/dbindex.c lines 403-417. -/
def gpFix (s : St κ) (gp root r : Nat) : St κ :=
  if gp = 0 then
    { s.mod r (fun n => { n with parent := 0 }) with root := r }
  else
    let s := s.mod r (fun n => { n with parent := gp })
    if (s.h gp).left = root then s.mod gp (fun n => { n with left := r, lh := max (s.h r).lh (s.h r).rh + 1 })
    else s.mod gp (fun n => { n with right := r, rh := max (s.h r).lh (s.h r).rh + 1 })

/-- `db_rotate_ttree`, Db/dbindex.c lines 209-420. -/
def rotate (E : Env κ) (s : St κ) (root : Nat) (ow : Case) : St κ :=
  let x := match ow with
    | .LL => rotLL s root
    | .RR => rotRR s root
    | .LR => rotLR E s root
    | .RL => rotRL E s root
  gpFix x.1 (s.h root).parent root x.2

/-! ## Adding a row -/

/-- The loop of `ttree_add_row` after a new node was attached, Db/dbindex.c lines 718-749. -/
def retraceAdd (E : Env κ) : Nat → St κ → Nat → St κ
  | 0, s, _ => s
  | k + 1, s, child =>
    let parent := (s.h child).parent
    if parent ≠ 0 then
      let s := if (s.h parent).left = child then s.mod parent (fun n => { n with lh := n.lh + 1 })
               else s.mod parent (fun n => { n with rh := n.rh + 1 })
      let lh := (s.h parent).lh
      let rh := (s.h parent).rh
      if lh = rh then s
      else if lh > rh + 1 ∨ rh > lh + 1 then rotate E s parent (overweight s parent)
      else retraceAdd E k s parent
    else s

/-- First slot whose value is not less than `v`, or the number of elements (lines 464-482). -/
def slotFirst (E : Env κ) (v : κ) : List Nat → Nat
  | [] => 0
  | x :: l => if E.cmp (E.key x) v ≠ .lt then 0 else slotFirst E v l + 1

/-- Scan from slot `i` down to slot 1 for a value that is not greater than `v`; 0 if there is none (lines 511-521). -/
def slotLast (E : Env κ) (v : κ) (l : List Nat) : Nat → Nat
  | 0 => 0
  | i + 1 => if E.cmp (E.key (l.getD (i + 1) 0)) v ≠ .gt then i + 1 else slotLast E v l i

/-- A new leaf with one row, without its links in the sequential chain (lines 563-572, 659-668). -/
def newLeaf (s : St κ) (nn parent : Nat) (v : κ) (row : Nat) : St κ :=
  s.mod nn (fun n => { n with parent := parent, lh := 0, rh := 0, mx := v, mn := v, vals := [row], left := 0, right := 0 })

/-- New node `nn` as left child of `node` and its predecessor in the chain (lines 579-592 and 672-687). -/
def attachLeft (s : St κ) (node nn : Nat) : St κ :=
  let s := s.mod node (fun n => { n with left := nn })
  let s := s.mod nn (fun n => { n with succ := node, pred := (s.h node).pred })
  let s := if (s.h node).pred ≠ 0 then s.mod (s.h node).pred (fun n => { n with succ := nn }) else { s with minN := nn }
  s.mod node (fun n => { n with pred := nn })

/-- New node `nn` as right child of `node` and its successor in the chain (lines 598-616 and 690-705; in the first place a missing
successor is an error, which `C22_no_panic` excludes). -/
def attachRight (s : St κ) (node nn : Nat) : St κ :=
  let s := s.mod node (fun n => { n with right := nn })
  let s := s.mod nn (fun n => { n with succ := (s.h node).succ, pred := node })
  let s := if (s.h node).succ ≠ 0 then s.mod (s.h node).succ (fun n => { n with pred := nn }) else { s with maxN := nn }
  s.mod node (fun n => { n with succ := nn })

/-- Insertion into a full bounding node, up to the eviction of its minimum (lines 504-539). -/
def insertFull (E : Env κ) (s : St κ) (node row : Nat) : St κ :=
  let v := E.key row
  let vals := (s.h node).vals
  let i := slotLast E v vals (CAP - 1)
  let vals' := (vals.drop 1).take i ++ row :: vals.drop (i + 1)
  let s := s.mod node (fun n => { n with vals := vals' })
  if i = 0 then s.mod node (fun n => { n with mn := v })
  else
    let s := s.mod node (fun n => { n with mn := E.key (vals'.headD 0) })
    if i = CAP - 1 then s.mod node (fun n => { n with mx := v }) else s

/-- `ttree_add_row`, Db/dbindex.c lines 428-752. `nn` is what the node allocator returns if it is asked (`none` for no memory). The
result codes are 0 and -1. -/
def addRow (E : Env κ) (k : Nat) (s : St κ) (nn : Option Nat) (row : Nat) : St κ × Int :=
  if s.root = 0 then (s, -1)
  else
    let v := E.key row
    match searchRight E s v k s.root 0 with
    | (node, .really) =>
      if (s.h node).vals.length < CAP then
        let i := slotFirst E v (s.h node).vals
        let s := s.mod node (fun n => { n with vals := n.vals.take i ++ row :: n.vals.drop i })
        (if i = 0 then s.mod node (fun n => { n with mn := v }) else s, 0)
      else
        let minvalue := (s.h node).mn
        let minrow := (s.h node).vals.headD 0
        let s := insertFull E s node row
        let glb := if (s.h node).left ≠ 0 then (s.h node).pred else node
        if (s.h glb).vals.length < CAP then
          (s.mod glb (fun n => { n with vals := n.vals ++ [minrow], mx := minvalue }), 0)
        else
          match nn with
          | none => (s, -1)
          | some nn =>
            let s := newLeaf s nn glb minvalue minrow
            if node = glb then (retraceAdd E k (attachLeft s glb nn) nn, 0)
            else if (s.h glb).succ = 0 then
              (s.mod nn (fun n => { n with succ := 0, pred := glb }) |>.mod glb (fun n => { n with right := nn }), -1)
            else (retraceAdd E k (attachRight s glb nn) nn, 0)
    | (node, bt) =>
      if (s.h node).vals.length < CAP then
        let s := if bt = .deadLeft then s.mod node (fun n => { n with vals := row :: n.vals, mn := v })
                 else s.mod node (fun n => { n with vals := n.vals ++ [row], mx := v })
        (if (s.h node).vals.length = 1 then s.mod node (fun n => { n with mx := v, mn := v }) else s, 0)
      else
        match nn with
        | none => (s, -1)
        | some nn =>
          let s := newLeaf s nn node v row
          (retraceAdd E k (if bt = .deadLeft then attachLeft s node nn else attachRight s node nn) nn, 0)

/-! ## Removing a row -/

/-- Scan for the row from the leftmost bounding node on, Db/dbindex.c lines 801-817. -/
def findRow (E : Env κ) (s : St κ) (key : κ) (row : Nat) : Nat → Nat → Option (Nat × Nat)
  | 0, _ => none
  | k + 1, node =>
    match (s.h node).vals.findIdx? (· == row) with
    | some i => some (node, i)
    | none =>
      let nx := (s.h node).succ
      if nx = 0 then none
      else if E.cmp (s.h nx).mn key = .gt then none
      else findRow E s key row k nx

/-- Remove slot `i` of a node and update minimum and maximum (lines 820-838). -/
def removeSlot (E : Env κ) (s : St κ) (node i : Nat) : St κ :=
  let s := s.mod node (fun n => { n with vals := n.vals.eraseIdx i })
  let v := (s.h node).vals
  if i = v.length ∧ v.length ≠ 0 then s.mod node (fun n => { n with mx := E.key (v.getLastD 0) })
  else if i = 0 ∧ v.length ≠ 0 then s.mod node (fun n => { n with mn := E.key (v.headD 0) })
  else s

/-- Borrow the greatest lower bound (lines 849-871). -/
def borrow (E : Env κ) (s : St κ) (node glb : Nat) : St κ :=
  let g := (s.h glb).vals
  let gmx := (s.h glb).mx
  let s := s.mod node (fun n => { n with vals := g.getLastD 0 :: n.vals, mn := gmx })
  let s := if (s.h node).vals.length = 1 then s.mod node (fun n => { n with mx := gmx }) else s
  let s := s.mod glb (fun n => { n with vals := g.dropLast })
  if g.dropLast.length ≠ 0 then s.mod glb (fun n => { n with mx := E.key (g.dropLast.getLastD 0) }) else s

/-- Take a node out of the sequential chain (lines 893-907 and 971-985). -/
def unchain (s : St κ) (x : Nat) : St κ :=
  let sc := (s.h x).succ
  let pd := (s.h x).pred
  let s := if sc ≠ 0 then s.mod sc (fun n => { n with pred := pd }) else { s with maxN := pd }
  if pd ≠ 0 then s.mod pd (fun n => { n with succ := sc }) else { s with minN := sc }

/-- Delete an empty leaf (lines 880-920): state, `parent` (0 for NULL), and the node freed (0 for none). -/
def dropLeaf (E : Env κ) (s : St κ) (node : Nat) : St κ × Nat × Nat :=
  let p := (s.h node).parent
  let s := if p ≠ 0 then
      if (s.h p).left = node then s.mod p (fun n => { n with left := 0, lh := 0 })
      else s.mod p (fun n => { n with right := 0, rh := 0 })
    else s
  let s := unchain s node
  if node ≠ s.root then (s, p, node)
  else ({ s.mod node (fun n => { n with mx := E.ill, mn := E.ill }) with maxN := s.root, minN := s.root }, p, 0)

/-- Merge a half-leaf with its leaf if all elements fit (lines 925-997): state, `parent` if a merge happened (else 0), the node
freed, and whether the tree is reported as unbalanced (result -4). -/
def mergeLeaf (s : St κ) (node : Nat) : St κ × Nat × Nat × Bool :=
  let nl := (s.h node).left
  let nr := (s.h node).right
  if (nl = 0 ∧ nr ≠ 0) ∨ (nl ≠ 0 ∧ nr = 0) then
    let child := if nl ≠ 0 then nl else nr
    if ¬ ((s.h child).lh = 0 ∧ (s.h child).rh = 0) then (s, 0, 0, true)
    else
      let own := (s.h node).vals
      let cv := (s.h child).vals
      if own.length + cv.length ≤ CAP then
        let cmn := (s.h child).mn
        let cmx := (s.h child).mx
        let s := if nl ≠ 0 then
            let s := s.mod node (fun n => { n with vals := cv ++ own, lh := 0, left := 0, mn := cmn })
            if own.length = 0 then s.mod node (fun n => { n with mx := cmx }) else s
          else
            let s := s.mod node (fun n => { n with vals := own ++ cv, rh := 0, right := 0, mx := cmx })
            if own.length = 0 then s.mod node (fun n => { n with mn := cmn }) else s
        let s := unchain s child
        let p := (s.h node).parent
        let s := if p ≠ 0 then
            if (s.h p).left = node then s.mod p (fun n => { n with lh := 1 }) else s.mod p (fun n => { n with rh := 1 })
          else s
        (s, p, child, false)
      else (s, 0, 0, false)
  else (s, 0, 0, false)

/-- The loop of `ttree_remove_row` that restores balance up to the root (lines 1001-1028). -/
def retraceDel (E : Env κ) : Nat → St κ → Nat → St κ
  | 0, s, _ => s
  | k + 1, s, parent =>
    let lh := (s.h parent).lh
    let rh := (s.h parent).rh
    let s :=
      if lh > rh + 1 ∨ rh > lh + 1 then rotate E s parent (overweight s parent)
      else if (s.h parent).parent ≠ 0 then
        let gp := (s.h parent).parent
        if (s.h gp).left = parent then s.mod gp (fun n => { n with lh := 1 + max lh rh })
        else s.mod gp (fun n => { n with rh := 1 + max lh rh })
      else s
    if (s.h parent).parent = 0 then s
    else retraceDel E k s (s.h parent).parent

/-- The part of `ttree_remove_row` after the slot was removed and the greatest lower bound was borrowed, Db/dbindex.c lines 874-1030.
The code tests the links of an empty leaf again after it was freed; freeing writes the first word of a cell only, the parent offset
(`Fixlen.C11_free_frame`), so the second test reads the zeros the first one read. -/
def settle (E : Env κ) (k : Nat) (s : St κ) (node : Nat) : St κ × List Nat × Int :=
  if (s.h node).left = 0 ∧ (s.h node).right = 0 ∧ (s.h node).vals.length = 0 then
    let x := dropLeaf E s node
    (if x.2.1 ≠ 0 then retraceDel E k x.1 x.2.1 else x.1, if x.2.2 ≠ 0 then [x.2.2] else [], 0)
  else
    let x := mergeLeaf s node
    if x.2.2.2 then (x.1, [], -4)
    else (if x.2.1 ≠ 0 then retraceDel E k x.1 x.2.1 else x.1, if x.2.2.1 ≠ 0 then [x.2.2.1] else [], 0)

/-- `ttree_remove_row`, Db/dbindex.c lines 763-1030. Result codes 0, -1, -2, -3, -4; the second component is the list of nodes given
back to the node allocator. -/
def removeRow (E : Env κ) (k : Nat) (s : St κ) (row : Nat) : St κ × List Nat × Int :=
  if s.root = 0 then (s, [], -1)
  else
    let key := E.key row
    match searchLeft E s key k s.root 0 with
    | (_, .deadLeft) | (_, .deadRight) => (s, [], -2)
    | (b, .really) =>
      match findRow E s key row k b with
      | none => (s, [], -3)
      | some (node, i) =>
        let s := removeSlot E s node i
        let glb := (s.h node).pred
        let bor := (s.h node).vals.length < 5 ∧ (s.h node).left ≠ 0 ∧ (s.h node).right ≠ 0
        settle E k (if bor then borrow E s node glb else s) (if bor then glb else node)

/-! ## Lookup -/

/-- `wg_search_ttree_index`, Db/dbindex.c lines 1043-1092: offset of a row with the key; 0 if there is none. -/
def scanKey (E : Env κ) (s : St κ) (key : κ) : Nat → Nat → Nat
  | 0, _ => 0
  | k + 1, node =>
    match (s.h node).vals.find? (fun r => E.cmp (E.key r) key == .eq) with
    | some r => r
    | none =>
      let nx := (s.h node).succ
      if nx = 0 then 0
      else if E.cmp (s.h nx).mn key = .gt then 0
      else scanKey E s key k nx

/-- `wg_search_ttree_index`; -1 if the index does not exist. -/
def searchIndex (E : Env κ) (k : Nat) (s : St κ) (key : κ) : Int :=
  if s.root = 0 then -1
  else match searchLeft E s key k s.root 0 with
    | (b, .really) => scanKey E s key k b
    | _ => 0

/-- `wg_search_tnode_first`, Db/dbindex.c lines 1326-1342: first slot whose value is not less than the key; `none` is -1. -/
def tnodeFirst (E : Env κ) (s : St κ) (node : Nat) (key : κ) : Option Nat :=
  (s.h node).vals.findIdx? (fun r => E.cmp (E.key r) key != .lt)

/-- The loop of `wg_search_tnode_last`, from slot `i - 1` down. -/
def lastScan (E : Env κ) (l : List Nat) (key : κ) : Nat → Option Nat
  | 0 => none
  | i + 1 => if E.cmp (E.key (l.getD i 0)) key != .gt then some i else lastScan E l key i

/-- `wg_search_tnode_last`, Db/dbindex.c lines 1349-1364: last slot whose value is not greater than the key; `none` is -1. -/
def tnodeLast (E : Env κ) (s : St κ) (node : Nat) (key : κ) : Option Nat :=
  lastScan E (s.h node).vals key (s.h node).vals.length

/-! ## Bounds of a range (from the query code) -/

/-- First part of `find_ttree_bounds`, Db/dbquery.c lines 454-524: node and slot of the first row in range; `none` is an error. A bound
that is `WG_ILLEGAL` is no bound. -/
def startPos [DecidableEq κ] (E : Env κ) (k : Nat) (s : St κ) (bound : κ) (inclusive : Bool) : Option (Nat × Int) :=
  if bound = E.ill then some (s.minN, 0)
  else if inclusive then
    match searchLeft E s bound k s.root 0 with
    | (co, .really) => (tnodeFirst E s co bound).map (fun i : Nat => (co, (i : Int)))
    | (co, .deadRight) => some ((s.h co).succ, 0)
    | (co, .deadLeft) => some (co, 0)
  else
    match searchRight E s bound k s.root 0 with
    | (co, .really) => (tnodeLast E s co bound).map (fun i : Nat =>
        if (s.h co).vals.length ≤ i + 1 then ((s.h co).succ, 0) else (co, ((i + 1 : Nat) : Int)))
    | (co, .deadRight) => some ((s.h co).succ, 0)
    | (co, .deadLeft) => some (co, 0)

/-- The last slot of a node that may be missing; -1 is the value the callers initialise the slot with. -/
def lastSlot (s : St κ) (node : Nat) (dflt : Int) : Nat × Int := (node, if node ≠ 0 then ((s.h node).vals.length : Int) - 1 else dflt)

/-- Second part of `find_ttree_bounds`, Db/dbquery.c lines 526-603: node and slot of the last row in range. -/
def endPos [DecidableEq κ] (E : Env κ) (k : Nat) (s : St κ) (bound : κ) (inclusive : Bool) : Option (Nat × Int) :=
  if bound = E.ill then some (lastSlot s s.maxN (-1))
  else if inclusive then
    match searchRight E s bound k s.root 0 with
    | (eo, .really) => (tnodeLast E s eo bound).map (fun i : Nat => (eo, (i : Int)))
    | (eo, .deadRight) => some (eo, ((s.h eo).vals.length : Int) - 1)
    | (eo, .deadLeft) => some (lastSlot s (s.h eo).pred (-1))
  else
    match searchLeft E s bound k s.root 0 with
    | (eo, .really) => (tnodeFirst E s eo bound).map (fun i : Nat =>
        if i = 0 then lastSlot s (s.h eo).pred (-1) else (eo, (i : Int) - 1))
    | (eo, .deadRight) => some (eo, ((s.h eo).vals.length : Int) - 1)
    | (eo, .deadLeft) => some (lastSlot s (s.h eo).pred (-1))

/-- Start and end of a range of rows. -/
structure Rng where
  co : Nat
  cs : Int
  eo : Nat
  es : Int
  deriving DecidableEq

/-- `find_ttree_bounds`, Db/dbquery.c lines 445-645: the last part detects empty ranges. `none` is -1. -/
def findBounds [DecidableEq κ] (E : Env κ) (k : Nat) (s : St κ) (startB endB : κ) (startInc endInc : Bool) : Option Rng :=
  match startPos E k s startB startInc, endPos E k s endB endInc with
  | some (co, cs), some (eo, es) =>
    if co ≠ 0 then
      if eo = co ∧ es < cs then some ⟨0, cs, 0, es⟩
      else if eo = 0 then some ⟨0, cs, eo, es⟩
      else if eo = (s.h co).pred then some ⟨0, cs, 0, es⟩
      else some ⟨co, cs, eo, es⟩
    else some ⟨co, cs, 0, es⟩
  | _, _ => none

/-- Cursor movement in `wg_fetch`, Db/dbquery.c lines 1033-1073, for direction 1, the only one ever set (line 719). The same
movement is in `wg_find_record`, lines 2097-2117. A slot below 0 does not occur. -/
def nextPos (s : St κ) (r : Rng) : Rng :=
  if r.co = r.eo ∧ r.cs = r.es then { r with co := 0 }
  else
    let cs := r.cs + 1
    if cs ≥ ((s.h r.co).vals.length : Int) then
      if r.eo = r.co then { r with co := 0, cs := cs } else { r with co := (s.h r.co).succ, cs := 0 }
    else { r with cs := cs }

/-- The row under the cursor. -/
def rowAt (s : St κ) (r : Rng) : Nat := (s.h r.co).vals.getD r.cs.toNat 0

/-- The rows from the cursor on. -/
def rangeRows (s : St κ) : Nat → Rng → List Nat
  | 0, _ => []
  | k + 1, r => if r.co = 0 then [] else rowAt s r :: rangeRows s k (nextPos s r)

/-- `create_ttree_index`, Db/dbindex.c lines 1382-1401: an empty root node at `root` (allocation failure is not checked there). -/
def create (E : Env κ) (h : Nat → Nd κ) (root : Nat) : St κ :=
  { h := fun j => if j = root then { parent := 0, left := 0, right := 0, lh := 0, rh := 0, mn := E.ill, mx := E.ill, vals := [], succ := 0, pred := 0 } else h j
    root := root, minN := root, maxN := root }

end WG.TTree
