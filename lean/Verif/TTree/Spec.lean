import Verif.TTree.Model
/-!
# Specification for the T-tree index

Nothing here depends on how the tree is represented in the proofs: rows in walking order, which nodes are linked, real heights, and
histories of insertions and removals.
-/
namespace WG.TTree
variable {κ : Type}

/-- The rows met when walking the chain of nodes from `node` by the successor links (a walk like that in `wg_fetch`), for at most `k`
nodes. -/
def walk (s : St κ) : Nat → Nat → List Nat
  | 0, _ => []
  | k + 1, node => if node = 0 then [] else (s.h node).vals ++ walk s k (s.h node).succ

/-- The same backwards, from the last slot of each node. -/
def walkBack (s : St κ) : Nat → Nat → List Nat
  | 0, _ => []
  | k + 1, node => if node = 0 then [] else (s.h node).vals.reverse ++ walkBack s k (s.h node).pred

/-- The rows from a position (node and slot) on. -/
def walkFrom (s : St κ) (k : Nat) (x : Nat × Int) : List Nat :=
  if x.1 = 0 then [] else (s.h x.1).vals.drop x.2.toNat ++ walk s k (s.h x.1).succ

/-- The rows from a position backwards. -/
def walkBackFrom (s : St κ) (k : Nat) (x : Nat × Int) : List Nat :=
  if x.1 = 0 then [] else ((s.h x.1).vals.take (x.2 + 1).toNat).reverse ++ walkBack s k (s.h x.1).pred

/-- Nodes linked into the tree. -/
inductive Linked (s : St κ) : Nat → Prop
  | root : s.root ≠ 0 → Linked s s.root
  | left {i : Nat} : Linked s i → (s.h i).left ≠ 0 → Linked s (s.h i).left
  | right {i : Nat} : Linked s i → (s.h i).right ≠ 0 → Linked s (s.h i).right

/-- The real height of the subtree at a node, 0 for a missing child. -/
inductive Ht (s : St κ) : Nat → Nat → Prop
  | zero : Ht s 0 0
  | node {i a b : Nat} : i ≠ 0 → Ht s (s.h i).left a → Ht s (s.h i).right b → Ht s i (max a b + 1)

/-- `a` is not greater than `b`. -/
def Env.le (E : Env κ) (a b : κ) : Prop := E.cmp a b ≠ .gt

/-- What the index relies on: on the values that satisfy `P`, the comparison is a total preorder, and no such value equals
`WG_ILLEGAL`. -/
structure Ord (E : Env κ) (P : κ → Prop) : Prop where
  swap : ∀ {a b}, P a → P b → E.cmp b a = (E.cmp a b).swap
  trans : ∀ {a b c}, P a → P b → P c → E.le a b → E.le b c → E.le a c
  ill : ∀ {a}, P a → E.cmp a E.ill ≠ .eq

/-- Number of loop iterations that is enough for every operation on an index with `n` rows. -/
def fuel (n : Nat) : Nat := 3 * n + 4

/-- Histories of one index: `Hist E P s l` says that the state `s` can result from creating the index and then inserting and removing
rows, when `l` are the rows inserted and not removed (in order of insertion, newest first). Before an insertion the node allocator has a
node that is not linked into the tree (it is only taken if needed). Removals may be of any row, in the index or not. Rows that are not
in the index may change their value, and so may the memory that the comparison looks at, if the values in the index keep their order. -/
inductive Hist : Env κ → (κ → Prop) → St κ → List Nat → Prop
  | create {E : Env κ} {P : κ → Prop} (h : Nat → Nd κ) (root : Nat) : Ord E P → root ≠ 0 → Hist E P (create E h root) []
  | add {E : Env κ} {P : κ → Prop} {s : St κ} {l : List Nat} (k nn row : Nat) : Hist E P s l → P (E.key row) → nn ≠ 0 → ¬ Linked s nn →
      fuel l.length ≤ k → Hist E P (addRow E k s (some nn) row).1 (row :: l)
  | remove {E : Env κ} {P : κ → Prop} {s : St κ} {l : List Nat} (k row : Nat) : Hist E P s l → P (E.key row) →
      fuel l.length ≤ k → Hist E P (removeRow E k s row).1 (l.erase row)
  | update {E E' : Env κ} {P P' : κ → Prop} {s : St κ} {l : List Nat} : Hist E P s l → Ord E' P' → E'.ill = E.ill →
      (∀ r ∈ l, E'.key r = E.key r ∧ P' (E'.key r)) → (∀ r ∈ l, ∀ q ∈ l, E'.cmp (E.key r) (E.key q) = E.cmp (E.key r) (E.key q)) →
      Hist E' P' s l

end WG.TTree
