import Verif.Query.Model
import Verif.TTree.Spec
/-!
# Specification for queries
-/
namespace WG.Query
open WG.TTree
variable {κ : Type}

/-- A record satisfies a condition: it has the column, and the value there compares as asked with the value of the condition. -/
def Sat (db : DB κ) (r : Nat) (a : Arg κ) : Prop :=
  a.col < db.len r ∧
  match a.cond with
  | .equal => db.cmp (db.fld r a.col) a.value = .eq
  | .notEqual => db.cmp (db.fld r a.col) a.value ≠ .eq
  | .lessThan => db.cmp (db.fld r a.col) a.value = .lt
  | .greater => db.cmp (db.fld r a.col) a.value = .gt
  | .ltEqual => db.cmp (db.fld r a.col) a.value ≠ .gt
  | .gtEqual => db.cmp (db.fld r a.col) a.value ≠ .lt
  | .other => True

/-- A record matches a match record: wherever the match record has a value that is not a variable, the record has an equal value. -/
def Matches (db : DB κ) (m : List κ) (r : Nat) : Prop :=
  ∀ i v, m[i]? = some v → db.isVar v = false → i < db.len r ∧ db.cmp v (db.fld r i) = .eq

/-- The rows that a query asks for. -/
def Wanted (db : DB κ) (matchrec : Option (List κ)) (arglist : Option (List (Arg κ))) (r : Nat) : Prop :=
  r ∈ db.recs ∧ (∀ l, arglist = some l → ∀ a ∈ l, Sat db r a) ∧ (∀ m, matchrec = some m → Matches db m r)

/-- The values used in the conditions of a query. -/
def QueryValue (db : DB κ) (matchrec : Option (List κ)) (arglist : Option (List (Arg κ))) (v : κ) : Prop :=
  (∃ l a, arglist = some l ∧ a ∈ l ∧ a.value = v) ∨ (∃ m, matchrec = some m ∧ v ∈ m ∧ db.isVar v = false)

/-- `Fetches db k q rows`: repeated calls of `wg_fetch` return the rows `rows` and then NULL. -/
inductive Fetches (db : DB κ) (k : Nat) : Query κ → List Nat → Prop
  | done {q : Query κ} : (fetch db k q).1 = 0 → Fetches db k q []
  | row {q : Query κ} {rows : List Nat} : (fetch db k q).1 ≠ 0 → Fetches db k (fetch db k q).2 rows → Fetches db k q ((fetch db k q).1 :: rows)

/-- `Finds db k col c v last rows`: repeated calls of `wg_find_record`, each given the previous result and the first one `last`, return the
records `rows` and then NULL. -/
inductive Finds [DecidableEq κ] (db : DB κ) (k col : Nat) (c : Cond) (v : κ) : Nat → List Nat → Prop
  | done {last : Nat} : findRecord db k col c v last = 0 → Finds db k col c v last []
  | row {last : Nat} {rows : List Nat} : findRecord db k col c v last ≠ 0 → Finds db k col c v (findRecord db k col c v last) rows →
      Finds db k col c v last (findRecord db k col c v last :: rows)

/-- Databases in which the values (those that satisfy `P`) are ordered by the comparison, and every T-tree index is the result of a
history of insertions and removals after which it has exactly the records that are long enough and match its template, each once. -/
structure WF (db : DB κ) (P : κ → Prop) : Prop where
  ord : ∀ c, Ord (db.env c) P
  nodup : db.recs.Nodup
  nz : 0 ∉ db.recs
  vals : ∀ r ∈ db.recs, ∀ c, c < db.len r → P (db.fld r c)
  tmpl : ∀ c, ∀ ix ∈ db.idx c, ∀ m, ix.tmpl = some m → ∀ v ∈ m, db.isVar v = false → P v
  index : ∀ c, ∀ ix ∈ db.idx c, ix.ttree = true → ∃ l, Hist (db.env c) P ix.st l ∧ l.Nodup ∧
    ∀ r, r ∈ l ↔ r ∈ db.recs ∧ c < db.len r ∧ ∀ m, ix.tmpl = some m → Matches db m r

end WG.Query
