import Verif.IndexCat.Model
/-!
# Specification of the index catalogue

The catalogue is a list of indexes, each as it was asked for: identifier, type, columns and match record.
-/
namespace WG.IndexCat
variable {κ : Type}

/-- Values on which the comparison is an equivalence that tells variables and records from other values. -/
structure VOk (V : Vt κ) (P : κ → Prop) : Prop where
  refl : ∀ a, P a → V.same a a = true
  symm : ∀ a b, P a → P b → V.same a b = true → V.same b a = true
  trans : ∀ a b c, P a → P b → P c → V.same a b = true → V.same b c = true → V.same a c = true
  var : ∀ a b, P a → P b → V.same a b = true → V.isVar a = V.isVar b
  rcd : ∀ a b, P a → P b → V.same a b = true → V.isRec a = V.isRec b
  apart : ∀ a, V.isRec a = true → V.isVar a = false

/-- The value that a match record fixes at position `k`. -/
def fix (V : Vt κ) (m : List κ) (k : Nat) : Option κ := (m[k]?).filter fun v => !V.isVar v

/-- Two match records ask for the same: they fix the same positions, with equal values. -/
def Alike (V : Vt κ) (m m' : List κ) : Prop :=
  ∀ k, (fix V m k = none ∧ fix V m' k = none) ∨ ∃ a b, fix V m k = some a ∧ fix V m' k = some b ∧ V.same a b = true

/-- The same for templates that may be missing. -/
def AlikeO (V : Vt κ) : Option (List κ) → Option (List κ) → Prop
  | none, none => True
  | some m, some m' => Alike V m m'
  | _, _ => False

/-- An index as it was asked for. -/
structure Ent (κ : Type) where
  id : Nat
  type : Int
  cols : List Int
  tmpl : Option (List κ)

/-- An index of the type, on the same set of columns, with the same template. -/
def Ent.Fits (V : Vt κ) (e : Ent κ) (cols : List Int) (type : Int) (m : Option (List κ)) : Prop :=
  e.type = type ∧ e.cols.Perm cols ∧ AlikeO V e.tmpl m

/-- Arguments with which an index can be created: one to ten different columns from 0 to 127, only one for a T-tree; the match record, if
there is one, is not empty, has at most 128 fields, at least one fixed value, no records, and does not fix an indexed column. -/
def Legal (V : Vt κ) (cols : List Int) (type : Int) (m : Option (List κ)) : Prop :=
  cols ≠ [] ∧ cols.length ≤ 10 ∧ cols.Nodup ∧ (∀ i ∈ cols, 0 ≤ i ∧ i ≤ 127) ∧ (type = TTREE → cols.length = 1) ∧
  ∀ l, m = some l → l.length ≤ 128 ∧ (∃ v ∈ l, V.isVar v = false) ∧ (∀ v ∈ l, V.isRec v = false) ∧ ∀ i ∈ cols, fix V l i.toNat = none

/-- Histories: `Hist V P c L` says that the catalogue `c` results from calls of wg_create_multi_index and wg_drop_index, and `L` are the
indexes that were created and not dropped. Types are those of existing implementations, hash tables can be created, allocated memory is not in use,
the reference count in the memory of a new template happens to be 0, the values in match records can be compared (`P`), and hash indexes
are not dropped. -/
inductive Hist (V : Vt κ) (P : κ → Prop) : Cat κ → List (Ent κ) → Prop
  | init (tm : Nat → Tm κ) : Hist V P (Cat.empty tm) []
  | create {c : Cat κ} {L : List (Ent κ)} (cols : List Int) (type : Int) (m : Option (List κ)) (al : Al) : Hist V P c L →
      (type = TTREE ∨ type = HASH ∨ type = HASH_JSON) → al.hash = true → al.hdr ≠ 0 → (∀ e ∈ L, e.id ≠ al.hdr) → al.tmpl ≠ 0 → al.tmpl ∉ c.tlist →
      (c.tm al.tmpl).refs = 0 → (∀ l, m = some l → ∀ v ∈ l, P v) →
      Hist V P (create V c cols type m al).1 (if (create V c cols type m al).2 = 0 then ⟨al.hdr, type, cols, m⟩ :: L else L)
  | drop {c : Cat κ} {L : List (Ent κ)} (id : Nat) : Hist V P c L → (∀ e ∈ L, e.id = id → e.type = TTREE) →
      Hist V P (drop V c id).1 (if (drop V c id).2 = 0 then L.filter (fun e => decide (e.id ≠ id)) else L)

end WG.IndexCat
