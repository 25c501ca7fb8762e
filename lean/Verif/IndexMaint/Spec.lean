import Verif.IndexMaint.Model
import Verif.Records.Hist
/-!
# Specification of index maintenance

Which rows an index should have, which values may be stored, and which reference structures the library's handling of nested records in
indexes can cope with.
-/
namespace WG.Recs

/-- Field `c` of record `r`. -/
def Table.field (T : Table) (r : Word) (c : Nat) : Option Word := (T r).bind (·[c]?)

/-- A chain of references to record `r`: every place (record and column) in the list but the last holds the record of the next place, and
the last holds `r`. -/
def Leads (T : Table) (r : Word) : List (Word × Nat) → Prop
  | [] => False
  | [(p, c)] => T.field p c = some r
  | (p, c) :: (q, d) :: t => T.field p c = some q ∧ Leads T r ((q, d) :: t)

/-- The references around place (`r`, `i`) are simple, as far as indexed columns go: an indexed field leads to `r` in at most one way within
seven steps (and no other field of its record holds the same value, if it does), and `r` does not lead back to itself through a field that
has to be reindexed anyway when field `i` changes. Any structure in which no record is referred to twice and none contains itself is simple. -/
structure Simple (T : Table) (x : List Idx) (r : Word) (i : Nat) : Prop where
  once : ∀ p c d A B, (∃ e ∈ x, e.col = c) → Leads T r ((p, c) :: A) → Leads T r ((p, d) :: B) → A.length ≤ 6 → B.length ≤ 6 →
    T.field p c = T.field p d → c = d ∧ A = B
  self : ∀ e ∈ x, (e.col = i ∨ i ∈ e.fixed) → ∀ A, A.length ≤ 6 → ¬ Leads T r ((r, e.col) :: A)

/-- A value that can be ordered: the encoding of some data, not NaN. -/
def Good (h : Heap) (w : Word) : Prop :=
  (∃ d : Datum, d.Valid h.mem ∧ w = d.encode) ∧ (isFulldouble w = true → ∀ x, h.dbls (decodeFulldouble w) = some x → isNaN x = false)

/-- Record `r` matches the match record `m`: it has a field for every fixed column of `m`, with an equal value. -/
def Matches (h : Heap) (m r : Word) : Prop :=
  m = 0#64 ∨ ∃ mf rf, view h m = some mf ∧ view h r = some rf ∧
    ∀ (c : Nat) v, mf[c]? = some v → h.reader.typ v ≠ some .var → ∃ w, rf[c]? = some w ∧ WG_COMPARE h.reader v w = 0

/-- Record `r` should be in an index on column `c` with match record `m`: it is a data record, long enough, and it matches. -/
def Row (h : Heap) (c : Nat) (m r : Word) : Prop :=
  ∃ rc, h.recs r = some rc ∧ rc.special = false ∧ c < rc.fields.length ∧ Matches h m r

end WG.Recs
